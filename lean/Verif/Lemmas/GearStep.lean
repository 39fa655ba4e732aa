import Verif.Lemmas.GearBase
import Verif.Lemmas.Cells
/-!
# Elementary steps of the allocator: changing, pushing and popping index cells; trimming; scanning
-/
namespace Fptu.Gear
open Finset

def upd (len : Nat → Nat) (a n : Nat) : Nat → Nat := fun b => if b = a then n else len b
@[simp] theorem upd_same (len : Nat → Nat) (a n : Nat) : upd len a n a = n := if_pos rfl
theorem upd_ne (len : Nat → Nat) {a b : Nat} (n : Nat) (h : b ≠ a) : upd len a n b = len b := if_neg h

theorem T_phiW_change {m m' : Memory} {len len' : Nat → Nat} {p lo hi : Nat} (u a : Nat) (h1 : lo ≤ a) (h2 : a < hi)
    (hm : ∀ b, b ≠ a → m' b = m b) (hl : ∀ b, b ≠ a → len' b = len b) :
    T (phiW p len' u) m' lo hi = T (phiW p len u) m lo hi - phiW p len u a (m a) + phiW p len' u a (m' a) := by
  refine T_change a h1 h2 fun b hb _ _ => ?_
  unfold phiW clen; rw [hm b hb, hl b hb]

/-- Rewriting one index cell. -/
theorem Inv.change {s s' : RW} {len len' : Nat → Nat} {ex ex' : Nat → ℤ} (h : Inv s len ex) (a : Nat)
    (h1 : s.head ≤ a) (h2 : a < s.pivot)
    (hh : s'.head = s.head) (hp : s'.pivot = s.pivot) (hpre : s'.pre = s.pre) (hlim : s'.lim = s.lim)
    (hm : ∀ b, b ≠ a → s'.mem b = s.mem b) (hl : ∀ b, b ≠ a → len' b = len b)
    (bt : s.base ≤ s'.tail) (tl : s'.tail ≤ s.lim)
    (hjc : (s'.jc : ℤ) = s.jc - phiC a (s.mem a) + phiC a (s'.mem a))
    (hjv : (s'.jv : ℤ) = s.jv - phiV a (s.mem a) + phiV a (s'.mem a))
    (hc : ∀ u, phiW s.pivot len' u a (s'.mem a) + ex' u + ind s.base (s.tail - s.base) u
      = phiW s.pivot len u a (s.mem a) + ex u + ind s.base (s'.tail - s.base) u)
    (hex : ∀ u, 0 ≤ ex' u) : Inv s' len' ex' := by
  have hb : s'.base = s.base := by show s'.pivot + s'.pre = _; rw [hp, hpre]
  have hpb : s.pivot ≤ s.base := Nat.le_add_right _ _
  refine ⟨by rw [hh, hp]; exact h.hp, by rw [hb]; exact bt, by rw [hlim]; exact tl, by rw [hlim]; exact h.ll, ?_, ?_, ?_, hex⟩
  · intro u
    rw [hh, hp, hb, T_phiW_change (m := s.mem) (len := len) u a h1 (by omega) hm hl]
    have := h.cover u
    have := hc u
    omega
  · rw [hh, hp, T_change (φ := phiC) (m := s.mem) a h1 h2 (fun b hb' _ _ => by rw [hm b hb'])]
    have := h.cnt
    omega
  · rw [hh, hp, T_change (φ := phiV) (m := s.mem) a h1 h2 (fun b hb' _ _ => by rw [hm b hb'])]
    have := h.vol
    omega

/-- Rewriting one preplaced cell. -/
theorem Inv.changePre {s s' : RW} {len len' : Nat → Nat} {ex ex' : Nat → ℤ} (h : Inv s len ex) (a : Nat)
    (h1 : s.pivot ≤ a) (h2 : a < s.base)
    (hh : s'.head = s.head) (hp : s'.pivot = s.pivot) (hpre : s'.pre = s.pre) (hlim : s'.lim = s.lim)
    (hm : ∀ b, b ≠ a → s'.mem b = s.mem b) (hl : ∀ b, b ≠ a → len' b = len b)
    (bt : s.base ≤ s'.tail) (tl : s'.tail ≤ s.lim)
    (hjc : s'.jc = s.jc) (hjv : s'.jv = s.jv)
    (hc : ∀ u, phiW s.pivot len' u a (s'.mem a) + ex' u + ind s.base (s.tail - s.base) u
      = phiW s.pivot len u a (s.mem a) + ex u + ind s.base (s'.tail - s.base) u)
    (hex : ∀ u, 0 ≤ ex' u) : Inv s' len' ex' := by
  have hb : s'.base = s.base := by show s'.pivot + s'.pre = _; rw [hp, hpre]
  have h3 := h.hp
  refine ⟨by rw [hh, hp]; exact h.hp, by rw [hb]; exact bt, by rw [hlim]; exact tl, by rw [hlim]; exact h.ll, ?_, ?_, ?_, hex⟩
  · intro u
    rw [hh, hp, hb, T_phiW_change (m := s.mem) (len := len) u a (by omega) h2 hm hl]
    have := h.cover u
    have := hc u
    omega
  · rw [hh, hp, hjc, h.cnt]
    exact T_congr fun b _ hb' => by rw [hm b (by omega)]
  · rw [hh, hp, hjv, h.vol]
    exact T_congr fun b _ hb' => by rw [hm b (by omega)]

/-- Changing only the detached units and the tail. -/
theorem Inv.retail {s s' : RW} {len : Nat → Nat} {ex ex' : Nat → ℤ} (h : Inv s len ex)
    (hh : s'.head = s.head) (hp : s'.pivot = s.pivot) (hpre : s'.pre = s.pre) (hlim : s'.lim = s.lim)
    (hm : s'.mem = s.mem) (bt : s.base ≤ s'.tail) (tl : s'.tail ≤ s.lim)
    (hjc : s'.jc = s.jc) (hjv : s'.jv = s.jv)
    (hc : ∀ u, ex' u + ind s.base (s.tail - s.base) u = ex u + ind s.base (s'.tail - s.base) u)
    (hex : ∀ u, 0 ≤ ex' u) : Inv s' len ex' := by
  have hb : s'.base = s.base := by show s'.pivot + s'.pre = _; rw [hp, hpre]
  refine ⟨by rw [hh, hp]; exact h.hp, by rw [hb]; exact bt, by rw [hlim]; exact tl, by rw [hlim]; exact h.ll, ?_, ?_, ?_, hex⟩
  · intro u
    rw [hh, hp, hb, hm]
    have := h.cover u
    have := hc u
    omega
  · rw [hh, hp, hjc, hm]; exact h.cnt
  · rw [hh, hp, hjv, hm]; exact h.vol

/-- Dropping the first index cell. -/
theorem Inv.pop {s s' : RW} {len : Nat → Nat} {ex : Nat → ℤ} (h : Inv s len ex) (h1 : s.head < s.pivot)
    (hh : s'.head = s.head + 1) (hp : s'.pivot = s.pivot) (hpre : s'.pre = s.pre) (hlim : s'.lim = s.lim)
    (hm : s'.mem = s.mem) (bt : s.base ≤ s'.tail) (tl : s'.tail ≤ s.lim)
    (hjc : (s'.jc : ℤ) = s.jc - phiC s.head (s.mem s.head))
    (hjv : (s'.jv : ℤ) = s.jv - phiV s.head (s.mem s.head))
    (hc : ∀ u, ind s.base (s.tail - s.base) u
      = phiW s.pivot len u s.head (s.mem s.head) + ind s.base (s'.tail - s.base) u) : Inv s' len ex := by
  have hb : s'.base = s.base := by show s'.pivot + s'.pre = _; rw [hp, hpre]
  have hpb : s.pivot ≤ s.base := Nat.le_add_right _ _
  refine ⟨by rw [hh, hp]; exact h1, by rw [hb]; exact bt, by rw [hlim]; exact tl, by rw [hlim]; exact h.ll, ?_, ?_, ?_, h.exnn⟩
  · intro u
    have c := h.cover u
    have := hc u
    rw [T_succ _ _ (show s.head < s.base by omega)] at c
    rw [hh, hp, hb, hm]
    omega
  · have c := h.cnt
    rw [T_succ _ _ h1] at c
    rw [hh, hp, hm]
    omega
  · have c := h.vol
    rw [T_succ _ _ h1] at c
    rw [hh, hp, hm]
    omega

/-- Adding a new first index cell. -/
theorem Inv.push {s s' : RW} {len len' : Nat → Nat} {ex ex' : Nat → ℤ} (h : Inv s len ex) (h1 : 0 < s.head)
    (hh : s'.head = s.head - 1) (hp : s'.pivot = s.pivot) (hpre : s'.pre = s.pre) (hlim : s'.lim = s.lim)
    (hm : ∀ b, b ≠ s'.head → s'.mem b = s.mem b) (hl : ∀ b, b ≠ s'.head → len' b = len b)
    (bt : s.base ≤ s'.tail) (tl : s'.tail ≤ s.lim)
    (hjc : (s'.jc : ℤ) = s.jc + phiC s'.head (s'.mem s'.head))
    (hjv : (s'.jv : ℤ) = s.jv + phiV s'.head (s'.mem s'.head))
    (hc : ∀ u, phiW s.pivot len' u s'.head (s'.mem s'.head) + ex' u + ind s.base (s.tail - s.base) u
      = ex u + ind s.base (s'.tail - s.base) u)
    (hex : ∀ u, 0 ≤ ex' u) : Inv s' len' ex' := by
  have hb : s'.base = s.base := by show s'.pivot + s'.pre = _; rw [hp, hpre]
  have hpb : s.pivot ≤ s.base := Nat.le_add_right _ _
  have h3 := h.hp
  have e : s'.head + 1 = s.head := by omega
  refine ⟨by rw [hh, hp]; omega, by rw [hb]; exact bt, by rw [hlim]; exact tl, by rw [hlim]; exact h.ll, ?_, ?_, ?_, hex⟩
  · intro u
    have c := h.cover u
    have := hc u
    rw [hp, hb, T_succ _ _ (show s'.head < s.base by omega), e,
      T_congr (φ := phiW s.pivot len' u) (ψ := phiW s.pivot len u) (m := s'.mem) (m' := s.mem)
      (fun b hb1 _ => by unfold phiW clen; rw [hm b (by omega), hl b (by omega)])]
    omega
  · have c := h.cnt
    rw [hp, T_succ _ _ (show s'.head < s.pivot by omega), e,
      T_congr (φ := phiC) (ψ := phiC) (m := s'.mem) (m' := s.mem) (fun b hb1 _ => by rw [hm b (by omega)])]
    omega
  · have c := h.vol
    rw [hp, T_succ _ _ (show s'.head < s.pivot by omega), e,
      T_congr (φ := phiV) (ψ := phiV) (m := s'.mem) (m' := s.mem) (fun b hb1 _ => by rw [hm b (by omega)])]
    omega

theorem Frame.change {s s' : RW} {X : Nat → Prop} (a : Nat)
    (hh : s'.head = s.head) (hp : s'.pivot = s.pivot) (hpre : s'.pre = s.pre) (hlim : s'.lim = s.lim)
    (hm : ∀ b, b ≠ a → s'.mem b = s.mem b)
    (hx : X a ∨ (a < s.pivot ∧ s.isHole a ∧ s'.isHole a)) : Frame s s' X := by
  refine ⟨hp, hpre, hlim, fun b hb => ?_, fun b hb hl => ?_, fun b hb hl => ?_⟩
  · unfold RW.live
    rw [hh, hp]
    by_cases hba : b = a
    · subst hba
      rcases hx with hx | hx
      · exact absurd hx hb
      · exact ⟨fun h => absurd hx.2.2 h.2.2, fun h => absurd hx.2.1 h.2.2⟩
    · show _ ∧ _ ∧ ¬ Cell.isHole _ ↔ _ ∧ _ ∧ ¬ Cell.isHole _
      rw [hm b hba]
  · refine hm b fun hba => ?_
    subst hba
    rcases hx with hx | hx
    · exact hb hx
    · exact hl.2.2 hx.2.1
  · refine hm b fun hba => ?_
    subst hba
    rcases hx with hx | hx
    · exact hb hx
    · omega

theorem Frame.same {s s' : RW} {X : Nat → Prop}
    (hh : s'.head = s.head) (hp : s'.pivot = s.pivot) (hpre : s'.pre = s.pre) (hlim : s'.lim = s.lim)
    (hm : s'.mem = s.mem) : Frame s s' X := by
  refine ⟨hp, hpre, hlim, fun b hb => ?_, fun b hb hl => by rw [hm], fun b hb hl => by rw [hm]⟩
  unfold RW.live
  show _ ∧ _ ∧ ¬ Cell.isHole _ ↔ _ ∧ _ ∧ ¬ Cell.isHole _
  rw [hh, hp, hm]

theorem Frame.pop {s s' : RW} {X : Nat → Prop} (h0 : s.isHole s.head)
    (hh : s'.head = s.head + 1) (hp : s'.pivot = s.pivot) (hpre : s'.pre = s.pre) (hlim : s'.lim = s.lim)
    (hm : s'.mem = s.mem) : Frame s s' X := by
  refine ⟨hp, hpre, hlim, fun b hb => ?_, fun b hb hl => by rw [hm], fun b hb hl => by rw [hm]⟩
  unfold RW.live
  show _ ∧ _ ∧ ¬ Cell.isHole _ ↔ _ ∧ _ ∧ ¬ Cell.isHole _
  rw [hh, hp, hm]
  constructor
  · intro h; exact ⟨by omega, h.2⟩
  · intro h
    refine ⟨?_, h.2⟩
    rcases Nat.lt_or_eq_of_le h.1 with h' | h'
    · exact h'
    · exact absurd (h' ▸ h0) h.2.2

theorem Frame.push {s s' : RW} {X : Nat → Prop} (h1 : 0 < s.head) (hpv : s.head ≤ s.pivot)
    (hh : s'.head = s.head - 1) (hp : s'.pivot = s.pivot) (hpre : s'.pre = s.pre) (hlim : s'.lim = s.lim)
    (hm : ∀ b, b ≠ s'.head → s'.mem b = s.mem b)
    (hx : X s'.head ∨ s'.isHole s'.head) : Frame s s' X := by
  refine ⟨hp, hpre, hlim, fun b hb => ?_, fun b hb hl => hm b ?_, fun b hb hl => hm b (by omega)⟩
  · unfold RW.live
    by_cases hba : b = s'.head
    · subst hba
      rcases hx with hx | hx
      · exact absurd hx hb
      · constructor
        · intro h; exact absurd hx h.2.2
        · intro h; omega
    · show _ ∧ _ ∧ ¬ Cell.isHole _ ↔ _ ∧ _ ∧ ¬ Cell.isHole _
      rw [hm b hba, hp]
      constructor
      · intro h; exact ⟨by omega, h.2⟩
      · intro h; exact ⟨by omega, h.2⟩
  · have := hl.1; omega

/-! ## trimming -/

structure TrimPost (s s' : RW) (len : Nat → Nat) (ex : Nat → ℤ) : Prop where
  inv : Inv s' len ex
  frame : Frame s s' fun _ => False
  mem : s'.mem = s.mem
  head : s.head < s'.head
  tail : s'.tail ≤ s.tail
  popped : ∀ a, s.head ≤ a → a < s'.head → s.units a ≠ 0 → s'.tail ≤ s.start a
  stop : s'.head < s'.pivot → s'.isHole s'.head → s'.units s'.head ≠ 0 ∧ s'.holeEnd s'.head ≠ s'.tail

theorem sub16_eq {a b : Nat} (h : b ≤ a) (ha : a < 65536) : sub16 a b = a - b := by unfold sub16; omega
theorem add16_eq {a b : Nat} (h : a + b < 65536) : add16 a b = a + b := by unfold add16; omega

theorem phiC_hole {a : Nat} {c : Cell} (h : Cell.isHole c) : phiC a c = 1 := by unfold phiC; rw [if_pos h]
theorem phiC_live {a : Nat} {c : Cell} (h : ¬ Cell.isHole c) : phiC a c = 0 := by unfold phiC; rw [if_neg h]
theorem phiV_hole {a : Nat} {c : Cell} (h : Cell.isHole c) : phiV a c = Cell.units c := by unfold phiV; rw [if_pos h]
theorem phiV_live {a : Nat} {c : Cell} (h : ¬ Cell.isHole c) : phiV a c = 0 := by unfold phiV; rw [if_neg h]
theorem phiW_hole {p a u : Nat} {len : Nat → Nat} {c : Cell} (ha : a < p) (h : Cell.isHole c) :
    phiW p len u a c = ind (a + c.lo) (Cell.units c) u := by unfold phiW clen; rw [if_pos ⟨ha, h⟩]
theorem phiW_live {p a u : Nat} {len : Nat → Nat} {c : Cell} (h : ¬ Cell.isHole c) :
    phiW p len u a c = ind (a + c.lo) (len a) u := by unfold phiW clen; rw [if_neg fun h' => h h'.2]
theorem phiW_pre {p a u : Nat} {len : Nat → Nat} {c : Cell} (h : p ≤ a) :
    phiW p len u a c = ind (a + c.lo) (len a) u := by unfold phiW clen; rw [if_neg fun h' => by omega]

theorem trim_aux (s : RW) (len : Nat → Nat) (ex : Nat → ℤ) (h1 : s.head < s.pivot) (h2 : s.isHole s.head)
    (h3 : s.units s.head ≠ 0 → s.tail ≤ s.start s.head)
    (i1 : Inv { s with jc := sub16 s.jc 1, head := s.head + 1 } len ex) : TrimPost s (trim s) len ex := by
  set s1 : RW := { s with jc := sub16 s.jc 1, head := s.head + 1 } with hs1
  have f1 : Frame s s1 fun _ => False := Frame.pop h2 rfl rfl rfl rfl rfl
  rw [trim]
  simp only
  rw [← hs1]
  have base : (s1.head < s1.pivot → s1.isHole s1.head → s1.units s1.head ≠ 0 ∧ s1.holeEnd s1.head ≠ s1.tail) →
      TrimPost s s1 len ex := by
    intro st
    refine ⟨i1, f1, rfl, Nat.lt_succ_self _, le_rfl, fun a ha hb hu => ?_, st⟩
    have : a = s.head := by have : a < s.head + 1 := hb; omega
    subst this; exact h3 hu
  by_cases c1 : s1.head < s1.pivot
  · rw [if_pos c1]
    by_cases c2 : s1.isHole s1.head
    · rw [if_neg (not_not.2 c2)]
      have hl : s1.hole s1.head := ⟨le_rfl, c1, c2⟩
      have hjc := i1.jc_pos hl
      have h16 := i1.lt16
      have e1 : sub16 s1.jc 1 = s1.jc - 1 := sub16_eq hjc (by omega)
      by_cases c3 : s1.units s1.head = 0
      · rw [if_pos c3]
        have hcu : Cell.units (s1.mem s1.head) = 0 := c3
        have i2 : Inv { s1 with jc := sub16 s1.jc 1, head := s1.head + 1 } len ex := by
          refine Inv.pop i1 c1 rfl rfl rfl rfl rfl i1.bt i1.tl ?_ ?_ ?_
          · rw [phiC_hole c2]; show ((sub16 s1.jc 1 : Nat) : ℤ) = _; omega
          · rw [phiV_hole c2, hcu]; show (s1.jv : ℤ) = _; omega
          · intro u; rw [phiW_hole c1 c2, hcu, ind_zero]; show _ = 0 + ind s1.base (s1.tail - s1.base) u; omega
        have ih := trim_aux s1 len ex c1 c2 (fun hh => absurd c3 hh) i2
        refine ⟨ih.inv, f1.trans ih.frame, ih.mem, lt_trans (Nat.lt_succ_self _) ih.head, ih.tail, ?_, ih.stop⟩
        intro a ha hb hu
        by_cases hae : a = s.head
        · subst hae; exact le_trans ih.tail (h3 hu)
        · exact ih.popped a (by show s.head + 1 ≤ a; omega) hb hu
      · rw [if_neg c3]
        by_cases c4 : s1.holeEnd s1.head ≠ s1.tail
        · rw [if_pos c4]
          exact base fun _ _ => ⟨c3, c4⟩
        · rw [if_neg c4]
          have c4' : s1.holeEnd s1.head = s1.tail := not_not.1 c4
          have hin := i1.hole_inside hl c3
          have hvl := i1.hole_units_le hl
          have hv16 := i1.vol_le (p := 0) (n := 0) (fun u => by rw [ind_zero]; exact i1.exnn u)
          have e2 : sub16 s1.jv (s1.units s1.head) = s1.jv - s1.units s1.head := sub16_eq hvl (by omega)
          set s2 : RW := { s1 with jv := sub16 s1.jv (s1.units s1.head), tail := s1.tail - s1.units s1.head } with hs2
          have st : s1.tail - s1.units s1.head = s1.start s1.head := by
            have : s1.holeEnd s1.head = s1.start s1.head + s1.units s1.head := rfl
            omega
          have i2 : Inv { s2 with jc := sub16 s2.jc 1, head := s2.head + 1 } len ex := by
            refine Inv.pop i1 c1 rfl rfl rfl rfl rfl ?_ ?_ ?_ ?_ ?_
            · show s1.base ≤ s1.tail - s1.units s1.head; omega
            · have := i1.tl; show s1.tail - s1.units s1.head ≤ s1.lim; omega
            · rw [phiC_hole c2]; show ((sub16 s1.jc 1 : Nat) : ℤ) = _; omega
            · rw [phiV_hole c2]; show ((sub16 s1.jv (s1.units s1.head) : Nat) : ℤ) = s1.jv - s1.units s1.head; omega
            · intro u
              rw [phiW_hole c1 c2]
              show ind s1.base (s1.tail - s1.base) u
                = ind (s1.start s1.head) (s1.units s1.head) u + ind s1.base (s1.tail - s1.units s1.head - s1.base) u
              generalize s1.start s1.head = p at *
              generalize s1.units s1.head = n at *
              unfold ind
              split_ifs <;> omega
          have ih := trim_aux s2 len ex c1 c2 (fun _ => le_of_eq st) i2
          have f2 : Frame s1 s2 fun _ => False := Frame.same rfl rfl rfl rfl rfl
          have ht : s2.tail ≤ s.tail := by show s.tail - _ ≤ s.tail; omega
          refine ⟨ih.inv, (f1.trans f2).trans ih.frame, ih.mem, lt_trans (Nat.lt_succ_self _) ih.head,
            le_trans ih.tail ht, ?_, ih.stop⟩
          intro a ha hb hu
          by_cases hae : a = s.head
          · subst hae; exact le_trans (le_trans ih.tail ht) (h3 hu)
          · exact ih.popped a (by show s.head + 1 ≤ a; omega) hb hu
    · rw [if_pos c2]
      exact base fun _ hh => absurd hh c2
  · rw [if_neg c1]
    exact base fun hh => absurd hh c1
termination_by s.pivot - s.head
decreasing_by
  all_goals (show s.pivot - (s.head + 1) < s.pivot - s.head; omega)

theorem trim_spec (s : RW) (len : Nat → Nat) (ex : Nat → ℤ) (h : Inv s len ex) (h1 : s.head < s.pivot)
    (h2 : s.isHole s.head) (h3 : s.units s.head = 0) : TrimPost s (trim s) len ex := by
  have hjc := h.jc_pos ⟨le_rfl, h1, h2⟩
  have h16 := h.lt16
  have e1 : sub16 s.jc 1 = s.jc - 1 := sub16_eq hjc (by omega)
  have hcu : Cell.units (s.mem s.head) = 0 := h3
  refine trim_aux s len ex h1 h2 (fun hh => absurd h3 hh) ?_
  refine Inv.pop h h1 rfl rfl rfl rfl rfl h.bt h.tl ?_ ?_ ?_
  · rw [phiC_hole h2]; show ((sub16 s.jc 1 : Nat) : ℤ) = _; omega
  · rw [phiV_hole h2, hcu]; show (s.jv : ℤ) = _; omega
  · intro u; rw [phiW_hole h1 h2, hcu, ind_zero]; show _ = 0 + ind s.base (s.tail - s.base) u; omega

end Fptu.Gear
