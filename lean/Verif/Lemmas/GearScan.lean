import Verif.Lemmas.GearStep
/-!
# Hole searches of the allocator
-/
namespace Fptu.Gear
open Finset

theorem lookupFrom_some {m : Memory} {w e a r : Nat} (h : lookupFrom m w e a = some r) :
    a ≤ r ∧ r < e ∧ (m r).hi = w ∧ ∀ b, a ≤ b → b < r → (m b).hi ≠ w := by
  rw [lookupFrom] at h
  by_cases c : a < e
  · rw [if_pos c] at h
    by_cases c2 : (m a).hi = w
    · rw [if_pos c2] at h
      cases h
      exact ⟨le_rfl, c, c2, fun b hb hb' => by omega⟩
    · rw [if_neg c2] at h
      have ih := lookupFrom_some h
      refine ⟨by omega, ih.2.1, ih.2.2.1, fun b hb hb' => ?_⟩
      by_cases hba : b = a
      · subst hba; exact c2
      · exact ih.2.2.2 b (by omega) hb'
  · rw [if_neg c] at h; cases h
termination_by e - a

theorem lookupFrom_none {m : Memory} {w e a : Nat} (h : lookupFrom m w e a = none) :
    ∀ b, a ≤ b → b < e → (m b).hi ≠ w := by
  intro b hb hb'
  rw [lookupFrom] at h
  by_cases c : a < e
  · rw [if_pos c] at h
    by_cases c2 : (m a).hi = w
    · rw [if_pos c2] at h; cases h
    · rw [if_neg c2] at h
      by_cases hba : b = a
      · subst hba; exact c2
      · exact lookupFrom_none h b (by omega) hb'
  · omega
termination_by e - a

theorem lookup_hole_some {s : RW} {n r : Nat} (hn : n ≤ 2047) (h : s.lookup (holeWord n) = some r) :
    s.hole r ∧ s.units r = n := by
  obtain ⟨h1, h2, h3, _⟩ := lookupFrom_some h
  refine ⟨⟨h1, h2, ?_⟩, ?_⟩
  · show (s.mem r).hi / 2048 = 31
    rw [h3]; unfold holeWord; omega
  · show (s.mem r).hi % 2048 = n
    rw [h3]; unfold holeWord; omega

theorem lookup_hole_none {s : RW} {n : Nat} (h : s.lookup (holeWord n) = none) :
    ∀ a, s.hole a → s.units a ≠ n := by
  intro a ha hu
  refine lookupFrom_none h a ha.1 ha.2.1 ?_
  rw [Cell.hi_of_hole ha.2.2]
  exact congrArg holeWord hu

/-- Index addresses from `scan` on that hold holes, in index order. -/
def RW.holesFrom (s : RW) (scan : Nat) : List Nat :=
  (List.range' scan (s.pivot - scan)).filter fun a => decide (s.isHole a)

theorem mem_holesFrom {s : RW} {scan a : Nat} : a ∈ s.holesFrom scan ↔ scan ≤ a ∧ a < s.pivot ∧ s.isHole a := by
  unfold RW.holesFrom
  rw [List.mem_filter, List.mem_range'_1, decide_eq_true_eq]
  constructor
  · rintro ⟨h, h'⟩; exact ⟨h.1, by omega, h'⟩
  · rintro ⟨h, h', h''⟩; exact ⟨⟨h, by omega⟩, h''⟩

theorem mem_holes {s : RW} {a : Nat} : a ∈ s.holesFrom s.head ↔ s.hole a := mem_holesFrom

theorem holesFrom_step {s : RW} {scan : Nat} (h : scan < s.pivot) :
    s.holesFrom scan = if s.isHole scan then scan :: s.holesFrom (scan + 1) else s.holesFrom (scan + 1) := by
  unfold RW.holesFrom
  rw [show s.pivot - scan = (s.pivot - (scan + 1)) + 1 by omega, List.range'_succ, List.filter_cons]
  simp only [decide_eq_true_eq]

theorem holesFrom_end {s : RW} {scan : Nat} (h : s.pivot ≤ scan) : s.holesFrom scan = [] := by
  unfold RW.holesFrom
  rw [show s.pivot - scan = 0 by omega]; rfl

theorem scanHoles_eq {σ : Type} (s : RW) (f : σ → Nat → σ) (scan left : Nat) (acc : σ)
    (h : (left : ℤ) = T phiC s.mem scan s.pivot) :
    scanHoles s f scan left acc = some ((s.holesFrom scan).foldl f acc) := by
  by_cases c : scan < s.pivot
  · rw [T_succ _ _ c] at h
    have nn := T_nonneg (φ := phiC) (m := s.mem) (lo := scan + 1) (hi := s.pivot) phiC_nonneg
    by_cases c1 : s.isHole scan
    · rw [phiC_hole c1] at h
      rw [scanHoles, if_neg (by omega), if_pos c, if_pos c1, scanHoles_eq s f (scan + 1) (left - 1) _ (by omega),
        holesFrom_step c, if_pos c1]
      rfl
    · rw [phiC_live c1] at h
      by_cases c0 : left = 0
      · rw [scanHoles, if_pos c0]
        have hz : T phiC s.mem (scan + 1) s.pivot = ((0 : Nat) : ℤ) := by omega
        have := scanHoles_eq s f (scan + 1) 0 acc hz.symm
        rw [scanHoles, if_pos rfl] at this
        rw [holesFrom_step c, if_neg c1, ← this]
      · rw [scanHoles, if_neg c0, if_pos c, if_neg c1, scanHoles_eq s f (scan + 1) left _ (by omega),
          holesFrom_step c, if_neg c1]
  · rw [T_empty _ _ (by omega)] at h
    rw [scanHoles, if_pos (by omega), holesFrom_end (by omega)]
    rfl
termination_by s.pivot - scan

/-- What `lookup_adjacent_holes` finds. -/
structure AdjSpec (s : RW) (b e : Nat) (before after : Option Nat) : Prop where
  before_some : ∀ x, before = some x → s.hole x ∧ s.units x ≠ 0 ∧ s.holeEnd x = b
  after_some : ∀ x, after = some x → s.hole x ∧ s.units x ≠ 0 ∧ s.start x = e
  before_none : before = none → ∀ x, s.hole x → s.units x ≠ 0 → s.holeEnd x ≠ b
  after_none : after = none → ∀ x, s.hole x → s.units x ≠ 0 → s.start x ≠ e

theorem adj_fold (s : RW) (b e : Nat) (l : List Nat) (hl : ∀ a ∈ l, s.hole a) (acc : Option Nat × Option Nat)
    (h1 : ∀ x, acc.1 = some x → s.hole x ∧ s.units x ≠ 0 ∧ s.holeEnd x = b)
    (h2 : ∀ x, acc.2 = some x → s.hole x ∧ s.units x ≠ 0 ∧ s.start x = e) :
    ∃ r : Option Nat × Option Nat, l.foldl (fun (ba : Option Nat × Option Nat) a =>
      if s.units a ≠ 0 then
        (if s.holeEnd a = b then some a else ba.1, if e = s.start a then some a else ba.2)
      else ba) acc = r ∧
      (∀ x, r.1 = some x → s.hole x ∧ s.units x ≠ 0 ∧ s.holeEnd x = b) ∧
      (∀ x, r.2 = some x → s.hole x ∧ s.units x ≠ 0 ∧ s.start x = e) ∧
      (r.1 = none → acc.1 = none ∧ ∀ x ∈ l, s.units x ≠ 0 → s.holeEnd x ≠ b) ∧
      (r.2 = none → acc.2 = none ∧ ∀ x ∈ l, s.units x ≠ 0 → s.start x ≠ e) := by
  induction l generalizing acc with
  | nil => exact ⟨acc, rfl, h1, h2, fun h => ⟨h, fun x hx => by cases hx⟩, fun h => ⟨h, fun x hx => by cases hx⟩⟩
  | cons a l ih =>
    have ha := hl a List.mem_cons_self
    have hl' : ∀ a ∈ l, s.hole a := fun x hx => hl x (List.mem_cons_of_mem _ hx)
    rw [List.foldl_cons]
    by_cases c : s.units a ≠ 0
    · rw [if_pos c]
      obtain ⟨r, hr, r1, r2, r3, r4⟩ := ih hl'
        (if s.holeEnd a = b then some a else acc.1, if e = s.start a then some a else acc.2)
        (by
          intro x hx
          simp only at hx
          split_ifs at hx with hc
          · cases hx; exact ⟨ha, c, hc⟩
          · exact h1 x hx)
        (by
          intro x hx
          simp only at hx
          split_ifs at hx with hc
          · cases hx; exact ⟨ha, c, hc.symm⟩
          · exact h2 x hx)
      refine ⟨r, hr, r1, r2, fun h => ?_, fun h => ?_⟩
      · obtain ⟨p, q⟩ := r3 h
        simp only at p
        split_ifs at p with hc
        refine ⟨p, fun x hx hu => ?_⟩
        rcases List.mem_cons.1 hx with rfl | hx
        · exact hc
        · exact q x hx hu
      · obtain ⟨p, q⟩ := r4 h
        simp only at p
        split_ifs at p with hc
        refine ⟨p, fun x hx hu => ?_⟩
        rcases List.mem_cons.1 hx with rfl | hx
        · exact fun h => hc h.symm
        · exact q x hx hu
    · rw [if_neg c]
      obtain ⟨r, hr, r1, r2, r3, r4⟩ := ih hl' acc h1 h2
      refine ⟨r, hr, r1, r2, fun h => ?_, fun h => ?_⟩
      · refine ⟨(r3 h).1, fun x hx hu => ?_⟩
        rcases List.mem_cons.1 hx with rfl | hx
        · exact absurd hu c
        · exact (r3 h).2 x hx hu
      · refine ⟨(r4 h).1, fun x hx hu => ?_⟩
        rcases List.mem_cons.1 hx with rfl | hx
        · exact absurd hu c
        · exact (r4 h).2 x hx hu

theorem lookupAdjacent_spec (s : RW) (hcnt : (s.jc : ℤ) = T phiC s.mem s.head s.pivot) (b e : Nat) :
    ∃ before after, lookupAdjacent s b e = some (before, after) ∧ AdjSpec s b e before after := by
  obtain ⟨r, hr, r1, r2, r3, r4⟩ := adj_fold s b e (s.holesFrom s.head) (fun a => mem_holes.1) (none, none)
    (fun x hx => by cases hx) (fun x hx => by cases hx)
  refine ⟨r.1, r.2, ?_, ⟨r1, r2, fun h x hx => (r3 h).2 x (mem_holes.2 hx), fun h x hx => (r4 h).2 x (mem_holes.2 hx)⟩⟩
  unfold lookupAdjacent
  rw [scanHoles_eq s _ _ _ _ hcnt, hr]

/-- `x` is a better or equal choice than `y` for a request of any size: less excess, or the same and lower address. -/
def betterEq (s : RW) (x y : Nat) : Prop := s.units x < s.units y ∨ (s.units x = s.units y ∧ s.start x ≤ s.start y)

theorem betterEq_refl (s : RW) (x : Nat) : betterEq s x x := Or.inr ⟨rfl, le_rfl⟩
theorem betterEq_trans {s : RW} {x y z : Nat} (h : betterEq s x y) (h' : betterEq s y z) : betterEq s x z := by
  unfold betterEq at *; omega

theorem bestFit_cases {s : RW} {need l r : Nat} (hl : need ≤ s.units l) (hr : need ≤ s.units r) :
    (bestFit s need (some l) r = l ∧ betterEq s l r) ∨ (bestFit s need (some l) r = r ∧ betterEq s r l) := by
  have ul : s.units l ≤ 2047 := Cell.units_le
  have ur : s.units r ≤ 2047 := Cell.units_le
  have e1 : (s.units l + 2 ^ 32 - need) % 2 ^ 32 = s.units l - need := by
    rw [show s.units l + 2 ^ 32 - need = (s.units l - need) + 2 ^ 32 by omega, Nat.add_mod_right]
    exact Nat.mod_eq_of_lt (by omega)
  have e2 : (s.units r + 2 ^ 32 - need) % 2 ^ 32 = s.units r - need := by
    rw [show s.units r + 2 ^ 32 - need = (s.units r - need) + 2 ^ 32 by omega, Nat.add_mod_right]
    exact Nat.mod_eq_of_lt (by omega)
  unfold bestFit
  simp only [e1, e2]
  unfold betterEq
  split_ifs
  · left; exact ⟨rfl, by omega⟩
  · right; exact ⟨rfl, by omega⟩
  · left; exact ⟨rfl, by omega⟩
  · right; exact ⟨rfl, by omega⟩

/-- A hole too small for the request is never preferred (its 32-bit excess wraps). -/
theorem bestFit_small {s : RW} {need : Nat} {l : Option Nat} {r : Nat} (hn : need < 65536)
    (hl : ∀ x, l = some x → s.units x < need) (hr : need ≤ s.units r) : bestFit s need l r = r := by
  cases l with
  | none => rfl
  | some l =>
    have hl := hl l rfl
    have ul : s.units l ≤ 2047 := Cell.units_le
    have ur : s.units r ≤ 2047 := Cell.units_le
    have e1 : (s.units l + 2 ^ 32 - need) % 2 ^ 32 = s.units l + 2 ^ 32 - need := Nat.mod_eq_of_lt (by omega)
    have e2 : (s.units r + 2 ^ 32 - need) % 2 ^ 32 = s.units r - need := by
      rw [show s.units r + 2 ^ 32 - need = (s.units r - need) + 2 ^ 32 by omega, Nat.add_mod_right]
      exact Nat.mod_eq_of_lt (by omega)
    unfold bestFit
    simp only [e1, e2]
    rw [if_neg (by omega), if_pos (by omega)]

/-- What the best-fit search finds. -/
structure BestSpec (s : RW) (need : Nat) (r : Option Nat) : Prop where
  some' : ∀ x, r = some x → s.hole x ∧ need ≤ s.units x ∧ ∀ y, s.hole y → need ≤ s.units y → betterEq s x y
  none' : r = none → ∀ y, s.hole y → s.units y < need

theorem best_fold (s : RW) (need : Nat) (l : List Nat) (hl : ∀ a ∈ l, s.hole a) (acc : Option Nat)
    (h1 : ∀ x, acc = some x → s.hole x ∧ need ≤ s.units x) :
    ∃ r : Option Nat, l.foldl (fun acc a => if s.units a ≥ need then some (bestFit s need acc a) else acc) acc = r ∧
      (∀ x, r = some x → s.hole x ∧ need ≤ s.units x ∧ (∀ y ∈ l, need ≤ s.units y → betterEq s x y) ∧
        ∀ y, acc = some y → betterEq s x y) ∧
      (r = none → acc = none ∧ ∀ y ∈ l, s.units y < need) := by
  induction l generalizing acc with
  | nil =>
    refine ⟨acc, rfl, fun x hx => ⟨(h1 x hx).1, (h1 x hx).2, fun y hy => (by cases hy), fun y hy => ?_⟩,
      fun h => ⟨h, fun y hy => by cases hy⟩⟩
    rw [hx] at hy; cases hy; exact betterEq_refl _ _
  | cons a l ih =>
    have ha := hl a List.mem_cons_self
    have hl' : ∀ a ∈ l, s.hole a := fun x hx => hl x (List.mem_cons_of_mem _ hx)
    rw [List.foldl_cons]
    by_cases c : s.units a ≥ need
    · rw [if_pos c]
      obtain ⟨r, hr, r1, r2⟩ := ih hl' (some (bestFit s need acc a)) (by
        intro x hx
        cases hx
        cases acc with
        | none => exact ⟨ha, c⟩
        | some y =>
          rcases bestFit_cases (h1 y rfl).2 c with ⟨e, _⟩ | ⟨e, _⟩
          · rw [e]; exact h1 y rfl
          · rw [e]; exact ⟨ha, c⟩)
      refine ⟨r, hr, fun x hx => ?_, fun h => ?_⟩
      · obtain ⟨p1, p2, p3, p4⟩ := r1 x hx
        have p4 := p4 _ rfl
        refine ⟨p1, p2, fun y hy hu => ?_, fun y hy => ?_⟩
        · rcases List.mem_cons.1 hy with rfl | hy
          · refine betterEq_trans p4 ?_
            cases acc with
            | none => exact betterEq_refl _ _
            | some z =>
              rcases bestFit_cases (h1 z rfl).2 c with ⟨e, h⟩ | ⟨e, h⟩
              · rw [e]; exact h
              · rw [e]; exact betterEq_refl _ _
          · exact p3 y hy hu
        · subst hy
          refine betterEq_trans p4 ?_
          rcases bestFit_cases (h1 y rfl).2 c with ⟨e, h⟩ | ⟨e, h⟩
          · rw [e]; exact betterEq_refl _ _
          · rw [e]; exact h
      · have := (r2 h).1; cases this
    · rw [if_neg c]
      obtain ⟨r, hr, r1, r2⟩ := ih hl' acc h1
      refine ⟨r, hr, fun x hx => ?_, fun h => ?_⟩
      · obtain ⟨p1, p2, p3, p4⟩ := r1 x hx
        refine ⟨p1, p2, fun y hy hu => ?_, p4⟩
        rcases List.mem_cons.1 hy with rfl | hy
        · omega
        · exact p3 y hy hu
      · refine ⟨(r2 h).1, fun y hy => ?_⟩
        rcases List.mem_cons.1 hy with rfl | hy
        · omega
        · exact (r2 h).2 y hy

theorem lookupBest_spec {s : RW} {len : Nat → Nat} {ex : Nat → ℤ} (h : Inv s len ex) (need : Nat) :
    ∃ r, lookupBest s need = some r ∧ BestSpec s need r := by
  unfold lookupBest
  by_cases c : s.jc < 1 ∨ s.jv < need
  · rw [if_pos c]
    refine ⟨none, rfl, ⟨fun x hx => (by cases hx), fun _ y hy => ?_⟩⟩
    rcases c with c | c
    · have := h.jc_pos hy; omega
    · have := h.hole_units_le hy; omega
  · rw [if_neg c, scanHoles_eq s _ _ _ _ h.cnt]
    obtain ⟨r, hr, r1, r2⟩ := best_fold s need (s.holesFrom s.head) (fun a => mem_holes.1) none (fun x hx => by cases hx)
    refine ⟨r, by rw [hr], ⟨fun x hx => ?_, fun hn y hy => (r2 hn).2 y (mem_holes.2 hy)⟩⟩
    obtain ⟨p1, p2, p3, _⟩ := r1 x hx
    exact ⟨p1, p2, fun y hy => p3 y (mem_holes.2 hy)⟩

end Fptu.Gear
