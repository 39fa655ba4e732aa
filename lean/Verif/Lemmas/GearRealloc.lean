import Verif.Lemmas.GearCanon
/-!
# Specification of `realloc_data`
-/
namespace Fptu.Gear
open Finset

/-- A cell with a relative offset: a field entry of the index or a preplaced reference. -/
def RW.owner (s : RW) (a : Nat) : Prop := s.live a ∨ (s.pivot ≤ a ∧ a < s.base)

theorem RW.owner.not_hole {s : RW} {a : Nat} (h : s.owner a) : ¬ s.hole a := by
  rintro ⟨h1, h2, h3⟩
  rcases h with h | h
  · exact h.2.2 h3
  · omega

theorem RW.owner.lt_base {s : RW} {a : Nat} (h : s.owner a) : a < s.base := by
  rcases h with h | h
  · exact lt_of_lt_of_le h.2.1 (Nat.le_add_right _ _)
  · exact h.2

theorem RW.owner.phiW {s : RW} {a u : Nat} (h : s.owner a) (len : Nat → Nat) (c : Cell)
    (hc : a < s.pivot → ¬ Cell.isHole c) : phiW s.pivot len u a c = ind (a + c.lo) (len a) u := by
  rcases h with h | h
  · exact phiW_live (hc h.2.1)
  · exact phiW_pre h.1

theorem RW.owner.clen {s : RW} {a : Nat} (h : s.owner a) (len : Nat → Nat) : clen s.pivot len a (s.mem a) = len a := by
  unfold Gear.clen
  rw [if_neg]
  rintro ⟨h1, h2⟩
  rcases h with h | h
  · exact h.2.2 h2
  · omega

theorem RW.owner.head_le {s : RW} {a : Nat} (h : s.owner a) (hp : s.head ≤ s.pivot) : s.head ≤ a := by
  rcases h with h | h
  · exact h.1
  · omega

/-- Rewriting the cell of an owner. -/
theorem Inv.rewrite {s s' : RW} {len len' : Nat → Nat} {ex ex' : Nat → ℤ} (h : Inv s len ex) {a : Nat} (ho : s.owner a)
    (hh : s'.head = s.head) (hp : s'.pivot = s.pivot) (hpre : s'.pre = s.pre) (hlim : s'.lim = s.lim)
    (ht : s'.tail = s.tail) (hjc : s'.jc = s.jc) (hjv : s'.jv = s.jv)
    (hm : ∀ b, b ≠ a → s'.mem b = s.mem b) (hl : ∀ b, b ≠ a → len' b = len b)
    (hhi : (s'.mem a).hi = (s.mem a).hi)
    (hc : ∀ u, ind (s'.start a) (len' a) u + ex' u = ind (s.start a) (len a) u + ex u)
    (hex : ∀ u, 0 ≤ ex' u) : Inv s' len' ex' := by
  have hb : s.base ≤ s'.tail := by rw [ht]; exact h.bt
  have htl : s'.tail ≤ s.lim := by rw [ht]; exact h.tl
  have hnh : a < s.pivot → ¬ Cell.isHole (s.mem a) := by
    intro hlt
    rcases ho with ho | ho
    · exact ho.2.2
    · omega
  have hnh' : a < s.pivot → ¬ Cell.isHole (s'.mem a) := by
    intro hlt hh
    refine hnh hlt ?_
    show (s.mem a).hi / 2048 = 31
    rw [← hhi]; exact hh
  have hcc : ∀ u, Gear.phiW s.pivot len' u a (s'.mem a) + ex' u + ind s.base (s.tail - s.base) u
      = Gear.phiW s.pivot len u a (s.mem a) + ex u + ind s.base (s'.tail - s.base) u := by
    intro u
    rw [ho.phiW len' _ hnh', ho.phiW len _ hnh, ht]
    have := hc u
    show ind (s'.start a) (len' a) u + ex' u + _ = ind (s.start a) (len a) u + ex u + _
    omega
  rcases ho with ho | ho
  · refine Inv.change h a ho.1 ho.2.1 hh hp hpre hlim hm hl hb htl ?_ ?_ hcc hex
    · rw [phiC_live (hnh ho.2.1), phiC_live (hnh' ho.2.1), hjc]; omega
    · rw [phiV_live (hnh ho.2.1), phiV_live (hnh' ho.2.1), hjv]; omega
  · exact Inv.changePre h a ho.1 ho.2 hh hp hpre hlim hm hl hb htl hjc hjv hcc hex

/-- Detaching the chunk of an owner. -/
theorem Inv.detach {s : RW} {len : Nat → Nat} {ex : Nat → ℤ} (h : Inv s len ex) {a : Nat} (ho : s.owner a) :
    Inv s (upd len a 0) fun u => ex u + ind (s.start a) (len a) u := by
  refine Inv.rewrite h ho rfl rfl rfl rfl rfl rfl rfl (fun _ _ => rfl) (fun b hb => upd_ne _ _ hb) rfl ?_ ?_
  · intro u; rw [upd_same, ind_zero]; omega
  · intro u; have := h.exnn u; have := ind_nonneg (s.start a) (len a) u; omega

theorem upd_upd (len : Nat → Nat) (a m n : Nat) : upd (upd len a m) a n = upd len a n := by
  funext b; unfold upd; split_ifs <;> rfl

theorem upd_self (len : Nat → Nat) (a : Nat) : upd len a (len a) = len := by
  funext b; unfold upd; split_ifs with h
  · rw [h]
  · rfl

/-- Attaching a detached chunk to an owner. -/
theorem Inv.attach {s : RW} {len : Nat → Nat} {ex : Nat → ℤ} {a p n : Nat}
    (h : Inv s (upd len a 0) fun u => ex u + ind p n u) (hex : ∀ u, 0 ≤ ex u) (ho : s.owner a) (hn : 0 < n) :
    Inv (s.setPayload a p) (upd len a n) ex ∧ (s.setPayload a p).start a = p := by
  have h16 := h.lt16
  have hab := ho.lt_base
  have hin : s.base ≤ p ∧ p < s.tail := by
    have k1 := h.ex_le p
    have k3 := hex p
    rw [ind_start hn] at k1
    unfold ind at k1
    split_ifs at k1 <;> omega
  have hm : (s.setPayload a p).mem a = ⟨p - a, (s.mem a).hi⟩ := by
    rw [mem_setPayload_same, show (p + 65536 - a) % 65536 = p - a by omega]
  have hs : (s.setPayload a p).start a = p := by
    show a + ((s.setPayload a p).mem a).lo = p; rw [hm]; simp only; omega
  refine ⟨?_, hs⟩
  refine Inv.rewrite h ho rfl rfl rfl rfl rfl rfl rfl (fun b hb => mem_setPayload_ne _ _ hb) ?_ (by rw [hm]) ?_ hex
  · intro b hb; rw [upd_ne _ _ hb, upd_ne _ _ hb]
  · intro u; rw [hs, upd_same, upd_same, ind_zero]; omega

/-- Canonical form depends only on the holes. -/
theorem Canon.same {s s' : RW} (hC : Canon s) (hh : s'.head = s.head) (hp : s'.pivot = s.pivot) (ht : s'.tail = s.tail)
    {a : Nat} (ho : s.owner a) (hhi : (s'.mem a).hi = (s.mem a).hi) (hm : ∀ b, b ≠ a → s'.mem b = s.mem b) : Canon s' := by
  have back : ∀ x, s'.hole x → s.hole x ∧ s'.mem x = s.mem x := by
    intro x hx
    have hxa : x ≠ a := by
      rintro rfl
      refine ho.not_hole ⟨by rw [← hh]; exact hx.1, by rw [← hp]; exact hx.2.1, ?_⟩
      show (s.mem x).hi / 2048 = 31
      rw [← hhi]; exact hx.2.2
    have e := hm x hxa
    refine ⟨⟨by rw [← hh]; exact hx.1, by rw [← hp]; exact hx.2.1, ?_⟩, e⟩
    have := hx.2.2; unfold RW.isHole at this; rw [e] at this; exact this
  have un : ∀ x, s'.mem x = s.mem x → s'.units x = s.units x ∧ s'.start x = s.start x ∧ s'.holeEnd x = s.holeEnd x := by
    intro y e
    refine ⟨?_, ?_, ?_⟩
    · show Cell.units (s'.mem y) = _; rw [e]
    · show y + (s'.mem y).lo = _; rw [e]
    · show y + (s'.mem y).lo + Cell.units (s'.mem y) = _; rw [e]
  refine ⟨fun x hx hu => ?_, fun x y hx hy hxu hyu => ?_, fun h1 h2 => ?_⟩
  · obtain ⟨q1, q2⟩ := back x hx
    obtain ⟨e1, e2, e3⟩ := un x q2
    rw [e3, ht]; exact hC.noTail x q1 (by rw [← e1]; exact hu)
  · obtain ⟨q1, q2⟩ := back x hx
    obtain ⟨e1, e2, e3⟩ := un x q2
    obtain ⟨q1', q2'⟩ := back y hy
    obtain ⟨e1', e2', e3'⟩ := un y q2'
    rw [e3, e2']; exact hC.noAdj x y q1 q1' (by rw [← e1]; exact hxu) (by rw [← e1']; exact hyu)
  · obtain ⟨q1, q2⟩ := back _ ⟨le_rfl, h1, h2⟩
    obtain ⟨e1, e2, e3⟩ := un _ q2
    rw [e1, hh]
    rw [hh] at q1
    exact hC.headNZ q1.2.1 q1.2.2

theorem Frame.owner {s s' : RW} {X : Nat → Prop} (h : Frame s s' X) {a : Nat} (ha : ¬ X a) : s'.owner a ↔ s.owner a := by
  unfold RW.owner
  rw [h.live a ha, h.pivot, h.base]

theorem Frame.owner_mem {s s' : RW} {X : Nat → Prop} (h : Frame s s' X) {a : Nat} (ha : ¬ X a) (ho : s.owner a) :
    s'.mem a = s.mem a := by
  rcases ho with ho | ho
  · exact h.cell a ha ho
  · exact h.data a ha ho.1

/-- Result of `realloc_data`. -/
structure ReallocPost (s s' : RW) (len : Nat → Nat) (ex : Nat → ℤ) (ref needed p : Nat) : Prop where
  inv : Inv s' (upd len ref needed) ex
  frame : Frame s s' fun b => b = ref
  owner : s'.owner ref
  hi : (s'.mem ref).hi = (s.mem ref).hi
  start : s'.start ref = p

/-- After setting the payload of `ref` in a state reached without touching it. -/
theorem reattach {s s1 : RW} {len : Nat → Nat} {ex : Nat → ℤ} {ref p n : Nat} (f : Frame s s1 fun _ => False)
    (ho : s.owner ref) (h : Inv s1 (upd len ref 0) fun u => ex u + ind p n u) (hex : ∀ u, 0 ≤ ex u) (hn : 0 < n) (hC : Canon s1) :
    ReallocPost s (s1.setPayload ref p) len ex ref n p ∧ Canon (s1.setPayload ref p) := by
  have ho1 : s1.owner ref := (f.owner id).2 ho
  obtain ⟨i, st⟩ := h.attach hex ho1 hn
  have hhi : ((s1.setPayload ref p).mem ref).hi = (s1.mem ref).hi := by rw [mem_setPayload_same]
  refine ⟨⟨i, ?_, ?_, ?_, st⟩, ?_⟩
  · refine (f.mono (Y := fun b => b = ref) (fun _ => False.elim)).trans ?_
    exact Frame.change ref rfl rfl rfl rfl (fun b hb => mem_setPayload_ne _ _ hb) (Or.inl rfl)
  · rcases ho1 with ho1 | ho1
    · left
      refine ⟨ho1.1, ho1.2.1, fun hh => ho1.2.2 ?_⟩
      show (s1.mem ref).hi / 2048 = 31
      rw [← hhi]; exact hh
    · exact Or.inr ho1
  · rw [hhi, f.owner_mem id ho]
  · exact Canon.same hC rfl rfl rfl ho1 hhi (fun b hb => mem_setPayload_ne _ _ hb)

theorem releaseAndAlloc_spec {s : RW} {len : Nat → Nat} {ex : Nat → ℤ} (h : Inv s len ex) (hC : Canon s) {ref needed : Nat}
    (ho : s.owner ref) (hhave : 0 < len ref) (hneed : 0 < needed) (hneed16 : needed < 65536)
    {before after h4r h4a : Option Nat} (adj : AdjSpec s (s.start ref) (s.start ref + len ref) before after)
    (hr : ∀ z, h4r = some z → s.hole z ∧ s.units z = 0)
    (hidx : before ≠ none ∨ after ≠ none ∨ h4r ≠ none ∨ 0 < s.head)
    (hsp : (h4a = none ∧ (needed ≤ len ref + optUnits s before + optUnits s after ∨ needed ≤ s.lim - s.tail)) ∨
      ∃ x, h4a = some x ∧ s.hole x ∧ needed ≤ s.units x ∧ len ref + optUnits s before + optUnits s after < needed) :
    (releaseAndAlloc s ref (len ref) needed before after h4r h4a).Sat (2047 < s.jv + len ref) (fun _ _ => False)
      (fun p s' => ReallocPost s s' len ex ref needed p ∧ Canon s') := by
  unfold releaseAndAlloc
  have htl := h.tl
  refine Out.Sat.bind (P := fun r s1 => RelPost s s1 (upd len ref 0) ex (len ref) before after r) ?_ ?_
  · refine (releaseDataAt_spec (h.detach ho) h.exnn hC hhave adj hr).mono id ?_ (fun _ _ h => h)
    rintro e s' ⟨_, e1, e2, e3, e4, _⟩
    rcases hidx with w | w | w | w
    · exact w e1
    · exact w e2
    · exact w e3
    · omega
  · intro r s1 rp
    have hlim : s1.lim = s.lim := rp.frame.lim
    have htail := rp.tail
    refine Out.Sat.bind (P := fun x s2 => s2 = s1 ∧ (∀ y, x = some y → s1.hole y ∧ needed ≤ s1.units y) ∧
      (x = none → needed ≤ s1.lim - s1.tail)) ?_ ?_
    · -- choice of the hole
      have best : h4a = none → ∃ x, lookupBest s1 needed = some x ∧ (∀ y, x = some y → s1.hole y ∧ needed ≤ s1.units y) ∧
          (x = none → needed ≤ s1.lim - s1.tail) := by
        intro hna
        obtain ⟨x, hx, hb⟩ := lookupBest_spec rp.inv needed
        refine ⟨x, hx, fun y hy => ⟨(hb.some' y hy).1, (hb.some' y hy).2.1⟩, fun hxn => ?_⟩
        rcases hsp with ⟨_, hs | hs⟩ | ⟨y, hy, _⟩
        · rcases rp.res with ⟨q, _, hq, hqu, _⟩ | ⟨_, hq⟩
          · have := hb.none' hxn q hq
            omega
          · omega
        · omega
        · rw [hna] at hy; cases hy
      cases hh : h4a with
      | none =>
        obtain ⟨x, hx, b1, b2⟩ := best hh
        simp only
        rw [hx]
        exact ⟨rfl, b1, b2⟩
      | some x =>
        rcases hsp with ⟨hn, _⟩ | ⟨y, hy, g1, g2, g3⟩
        · rw [hh] at hn; cases hn
        · rw [hh] at hy; cases hy
          have hxb : before ≠ some x := by
            rintro rfl
            have : optUnits s (some x) = s.units x := rfl
            omega
          have hxa : after ≠ some x := by
            rintro rfl
            have : optUnits s (some x) = s.units x := rfl
            omega
          obtain ⟨o1, o2⟩ := rp.others x g1 (by omega) hxb hxa
          have o3 : s1.units x = s.units x := by show Cell.units (s1.mem x) = _; rw [o2]
          simp only
          rw [if_pos ⟨o1.1, by omega⟩]
          rw [bestFit_small hneed16 (r := x) ?_ (by omega)]
          · refine ⟨rfl, fun y hy => ?_, fun hy => by cases hy⟩
            cases hy; exact ⟨o1, by omega⟩
          · intro z hz
            rcases rp.res with ⟨q, hq0, hq, hqu, _⟩ | ⟨hq0, hq⟩
            · rw [hq0] at hz; cases hz; omega
            · rw [hq0] at hz; cases hz
    · rintro x s2 ⟨rfl, b1, b2⟩
      cases x with
      | none =>
        have hsp' := b2 rfl
        refine Out.Sat.bind (P := fun p s3 => p = s2.tail ∧ s3 = { s2 with tail := s2.tail + needed } ∧ s2.tail + needed ≤ s2.lim ∧
          Inv s3 (upd len ref 0) (fun u => ex u + ind p needed u) ∧ Frame s2 s3 fun _ => False)
          ((tailAlloc_spec rp.inv needed).mono False.elim ?_ fun _ _ => id) ?_
        · rintro e s' ⟨_, _, q⟩; omega
        · rintro p s3 ⟨q1, q2, q3, q4, q5⟩
          refine reattach (rp.frame.trans q5) ho q4 h.exnn hneed ?_
          rw [q2]; exact tailAlloc_canon rp.inv rp.canon hneed
      | some x =>
        obtain ⟨g1, g2⟩ := b1 x rfl
        refine Out.Sat.bind (P := fun p s3 => AllocPost s2 s3 (upd len ref 0) ex p needed ∧ Canon s3) ?_ ?_
        · exact ((allocDataAt_hole rp.inv hneed g1 g2).and (allocDataAt_canon rp.inv rp.canon hneed g1 g2)).mono
            (fun h => h.1.elim) (fun _ _ h => h.1.elim) (fun _ _ h => ⟨h.1.2, h.2⟩)
        · rintro p s3 ⟨q1, q2⟩
          exact reattach (rp.frame.trans q1.frame) ho q1.inv h.exnn hneed q2

/-- Why `realloc_data` may fail. -/
def ReallocDeficit (s : RW) (needed : Nat) (e : Exc) : Prop :=
  (∃ i, e = .insufficientSpace i needed ∧ i ≤ 1 ∧ (i = 0 → s.lim - s.tail < needed)) ∧
    ((s.lim - s.tail < needed ∧ ∀ y, s.hole y → s.units y < needed) ∨ (s.head = 0 ∧ ∀ a, s.hole a → s.units a ≠ 0))

/-- Resizing in place at the end of the data. -/
theorem resize_tail {s : RW} {len : Nat → Nat} {ex : Nat → ℤ} (h : Inv s len ex) (hC : Canon s) {ref needed : Nat}
    (ho : s.owner ref) (hhave : 0 < len ref) (hneed : 0 < needed) (hend : s.start ref + len ref = s.tail)
    (hfit : s.tail - len ref + needed ≤ s.lim) (hnb : ∀ x, s.hole x → s.units x ≠ 0 → s.holeEnd x ≠ s.start ref) :
    ReallocPost s { s with tail := s.tail - len ref + needed } len ex ref needed (s.start ref) ∧
      Canon { s with tail := s.tail - len ref + needed } := by
  have hin := h.inside (ho.head_le h.hp) ho.lt_base (by rw [ho.clen]; exact hhave)
  rw [ho.clen] at hin
  have hd := h.detach ho
  have hhp := h.hp
  set s1 : RW := { s with tail := s.tail - len ref + needed } with hs1
  have i0 : Inv s1 (upd len ref 0) fun u => ex u + ind (s.start ref) needed u := by
    refine Inv.retail hd rfl rfl rfl rfl rfl ?_ hfit rfl rfl ?_ ?_
    · show s.base ≤ s.tail - len ref + needed; omega
    · intro u
      show ex u + ind (s.start ref) needed u + ind s.base (s.tail - s.base) u
        = ex u + ind (s.start ref) (len ref) u + ind s.base (s.tail - len ref + needed - s.base) u
      generalize s.start ref = p at *
      unfold ind; split_ifs <;> omega
    · intro u; have := h.exnn u; have := ind_nonneg (s.start ref) needed u; omega
  have ho1 : s1.owner ref := ho
  refine ⟨⟨?_, Frame.same rfl rfl rfl rfl rfl, ho, rfl, rfl⟩, ?_⟩
  · refine Inv.rewrite i0 ho1 rfl rfl rfl rfl rfl rfl rfl (fun _ _ => rfl) (fun b hb => ?_) rfl ?_ h.exnn
    · rw [upd_ne _ _ hb, upd_ne _ _ hb]
    · intro u
      rw [upd_same, upd_same, ind_zero]
      show ind (s.start ref) needed u + ex u = 0 + (ex u + ind (s.start ref) needed u)
      omega
  · refine ⟨fun x (hx : s.hole x) (hu : s.units x ≠ 0) => ?_, hC.noAdj, hC.headNZ⟩
    have hne := hnb x hx hu
    have hpb : s.pivot ≤ s.base := Nat.le_add_right _ _
    have hin2 := h.hole_inside hx hu
    have hxr : x ≠ ref := by rintro rfl; exact ho.not_hole hx
    show s.holeEnd x ≠ s.tail - len ref + needed
    -- the hole ends before the chunk
    have hle : s.holeEnd x ≤ s.start ref := by
      by_contra hgt
      have he : s.holeEnd x = s.start x + s.units x := rfl
      have d := h.disjoint hxr hx.1 (lt_of_lt_of_le hx.2.1 hpb) (ho.head_le hhp) ho.lt_base (s.holeEnd x - 1)
      rw [Inv.clen_hole hx, ho.clen] at d
      have := h.exnn (s.holeEnd x - 1)
      have := ind_le_one s.base (s.tail - s.base) (s.holeEnd x - 1)
      have i1 : ind (s.start x) (s.units x) (s.holeEnd x - 1) = 1 := by unfold ind; rw [if_pos (by omega)]
      have i2 : ind (s.start ref) (len ref) (s.holeEnd x - 1) = 1 := by unfold ind; rw [if_pos (by omega)]
      omega
    omega

/-- Without junk volume there are no nonempty holes. -/
theorem Inv.no_holes {s : RW} {len : Nat → Nat} {ex : Nat → ℤ} (h : Inv s len ex) (hj : s.jv = 0) :
    ∀ x, s.hole x → s.units x = 0 := by
  intro x hx
  have := h.hole_units_le hx
  omega

/-- A slot is filled with the only nonempty hole. -/
theorem Canon.single {s' : RW} {z p n : Nat} (hnz : ∀ x, s'.hole x → s'.units x ≠ 0 → x = z) (hs : s'.start z = p) (hu : s'.units z = n)
    (hn : n ≠ 0) (ht : p + n ≠ s'.tail) (hh : s'.headNZ) : Canon s' := by
  have he : s'.holeEnd z = p + n := by show s'.start z + s'.units z = _; rw [hs, hu]
  refine ⟨fun x hx hxu => ?_, fun x y hx hy hxu hyu => ?_, hh⟩
  · rw [hnz x hx hxu, he]; exact ht
  · rw [hnz x hx hxu, hnz y hy hyu, he, hs]; omega

/-- Turning the detached chunk `[p, p + n)` into a hole in a reserved slot when there were no nonempty holes. -/
theorem fill_single {s s1 s2 : RW} {len : Nat → Nat} {ex : Nat → ℤ} {z p n : Nat}
    (h : Inv s len fun u => ex u + ind p n u) (hex : ∀ u, 0 ≤ ex u) (hC : Canon s) (hj : s.jv = 0) (hz : Slot s s1 z)
    (hn : 0 < n) (hn' : n ≤ 2047) (hpt : p + n ≠ s.tail)
    (hh : s2.head = s1.head) (hp : s2.pivot = s.pivot) (hpre : s2.pre = s.pre) (hlim : s2.lim = s.lim) (ht : s2.tail = s.tail)
    (hjc : s2.jc = s1.jc + 1) (hjv : s2.jv = n)
    (hm1 : s2.mem z = ⟨p - z, holeWord n⟩) (hzp : z ≤ p) (hmne : ∀ b, b ≠ z → s2.mem b = s.mem b) :
    Inv s2 len ex ∧ Canon s2 ∧ Frame s s2 (fun _ => False) := by
  obtain ⟨g1, g2, g3, g4, g5, g6, g7, g8, g9, g10, g11⟩ := hz.range h
  have hh1 : Cell.isHole (s2.mem z) := by rw [hm1]; exact isHole_holeWord (by omega)
  have hu1 : s2.units z = n := by show Cell.units (s2.mem z) = _; rw [hm1, units_holeWord (by omega)]
  have hst1 : s2.start z = p := by show z + (s2.mem z).lo = _; rw [hm1]; simp only; omega
  refine ⟨?_, ?_, Frame.fill h hz hh hp hpre hlim hmne (Or.inr hh1)⟩
  · refine Inv.fill h hz hh hp hpre hlim hmne (fun _ _ => rfl) ?_ ?_ ?_ ?_ ?_ hex
    · rw [ht]; exact h.bt
    · rw [ht]; exact h.tl
    · rw [phiC_hole hh1, hjc]; omega
    · rw [phiV_hole hh1, hjv, hj]; show (n : ℤ) = _ + (s2.units z : ℤ); rw [hu1]; omega
    · intro u
      rw [phiW_hole g2 hh1]
      show ind (s2.start z) (s2.units z) u + ex u + _ = _
      rw [hst1, hu1, ht]
      omega
  · have back : ∀ x, x ≠ z → s2.hole x → s.hole x := by
      intro x hx h1
      refine ⟨?_, by rw [← hp]; exact h1.2.1, ?_⟩
      · have a1 := h1.1
        rw [hh] at a1
        rcases hz with ⟨w1, w2, w3, w4⟩ | ⟨w1, w2, w4⟩
        · rw [w4] at a1; exact a1
        · rw [w4] at a1; simp only at a1; omega
      · have := h1.2.2; unfold RW.isHole at this; rw [hmne x hx] at this; exact this
    refine Canon.single (z := z) (p := p) (n := n) ?_ hst1 hu1 (by omega) (by rw [ht]; exact hpt) ?_
    · intro x hx hxu
      by_contra hne
      refine hxu ?_
      show Cell.units (s2.mem x) = 0
      rw [hmne x hne]
      exact h.no_holes hj x (back x hne hx)
    · intro h1 h2
      by_cases hzh : s2.head = z
      · rw [hzh, hu1]; omega
      · have hb := back _ hzh ⟨le_rfl, h1, h2⟩
        have e := hmne _ hzh
        have hhe : s2.head = s.head := by
          have := hb.1
          rw [hh] at this ⊢
          omega
        show Cell.units (s2.mem s2.head) ≠ 0
        rw [e, hhe]
        rw [hhe] at hb
        exact hC.headNZ hb.2.1 hb.2.2

theorem reallocData_spec {s : RW} {len : Nat → Nat} {ex : Nat → ℤ} (h : Inv s len ex) (hC : Canon s) (fixed : Bool) {ref needed : Nat}
    (ho : s.owner ref) (hhave : 0 < len ref) (hneed : 0 < needed) (hneed16 : needed < 65536) (hne : len ref ≠ needed) :
    (reallocDataWith fixed s ref (len ref) needed).Sat (2047 < s.jv + len ref)
      (fun e s' => s' = s ∧ ReallocDeficit s needed e)
      (fun p s' => ReallocPost s s' len ex ref needed p ∧
        (fixed = true ∨ 0 < s.head ∨ s.start ref + len ref ≠ s.tail ∨ s.jv = 0 → Canon s')) := by
  have h16 := h.lt16
  have htl := h.tl
  have hbt := h.bt
  have hin := h.inside (ho.head_le h.hp) ho.lt_base (by rw [ho.clen]; exact hhave)
  rw [ho.clen] at hin
  have hd := h.detach ho
  have hpb : s.pivot ≤ s.base := Nat.le_add_right _ _
  unfold reallocDataWith
  by_cases cj : s.jv = 0
  · rw [if_pos cj]
    have hz := h.no_holes cj
    by_cases ct : s.start ref + len ref = s.tail
    · rw [if_pos ct]
      by_cases cf : len ref < needed ∧ s.lim - s.tail < needed - len ref
      · rw [if_pos cf]
        exact ⟨rfl, ⟨0, rfl, by omega, by omega⟩, Or.inl ⟨by omega, fun y hy => by rw [hz y hy]; exact hneed⟩⟩
      · rw [if_neg cf]
        have := resize_tail h hC ho hhave hneed ct (by omega) (fun x hx hu => absurd (hz x hx) hu)
        exact ⟨this.1, fun _ => this.2⟩
    · rw [if_neg ct]
      by_cases cn : needed > len ref
      · rw [if_pos cn]
        by_cases cf : s.lim - s.tail < needed ∨ s.head + s.jc < 1
        · rw [if_pos cf]
          refine ⟨rfl, ⟨1, rfl, le_rfl, by omega⟩, ?_⟩
          rcases cf with cf | cf
          · exact Or.inl ⟨cf, fun y hy => by rw [hz y hy]; exact hneed⟩
          · refine Or.inr ⟨by omega, fun a ha => ?_⟩
            have := h.jc_pos ha; omega
        · rw [if_neg cf]
          refine Out.Sat.bind (P := fun a s' => Slot s s' a) ((indexAlloc_spec h needed).mono False.elim ?_ fun _ _ => id) ?_
          · rintro e s' ⟨_, _, e3, e4⟩
            exfalso
            -- a hole exists because the counter is positive
            have hj : s.jc ≠ 0 := by omega
            have : ∃ a, s.hole a := by
              by_contra hno
              have hc := h.cnt
              rw [T_congr (ψ := fun _ _ => 0) (m' := s.mem)] at hc
              · unfold T at hc; simp at hc; omega
              · intro a h1 h2
                exact phiC_live fun hh => hno ⟨a, h1, h2, hh⟩
            obtain ⟨a, ha⟩ := this
            exact e4 a ha (hz a ha)
          · intro z s1 hs
            obtain ⟨g1, g2, g3, g4, g5, g6, g7, g8, g9, g10, g11⟩ := hs.range h
            by_cases cu : 2047 < len ref
            · rw [setUnits_ub _ _ cu]; show 2047 < s.jv + len ref; omega
            rw [setUnits_ok _ _ (by omega)]
            have hzr : z ≠ ref := by
              rintro rfl
              rcases ho with ho | ho
              · exact hs.not_live ho
              · omega
            have hjc' := h.jc_le
            set s2 : RW := RW.setPayload (s1.setHi z (holeWord (len ref))) z ((s1.setHi z (holeWord (len ref))).start ref) with hs2
            set s3 : RW := { s2 with jc := add16 s2.jc 1, jv := add16 s2.jv (len ref) } with hs3
            have hst : (s1.setHi z (holeWord (len ref))).start ref = s.start ref := by
              show ref + ((s1.setHi z (holeWord (len ref))).mem ref).lo = _
              rw [mem_setHi_ne _ _ (Ne.symm hzr), g8]
            have key := fill_single (s2 := s3) (z := z) (p := s.start ref) (n := len ref) hd h.exnn hC cj hs hhave (by omega) ct
              rfl g4 g5 g6 g7 (by show add16 s1.jc 1 = _; exact add16_eq (by omega))
              (by show add16 s1.jv (len ref) = _; rw [g9, cj, add16_eq (by omega)]; omega)
              (by
                show s2.mem z = _
                rw [hs2, setHi_setPayload_mem, hst, show (s.start ref + 65536 - z) % 65536 = s.start ref - z by omega])
              (by omega)
              (by
                intro b hb
                show s2.mem b = _
                rw [hs2, mem_setPayload_ne _ _ hb, mem_setHi_ne _ _ hb, g8])
            obtain ⟨k1, k2, k3⟩ := key
            have hl3 : s3.lim = s.lim := g6
            have ht3 : s3.tail = s.tail := g7
            show Out.Sat ((tailAlloc s3 needed).bind fun p s => Out.ok p (s.setPayload ref p)) _ _ _
            refine Out.Sat.bind (P := fun p s4 => p = s3.tail ∧ s4 = { s3 with tail := s3.tail + needed } ∧ s3.tail + needed ≤ s3.lim ∧
              Inv s4 (upd len ref 0) (fun u => ex u + ind p needed u) ∧ Frame s3 s4 fun _ => False)
              ((tailAlloc_spec k1 needed).mono False.elim ?_ fun _ _ => id) ?_
            · rintro e s' ⟨_, _, q⟩; omega
            · rintro p s4 ⟨q1, q2, q3, q4, q5⟩
              have := reattach (k3.trans q5) ho q4 h.exnn hneed (by rw [q2]; exact tailAlloc_canon k1 k2 hneed)
              exact ⟨this.1, fun _ => this.2⟩
      · rw [if_neg cn]
        refine Out.Sat.bind (P := fun a s' => Slot s s' a) ((indexAlloc_spec h needed).mono False.elim ?_ fun _ _ => id) ?_
        · rintro e s' ⟨e1, e2, e3, e4⟩
          exact ⟨e1, ⟨1, e2, le_rfl, by omega⟩, Or.inr ⟨e3, e4⟩⟩
        · intro z s1 hs
          obtain ⟨g1, g2, g3, g4, g5, g6, g7, g8, g9, g10, g11⟩ := hs.range h
          by_cases cu : 2047 < len ref - needed
          · rw [setUnits_ub _ _ cu]; show 2047 < s.jv + len ref; omega
          rw [setUnits_ok _ _ (by omega)]
          have hzr : z ≠ ref := by
            rintro rfl
            rcases ho with ho | ho
            · exact hs.not_live ho
            · omega
          have hjc' := h.jc_le
          set s2 : RW := RW.setPayload (s1.setHi z (holeWord (len ref - needed))) z ((s1.setHi z (holeWord (len ref - needed))).start ref + needed) with hs2
          set s3 : RW := { s2 with jc := add16 s2.jc 1, jv := add16 s2.jv (len ref - needed) } with hs3
          have hst : (s1.setHi z (holeWord (len ref - needed))).start ref = s.start ref := by
            show ref + ((s1.setHi z (holeWord (len ref - needed))).mem ref).lo = _
            rw [mem_setHi_ne _ _ (Ne.symm hzr), g8]
          -- the field keeps its first `needed` units
          have hi0 : Inv s (upd len ref needed) fun u => ex u + ind (s.start ref + needed) (len ref - needed) u := by
            refine Inv.rewrite h ho rfl rfl rfl rfl rfl rfl rfl (fun _ _ => rfl) (fun b hb => upd_ne _ _ hb) rfl ?_ ?_
            · intro u
              rw [upd_same]
              have : ind (s.start ref) (len ref) u = ind (s.start ref) needed u + ind (s.start ref + needed) (len ref - needed) u := by
                rw [← ind_add, show needed + (len ref - needed) = len ref by omega]
              omega
            · intro u; have := h.exnn u; have := ind_nonneg (s.start ref + needed) (len ref - needed) u; omega
          have key := fill_single (s2 := s3) (z := z) (p := s.start ref + needed) (n := len ref - needed) hi0 h.exnn hC cj hs (by omega) (by omega) (by omega)
            rfl g4 g5 g6 g7 (by show add16 s1.jc 1 = _; exact add16_eq (by omega))
            (by show add16 s1.jv (len ref - needed) = _; rw [g9, cj, add16_eq (by omega)]; omega)
            (by
              show s2.mem z = _
              rw [hs2, setHi_setPayload_mem, hst, show (s.start ref + needed + 65536 - z) % 65536 = s.start ref + needed - z by omega])
            (by omega)
            (by
              intro b hb
              show s2.mem b = _
              rw [hs2, mem_setPayload_ne _ _ hb, mem_setHi_ne _ _ hb, g8])
          obtain ⟨k1, k2, k3⟩ := key
          have hr3 : s3.mem ref = s.mem ref := k3.owner_mem id ho
          show ReallocPost s s3 len ex ref needed (s2.start ref) ∧ _
          refine ⟨⟨k1, k3.mono fun _ => False.elim, (k3.owner id).2 ho, by rw [hr3], rfl⟩, fun _ => k2⟩
  · rw [if_neg cj]
    obtain ⟨before, after, hla, adj⟩ := lookupAdjacent_spec s h.cnt (s.start ref) (s.start ref + len ref)
    rw [hla]
    simp only
    have hadj0 : optUnits s before + optUnits s after > 0 → before ≠ none ∨ after ≠ none := by
      intro hg
      cases before with
      | some b => exact Or.inl (by simp)
      | none =>
        cases after with
        | some b => exact Or.inr (by simp)
        | none => unfold optUnits at hg; simp at hg
    by_cases c1 : len ref < needed ∧ len ref + (optUnits s before + optUnits s after) ≥ needed
    · rw [if_pos c1]
      refine (releaseAndAlloc_spec h hC ho hhave hneed hneed16 adj (fun z hz => by cases hz) ?_ (Or.inl ⟨rfl, Or.inl (by omega)⟩)).mono
        id (fun _ _ => False.elim) (fun _ _ hh => ⟨hh.1, fun _ => hh.2⟩)
      rcases hadj0 (by omega) with hh | hh
      · exact Or.inl hh
      · exact Or.inr (Or.inl hh)
    · rw [if_neg c1]
      -- the search for an empty hole
      have ex0 : lookupExact s 0 = some (if s.jc < 1 then none else s.lookup (holeWord 0)) := by
        unfold lookupExact
        by_cases cc : s.jc < 1
        · rw [if_pos (Or.inl cc), if_pos cc]
        · rw [if_neg (by omega), if_neg (by omega), if_neg cc]
      have ex0s : ∀ z, (lookupExact s 0).join = some z → s.hole z ∧ s.units z = 0 := by
        intro z hz
        rw [ex0] at hz
        have hz : (if s.jc < 1 then none else s.lookup (holeWord 0)) = some z := hz
        split_ifs at hz
        exact lookup_hole_some (by omega) hz
      have ex0n : (lookupExact s 0).join = none → ∀ a, s.hole a → s.units a ≠ 0 := by
        intro hz a ha
        rw [ex0] at hz
        have hz : (if s.jc < 1 then none else s.lookup (holeWord 0)) = none := hz
        have := h.jc_pos ha
        rw [if_neg (by omega)] at hz
        exact lookup_hole_none hz a ha
      set h4r : Option Nat := if optUnits s before + optUnits s after > 0 ∨ s.head > 0 then none else (lookupExact s 0).join with hh4r
      have hr : ∀ z, h4r = some z → s.hole z ∧ s.units z = 0 := by
        intro z hz
        rw [hh4r] at hz
        split_ifs at hz
        exact ex0s z hz
      by_cases c2 : ¬ (optUnits s before + optUnits s after > 0 ∨ s.head > 0 ∨ h4r.isSome = true)
      · rw [if_pos c2]
        push Not at c2
        obtain ⟨c2a, c2b, c2c⟩ := c2
        have hh0 : s.head = 0 := by omega
        have h4n : (lookupExact s 0).join = none := by
          rw [hh4r, if_neg (by omega)] at c2c
          cases hx : (lookupExact s 0).join with
          | none => rfl
          | some z => rw [hx] at c2c; exact absurd rfl c2c
        have noz := ex0n h4n
        have hbn : before = none := by
          cases hb : before with
          | none => rfl
          | some b =>
            have := (adj.before_some b hb).2.1
            rw [hb] at c2a
            have : optUnits s (some b) = s.units b := rfl
            omega
        have han : after = none := by
          cases hb : after with
          | none => rfl
          | some b =>
            have := (adj.after_some b hb).2.1
            rw [hb] at c2a
            have : optUnits s (some b) = s.units b := rfl
            omega
        have hdef : ReallocDeficit s needed (.insufficientSpace 1 needed) := ⟨⟨1, rfl, le_rfl, by omega⟩, Or.inr ⟨hh0, noz⟩⟩
        cases hle : lookupExact s needed with
        | none =>
          show 2047 < s.jv + len ref
          unfold lookupExact at hle
          have hvl := h.vol_le (p := 0) (n := 0) (fun u => by rw [ind_zero]; exact h.exnn u)
          split_ifs at hle <;> omega
        | some o =>
          cases o with
          | some x =>
            simp only
            -- exchange with the hole `x` of exactly the needed size
            have hx : s.hole x ∧ s.units x = needed ∧ needed ≤ 2047 := by
              unfold lookupExact at hle
              by_cases w1 : s.jc < 1 ∨ s.jv < needed
              · rw [if_pos w1] at hle; cases hle
              rw [if_neg w1] at hle
              by_cases w2 : needed > 2047
              · rw [if_pos w2] at hle; cases hle
              rw [if_neg w2] at hle
              have hle' : s.lookup (holeWord needed) = some x := by injection hle
              have := lookup_hole_some (by omega) hle'
              exact ⟨this.1, this.2, by omega⟩
            obtain ⟨hx1, hx2, hx3⟩ := hx
            have hxr : x ≠ ref := by rintro rfl; exact ho.not_hole hx1
            have hxin := h.hole_inside hx1 (by omega)
            have hxe : s.holeEnd x = s.start x + s.units x := rfl
            have hxv := h.hole_units_le hx1
            have hvl := h.vol_le (p := 0) (n := 0) (fun u => by rw [ind_zero]; exact h.exnn u)
            have hvl2 := hd.vol_le (p := s.start ref) (n := len ref) (fun u => by
              have := h.exnn u; omega)
            have hrb := ho.lt_base
            have hxp := hx1.2.1
            by_cases cu : 2047 < len ref
            · rw [setUnits_ub _ _ cu]; show 2047 < s.jv + len ref; omega
            rw [setUnits_ok _ _ (by omega)]
            set s3 : RW := { (RW.setHi ((s.setPayload ref (s.start x)).setPayload x (s.start ref)) x (holeWord (len ref))) with
              jv := (s.jv + (65536 + len ref - needed)) % 65536 } with hs3
            have hjv3 : s3.jv = s.jv + len ref - needed := by
              show (s.jv + (65536 + len ref - needed)) % 65536 = _
              omega
            have hm3x : s3.mem x = ⟨s.start ref - x, holeWord (len ref)⟩ := by
              show (RW.setHi ((s.setPayload ref (s.start x)).setPayload x (s.start ref)) x (holeWord (len ref))).mem x = _
              rw [mem_setHi_same, mem_setPayload_same, show (s.start ref + 65536 - x) % 65536 = s.start ref - x by omega]
            have hm3r : s3.mem ref = ⟨s.start x - ref, (s.mem ref).hi⟩ := by
              show (RW.setHi ((s.setPayload ref (s.start x)).setPayload x (s.start ref)) x (holeWord (len ref))).mem ref = _
              rw [mem_setHi_ne _ _ (Ne.symm hxr), mem_setPayload_ne _ _ (Ne.symm hxr), mem_setPayload_same,
                show (s.start x + 65536 - ref) % 65536 = s.start x - ref by omega]
            have hm3 : ∀ b, b ≠ x → b ≠ ref → s3.mem b = s.mem b := by
              intro b h1 h2
              show (RW.setHi ((s.setPayload ref (s.start x)).setPayload x (s.start ref)) x (holeWord (len ref))).mem b = _
              rw [mem_setHi_ne _ _ h1, mem_setPayload_ne _ _ h1, mem_setPayload_ne _ _ h2]
            have hh3 : Cell.isHole (s3.mem x) := by rw [hm3x]; exact isHole_holeWord (by omega)
            have hu3 : s3.units x = len ref := by show Cell.units (s3.mem x) = _; rw [hm3x, units_holeWord (by omega)]
            have hst3 : s3.start x = s.start ref := by show x + (s3.mem x).lo = _; rw [hm3x]; simp only; omega
            have hstr : s3.start ref = s.start x := by show ref + (s3.mem ref).lo = _; rw [hm3r]; simp only; omega
            -- ghost states: field moved first, then the hole
            set g1 : RW := { s with mem := s.mem.set x ⟨s.start ref - x, holeWord (len ref)⟩, jv := s.jv + len ref - needed } with hg1
            have hg1x : g1.mem x = ⟨s.start ref - x, holeWord (len ref)⟩ := Memory.set_same _ _ _
            have hg1ne : ∀ b, b ≠ x → g1.mem b = s.mem b := fun b hb => Memory.set_ne _ _ hb
            have hgh : Cell.isHole (g1.mem x) := by rw [hg1x]; exact isHole_holeWord (by omega)
            have hgu : Cell.units (g1.mem x) = len ref := by rw [hg1x, units_holeWord (by omega)]
            have ig1 : Inv g1 (upd len ref 0) fun u => ex u + ind (s.start x) needed u := by
              refine Inv.change hd x hx1.1 hx1.2.1 rfl rfl rfl rfl hg1ne (fun _ _ => rfl) hbt htl ?_ ?_ ?_ ?_
              · rw [phiC_hole hx1.2.2, phiC_hole hgh]; show (s.jc : ℤ) = _; omega
              · rw [phiV_hole hx1.2.2, phiV_hole hgh, hgu]
                show ((s.jv + len ref - needed : Nat) : ℤ) = s.jv - (s.units x : ℤ) + _; omega
              · intro u
                rw [phiW_hole hx1.2.1 hx1.2.2, phiW_hole hx1.2.1 hgh, hgu, hg1x]
                show ind (x + (s.start ref - x)) (len ref) u + (ex u + ind (s.start x) needed u) + ind s.base (s.tail - s.base) u
                  = ind (s.start x) (s.units x) u + (ex u + ind (s.start ref) (len ref) u) + ind s.base (s.tail - s.base) u
                rw [show x + (s.start ref - x) = s.start ref by omega, hx2]; omega
              · intro u; have := h.exnn u; have := ind_nonneg (s.start x) needed u; omega
            have og1 : g1.owner ref := by
              rcases ho with ho | ho
              · refine Or.inl ⟨ho.1, ho.2.1, ?_⟩
                show ¬ Cell.isHole (g1.mem ref)
                rw [hg1ne _ (Ne.symm hxr)]; exact ho.2.2
              · exact Or.inr ho
            have fg1 : Frame s g1 fun _ => False := Frame.change x rfl rfl rfl rfl hg1ne (Or.inr ⟨hx1.2.1, hx1.2.2, hgh⟩)
            have cg1 : s.start ref + len ref ≠ s.tail → Canon g1 := by
              intro hpt
              refine Canon.change hC (p := s.start ref) (n := len ref) rfl rfl rfl hg1ne ?_ hgu (by omega) hpt ?_ ?_
              · show x + (g1.mem x).lo = _; rw [hg1x]; simp only; omega
              · intro y hy hyu _; exact adj.before_none hbn y hy hyu
              · intro y hy hyu _; exact adj.after_none han y hy hyu
            have i3 : Inv s3 (upd len ref needed) ex := by
              refine Inv.rewrite ig1 og1 rfl rfl rfl rfl rfl rfl hjv3 ?_ (fun b hb => by rw [upd_ne _ _ hb, upd_ne _ _ hb]) ?_ ?_ h.exnn
              · intro b hb
                by_cases hbx : b = x
                · rw [hbx, hm3x, hg1x]
                · rw [hm3 b hbx hb, hg1ne b hbx]
              · rw [hm3r, hg1ne _ (Ne.symm hxr)]
              · intro u; rw [hstr, upd_same, upd_same, ind_zero]; omega
            have mg : ∀ b, b ≠ ref → s3.mem b = g1.mem b := by
              intro b hb
              by_cases hbx : b = x
              · rw [hbx, hm3x, hg1x]
              · rw [hm3 b hbx hb, hg1ne b hbx]
            have hhi3 : (s3.mem ref).hi = (g1.mem ref).hi := by rw [hm3r, hg1ne _ (Ne.symm hxr)]
            have f3 : Frame s s3 fun b => b = ref :=
              (fg1.mono fun _ => False.elim).trans (Frame.change ref rfl rfl rfl rfl mg (Or.inl rfl))
            have o3 : s3.owner ref := by
              rcases og1 with w | w
              · refine Or.inl ⟨w.1, w.2.1, fun hh => w.2.2 ?_⟩
                show (g1.mem ref).hi / 2048 = 31
                rw [← hhi3]; exact hh
              · exact Or.inr w
            show Out.Sat (if (if fixed = true then s.start ref + len ref else s.start ref) = s.tail then
                Out.ok ((trimIf (RW.purge { s3 with tail := s3.tail - len ref, jv := sub16 s3.jv (len ref) } x) x).start ref)
                  (trimIf (RW.purge { s3 with tail := s3.tail - len ref, jv := sub16 s3.jv (len ref) } x) x)
              else Out.ok (s3.start ref) s3) _ _ _
            by_cases cs : (if fixed = true then s.start ref + len ref else s.start ref) = s.tail
            · rw [if_pos cs]
              have hfx : fixed = true := by
                by_contra hf
                rw [if_neg hf] at cs; omega
              rw [if_pos hfx] at cs
              have e5 : sub16 s3.jv (len ref) = s3.jv - len ref := sub16_eq (by omega) (by omega)
              set t : RW := RW.purge { s3 with tail := s3.tail - len ref, jv := sub16 s3.jv (len ref) } x with ht
              obtain ⟨hth, htu⟩ : Cell.isHole (t.mem x) ∧ Cell.units (t.mem x) = 0 := purge_hole _ _
              have htm : ∀ b, b ≠ x → t.mem b = s3.mem b := fun b hb => by rw [ht, mem_purge_ne _ hb]
              have ft : Frame s3 t fun _ => False := Frame.change x rfl rfl rfl rfl htm (Or.inr ⟨hx1.2.1, hh3, hth⟩)
              have htt : t.tail = s.start ref := by show s.tail - len ref = _; omega
              have h3x : s3.hole x := ⟨hx1.1, hx1.2.1, hh3⟩
              have it : Inv t (upd len ref needed) ex := by
                refine Inv.change i3 x hx1.1 hx1.2.1 rfl rfl rfl rfl htm (fun _ _ => rfl) ?_ ?_ ?_ ?_ ?_ h.exnn
                · rw [htt]; exact hin.1
                · rw [htt]; show _ ≤ s.lim; omega
                · rw [phiC_hole hh3, phiC_hole hth]; show (s.jc : ℤ) = s.jc - _ + _; omega
                · rw [phiV_hole hh3, phiV_hole hth, htu]
                  show ((sub16 s3.jv (len ref) : Nat) : ℤ) = s3.jv - (s3.units x : ℤ) + _
                  omega
                · intro u
                  rw [phiW_hole h3x.2.1 hth, phiW_hole h3x.2.1 hh3, htu, ind_zero, htt]
                  show 0 + ex u + ind s.base (s.tail - s.base) u
                    = ind (s3.start x) (s3.units x) u + ex u + ind s.base (s.start ref - s.base) u
                  rw [hst3, hu3]
                  generalize s.start ref = p at *
                  unfold ind
                  split_ifs <;> omega
              have hrt : t.hole x := ⟨hx1.1, hx1.2.1, hth⟩
              obtain ⟨t1, t2, t3, t4, t5, t6⟩ := trimIf_spec t _ ex it hrt htu
              obtain ⟨q1, q2, q3⟩ := trimIf_canon t _ ex it hrt htu
              have hoth : ∀ y, t.hole y → t.units y ≠ 0 → s.hole y ∧ s.units y ≠ 0 ∧ t.mem y = s.mem y := by
                intro y hy hyu
                have hyx : y ≠ x := by rintro rfl; exact hyu htu
                have hyr : y ≠ ref := by
                  rintro rfl
                  exact o3.not_hole ⟨hy.1, hy.2.1, by have := hy.2.2; unfold RW.isHole at this; rw [htm y hyx] at this; exact this⟩
                have e : t.mem y = s.mem y := by rw [htm y hyx, hm3 y hyx hyr]
                refine ⟨⟨hy.1, hy.2.1, by have := hy.2.2; unfold RW.isHole at this; rw [e] at this; exact this⟩, ?_, e⟩
                unfold RW.units at *; rw [e] at hyu; exact hyu
              have hend' : ∀ y, t.mem y = s.mem y → t.holeEnd y = s.holeEnd y ∧ t.start y = s.start y := fun y hy => by
                refine ⟨?_, ?_⟩
                · show y + (t.mem y).lo + Cell.units (t.mem y) = _; rw [hy]
                · show y + (t.mem y).lo = _; rw [hy]
              have nt := q1 (fun y hy hyu => by
                obtain ⟨w1, w2, w3⟩ := hoth y hy hyu
                rw [(hend' y w3).1, htt]; exact adj.before_none hbn y w1 w2)
              have hbk : ∀ y, (trimIf t x).hole y → (trimIf t x).units y ≠ 0 → t.hole y ∧ t.units y ≠ 0 := by
                intro y hy hyu
                have p : (trimIf t x).pivot = t.pivot := t2.pivot
                refine ⟨⟨le_trans t5 hy.1, by rw [← p]; exact hy.2.1, ?_⟩, ?_⟩
                · have := hy.2.2; unfold RW.isHole at this; rw [t3] at this; exact this
                · unfold RW.units at *; rw [t3] at hyu; exact hyu
              have hst' : ∀ y, (trimIf t x).start y = t.start y := fun y => by show y + _ = y + _; rw [t3]
              have hen' : ∀ y, (trimIf t x).holeEnd y = t.holeEnd y := fun y => by
                show y + _ + Cell.units _ = y + _ + Cell.units _; rw [t3]
              have ft2 : Frame s3 (trimIf t x) fun _ => False := ft.trans t2
              refine ⟨⟨t1, f3.trans (ft2.mono fun _ => False.elim), (ft2.owner id).2 o3, ?_, rfl⟩, fun _ => ⟨fun y hy hyu => ?_, fun y z hy hz hyu hzu => ?_, ?_⟩⟩
              · rw [ft2.owner_mem id o3, hm3r]
              · obtain ⟨w1, w2⟩ := hbk y hy hyu
                obtain ⟨w1, w2, w3⟩ := hoth y w1 w2
                rw [hen', (hend' y w3).1, nt.1, htt]; exact adj.before_none hbn y w1 w2
              · obtain ⟨w1, w2⟩ := hbk y hy hyu
                obtain ⟨w1, w2, w3⟩ := hoth y w1 w2
                obtain ⟨v1, v2⟩ := hbk z hz hzu
                obtain ⟨v1, v2, v3⟩ := hoth z v1 v2
                rw [hen', (hend' y w3).1, hst', (hend' z v3).2]
                exact hC.noAdj y z w1 v1 w2 v2
              · refine q3 fun hxh => ?_
                intro h1 h2
                have hne' : s.head ≠ x := Ne.symm hxh
                have h2' : Cell.isHole (t.mem s.head) := h2
                have hyr : s.head ≠ ref := by
                  intro hh
                  have : Cell.isHole (s3.mem ref) := by rw [← hh, ← htm _ hne']; exact h2'
                  refine o3.not_hole ⟨?_, ?_, this⟩
                  · show s.head ≤ ref; omega
                  · show ref < s.pivot; rw [← hh]; exact h1
                have e : t.mem s.head = s.mem s.head := by rw [htm _ hne', hm3 _ hne' hyr]
                show Cell.units (t.mem s.head) ≠ 0
                rw [e] at h2' ⊢
                exact hC.headNZ h1 h2'
            · rw [if_neg cs]
              refine ⟨⟨i3, f3, o3, by rw [hm3r], rfl⟩, fun hcond => ?_⟩
              have hpt : s.start ref + len ref ≠ s.tail := by
                rcases hcond with w | w | w | w
                · rw [if_pos w] at cs; exact cs
                · omega
                · exact w
                · exact absurd w cj
              exact Canon.same (cg1 hpt) rfl rfl rfl og1 hhi3 mg
          | none =>
            simp only
            by_cases ct : s.start ref + len ref = s.tail
            · rw [if_pos ct]
              by_cases cf : len ref < needed ∧ s.lim - s.tail < needed - len ref
              · rw [if_pos cf]; exact ⟨rfl, hdef⟩
              · rw [if_neg cf]
                have := resize_tail h hC ho hhave hneed ct (by omega) (fun x hx hu => adj.before_none hbn x hx hu)
                exact ⟨this.1, fun _ => this.2⟩
            · rw [if_neg ct]; exact ⟨rfl, hdef⟩
      · rw [if_neg c2]
        have c2' : optUnits s before + optUnits s after > 0 ∨ s.head > 0 ∨ h4r.isSome = true := not_not.1 c2
        have hidx : before ≠ none ∨ after ≠ none ∨ h4r ≠ none ∨ 0 < s.head := by
          rcases c2' with w | w | w
          · rcases hadj0 w with q | q
            · exact Or.inl q
            · exact Or.inr (Or.inl q)
          · exact Or.inr (Or.inr (Or.inr w))
          · refine Or.inr (Or.inr (Or.inl fun hn => ?_))
            rw [hn] at w; cases w
        by_cases c3 : len ref > needed ∨ needed ≤ s.lim - s.tail
        · rw [if_pos c3]
          refine (releaseAndAlloc_spec h hC ho hhave hneed hneed16 adj hr hidx (Or.inl ⟨rfl, ?_⟩)).mono
            id (fun _ _ => False.elim) (fun _ _ hh => ⟨hh.1, fun _ => hh.2⟩)
          rcases c3 with w | w
          · left; omega
          · exact Or.inr w
        · rw [if_neg c3]
          obtain ⟨x, hx, hb⟩ := lookupBest_spec h needed
          rw [hx]
          cases x with
          | some x =>
            obtain ⟨w1, w2, _⟩ := hb.some' x rfl
            exact (releaseAndAlloc_spec h hC ho hhave hneed hneed16 adj hr hidx
              (Or.inr ⟨x, rfl, w1, w2, by omega⟩)).mono
              id (fun _ _ => False.elim) (fun _ _ hh => ⟨hh.1, fun _ => hh.2⟩)
          | none =>
            exact ⟨rfl, ⟨0, rfl, by omega, by omega⟩, Or.inl ⟨by omega, hb.none' rfl⟩⟩

end Fptu.Gear
