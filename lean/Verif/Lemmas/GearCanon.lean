import Verif.Lemmas.GearRelease3
/-!
# Allocation keeps the holes canonical
-/
namespace Fptu.Gear
open Finset

theorem Out.Sat.and {α : Type} {o : Out α} {U U' : Prop} {E E' : Exc → RW → Prop} {Q Q' : α → RW → Prop}
    (h : o.Sat U E Q) (h' : o.Sat U' E' Q') :
    o.Sat (U ∧ U') (fun e s => E e s ∧ E' e s) (fun a s => Q a s ∧ Q' a s) := by
  cases o with
  | ok a s => exact ⟨h, h'⟩
  | exc e s => exact ⟨h, h'⟩
  | ub => exact ⟨h, h'⟩

/-- The nonempty holes of `s'` are holes of `s` with the same end. -/
structure SubHoles (s s' : RW) : Prop where
  holes : ∀ x, s'.hole x → s'.units x ≠ 0 → s.hole x ∧ s.units x ≠ 0 ∧ s'.holeEnd x = s.holeEnd x ∧
    (s'.start x = s.start x ∨ ∀ y, s'.hole y → s'.units y ≠ 0 → s'.holeEnd y ≠ s'.start x)
  tail : s'.tail = s.tail ∨ s.tail < s'.tail
  headNZ : s'.headNZ

theorem SubHoles.canon {s s' : RW} {len : Nat → Nat} {ex : Nat → ℤ} (h : SubHoles s s') (hi : Inv s len ex) (hC : Canon s) :
    Canon s' := by
  refine ⟨fun x hx hu => ?_, fun x y hx hy hxu hyu => ?_, h.headNZ⟩
  · obtain ⟨q1, q2, q3, _⟩ := h.holes x hx hu
    have := hC.noTail x q1 q2
    have := (hi.hole_inside q1 q2).2
    rcases h.tail with ht | ht <;> omega
  · obtain ⟨q1, q2, q3, _⟩ := h.holes x hx hxu
    obtain ⟨r1, r2, r3, r4⟩ := h.holes y hy hyu
    rcases r4 with r4 | r4
    · rw [q3, r4]; exact hC.noAdj x y q1 r1 q2 r2
    · exact r4 x hx hxu

/-- One hole `a` loses its first `n` units (or disappears), the others are unchanged. -/
theorem SubHoles.shrink {s s' : RW} {len : Nat → Nat} {ex : Nat → ℤ} (hi : Inv s len ex) {a n : Nat} (ha : s.hole a)
    (hn : n < s.units a ∨ ¬ (s'.hole a ∧ s'.units a ≠ 0))
    (hm : ∀ x, s'.hole x → s'.units x ≠ 0 → s.hole x ∧ (s'.mem x = s.mem x ∨
      (x = a ∧ s'.mem a = ⟨(s.mem a).lo + n, holeWord (s.units a - n)⟩)))
    (ht : s'.tail = s.tail) (hz : s'.headNZ) : SubHoles s s' := by
  refine ⟨fun x hx hu => ?_, Or.inl ht, hz⟩
  obtain ⟨h1, h2⟩ := hm x hx hu
  have same : ∀ y, s'.mem y = s.mem y → s'.units y = s.units y ∧ s'.start y = s.start y ∧ s'.holeEnd y = s.holeEnd y := by
    intro y e
    refine ⟨?_, ?_, ?_⟩
    · show Cell.units (s'.mem y) = _; rw [e]
    · show y + (s'.mem y).lo = _; rw [e]
    · show y + (s'.mem y).lo + Cell.units (s'.mem y) = _; rw [e]
  rcases h2 with h2 | ⟨rfl, h2⟩
  · obtain ⟨e1, e2, e3⟩ := same x h2
    exact ⟨h1, by rw [← e1]; exact hu, e3, Or.inl e2⟩
  · have hul : s.units x ≤ 2047 := Cell.units_le
    have hn' : n < s.units x := hn.resolve_right fun hh => hh ⟨hx, hu⟩
    have hu' : s'.units x = s.units x - n := by
      show Cell.units (s'.mem x) = _; rw [h2, units_holeWord (by omega)]
    have hs' : s'.start x = s.start x + n := by
      show x + (s'.mem x).lo = x + (s.mem x).lo + n; rw [h2]; simp only; omega
    have he : s'.holeEnd x = s.holeEnd x := by
      show s'.start x + s'.units x = s.start x + s.units x; omega
    refine ⟨h1, by omega, he, ?_⟩
    by_cases hn0 : n = 0
    · left; omega
    right
    intro y hy hyu hye
    have hye' : s'.holeEnd y = s'.start y + s'.units y := rfl
    by_cases hyx : y = x
    · rw [hyx] at hye hyu hye'; omega
    · obtain ⟨g1, g2⟩ := hm y hy hyu
      have g2 := g2.resolve_right fun hh => hyx hh.1
      obtain ⟨e1, e2, e3⟩ := same y g2
      have hpb : s.pivot ≤ s.base := Nat.le_add_right _ _
      have d := hi.disjoint hyx g1.1 (lt_of_lt_of_le g1.2.1 hpb) ha.1 (lt_of_lt_of_le ha.2.1 hpb) (s.start x + n - 1)
      rw [Inv.clen_hole g1, Inv.clen_hole ha] at d
      have := hi.exnn (s.start x + n - 1)
      have := ind_le_one s.base (s.tail - s.base) (s.start x + n - 1)
      have i1 : ind (s.start y) (s.units y) (s.start x + n - 1) = 1 := by
        unfold ind; rw [if_pos (by omega)]
      have i2 : ind (s.start x) (s.units x) (s.start x + n - 1) = 1 := by
        unfold ind; rw [if_pos (by omega)]
      omega

theorem tailAlloc_canon {s : RW} {len : Nat → Nat} {ex : Nat → ℤ} (h : Inv s len ex) (hC : Canon s) {n : Nat} (hn : 0 < n) :
    Canon { s with tail := s.tail + n } := by
  refine SubHoles.canon (s := s) ⟨fun x hx hu => ⟨hx, hu, rfl, Or.inl rfl⟩, Or.inr ?_, hC.headNZ⟩ h hC
  show s.tail < s.tail + n
  omega

theorem allocDataAt_canon {s : RW} {len : Nat → Nat} {ex : Nat → ℤ} (h : Inv s len ex) (hC : Canon s) {n a : Nat} (hn : 0 < n)
    (ha : s.hole a) (hu : n ≤ s.units a) :
    (allocDataAt s n (some a)).Sat True (fun _ _ => True) (fun _ s' => Canon s') := by
  have hv := h.hole_units_le ha
  have hv16 := h.vol_le (p := 0) (n := 0) (fun u => by rw [ind_zero]; exact h.exnn u)
  have h16 := h.lt16
  have hin := h.hole_inside ha (by omega)
  have e1 : sub16 s.jv n = s.jv - n := sub16_eq (by omega) (by omega)
  have hle : s.holeEnd a = s.start a + s.units a := rfl
  have hul : s.units a ≤ 2047 := Cell.units_le
  have hb := h.bt
  unfold allocDataAt
  simp only
  by_cases c : s.units a - n = 0
  · have hun : Cell.units (s.mem a) = n := by show s.units a = n; omega
    rw [if_pos c]
    set s1 : RW := RW.purge { s with jv := sub16 s.jv n } a with hs1
    show Canon (trimIf s1 a)
    have hm1 : s1.mem a = ⟨0, holeWord 0⟩ := mem_purge_same _ _
    have hmne : ∀ b, b ≠ a → s1.mem b = s.mem b := fun b hb => mem_purge_ne _ hb
    have hh1 : s1.isHole a := by show Cell.isHole (s1.mem a); rw [hm1]; exact isHole_holeWord (by omega)
    have hu1 : s1.units a = 0 := by show Cell.units (s1.mem a) = 0; rw [hm1]; exact units_holeWord (by omega)
    have i1 : Inv s1 len fun u => ex u + ind (s.start a) n u := by
      refine Inv.change h a ha.1 ha.2.1 rfl rfl rfl rfl hmne (fun _ _ => rfl) h.bt h.tl ?_ ?_ ?_ ?_
      · rw [phiC_hole ha.2.2, phiC_hole hh1]; show (s.jc : ℤ) = _; omega
      · rw [phiV_hole ha.2.2, phiV_hole hh1]
        show ((sub16 s.jv n : Nat) : ℤ) = s.jv - (Cell.units (s.mem a) : ℤ) + (s1.units a : ℤ)
        rw [hun, e1, hu1]; omega
      · intro u
        rw [phiW_hole ha.2.1 ha.2.2, phiW_hole ha.2.1 hh1, hun]
        show ind _ (s1.units a) u + (ex u + ind (a + (s.mem a).lo) n u) + _ = ind (a + (s.mem a).lo) n u + ex u + _
        rw [hu1, ind_zero]
        show 0 + _ + ind s.base (s.tail - s.base) u = _ + ind s.base (s.tail - s.base) u
        omega
      · intro u; have := h.exnn u; have := ind_nonneg (s.start a) n u; omega
    have hat : s1.hole a := ⟨ha.1, ha.2.1, hh1⟩
    obtain ⟨t1, t2, t3, t4, t5, t6⟩ := trimIf_spec s1 len _ i1 hat hu1
    obtain ⟨q1, q2, q3⟩ := trimIf_canon s1 len _ i1 hat hu1
    have back1 : ∀ x, s1.hole x → s1.units x ≠ 0 → s.hole x ∧ s1.mem x = s.mem x := by
      intro x hx hxu
      have hxa : x ≠ a := by rintro rfl; exact hxu hu1
      have e := hmne x hxa
      refine ⟨⟨hx.1, hx.2.1, ?_⟩, e⟩
      have := hx.2.2; unfold RW.isHole at this; rw [e] at this; exact this
    have nt := q1 (fun x hx hxu => by
      obtain ⟨b1, b2⟩ := back1 x hx hxu
      have e : s1.holeEnd x = s.holeEnd x := by show x + (s1.mem x).lo + Cell.units (s1.mem x) = _; rw [b2]
      have : s.units x ≠ 0 := by unfold RW.units at *; rw [b2] at hxu; exact hxu
      rw [e]; exact hC.noTail x b1 this)
    have back : ∀ x, (trimIf s1 a).hole x → (trimIf s1 a).units x ≠ 0 → s1.hole x ∧ s1.units x ≠ 0 := by
      intro x hx hxu
      have p : (trimIf s1 a).pivot = s1.pivot := t2.pivot
      refine ⟨⟨le_trans t5 hx.1, by rw [← p]; exact hx.2.1, ?_⟩, ?_⟩
      · have := hx.2.2; unfold RW.isHole at this; rw [t3] at this; exact this
      · unfold RW.units at *; rw [t3] at hxu; exact hxu
    refine SubHoles.canon (s := s) ?_ h hC
    refine SubHoles.shrink (n := n) h ha (Or.inr fun hh => ?_) (fun x hx hxu => ?_) nt.1 ?_
    · exact (back a hh.1 hh.2).2 hu1
    · obtain ⟨b1, b2⟩ := back x hx hxu
      obtain ⟨b3, b4⟩ := back1 x b1 b2
      exact ⟨b3, Or.inl (by rw [t3]; exact b4)⟩
    · refine q3 fun hne => ?_
      intro h1 h2
      have e : s1.mem s.head = s.mem s.head := hmne _ (Ne.symm hne)
      have h2' : Cell.isHole (s1.mem s.head) := h2
      show Cell.units (s1.mem s.head) ≠ 0
      rw [e] at h2' ⊢
      exact hC.headNZ h1 h2'
  · rw [if_neg c, setUnits_ok _ _ (by omega)]
    set s1 : RW := RW.setHi (RW.addDelta { s with jv := sub16 s.jv n } a n) a (holeWord (s.units a - n)) with hs1
    show Canon s1
    have elo : add16 (s.mem a).lo n = (s.mem a).lo + n := by
      refine add16_eq ?_
      have : s.start a = a + (s.mem a).lo := rfl
      omega
    have hm1 : s1.mem a = ⟨(s.mem a).lo + n, holeWord (s.units a - n)⟩ := by
      rw [hs1, mem_setHi_same, mem_addDelta_same, elo]
    have hmne : ∀ b, b ≠ a → s1.mem b = s.mem b := fun b hb => by
      rw [hs1, mem_setHi_ne _ _ hb, mem_addDelta_ne _ _ hb]
    refine SubHoles.canon (s := s) ?_ h hC
    refine SubHoles.shrink (n := n) h ha (Or.inl (by omega)) (fun x hx hxu => ?_) rfl ?_
    · by_cases hxa : x = a
      · rw [hxa]; exact ⟨ha, Or.inr ⟨rfl, hm1⟩⟩
      · have e := hmne x hxa
        refine ⟨⟨hx.1, hx.2.1, ?_⟩, Or.inl e⟩
        have := hx.2.2; unfold RW.isHole at this; rw [e] at this; exact this
    · refine headNZ_change (s := s) hC.headNZ rfl rfl hmne ?_
      show Cell.units (s1.mem a) ≠ 0
      rw [hm1, units_holeWord (by omega)]; exact c

/-- Reserving a slot and filling it with a field keeps the first entry from being an empty hole. -/
theorem Slot.headNZ {s s1 s2 : RW} {a : Nat} (hz : Slot s s1 a) (hC : s.headNZ) (hh : s2.head = s1.head)
    (hp : s2.pivot = s.pivot) (hl : ¬ s2.isHole a)
    (hm : ∀ b, b ≠ a → s2.mem b = s.mem b ∨ Cell.units (s2.mem b) ≠ 0) : s2.headNZ := by
  intro h1 h2
  have hne : s2.head ≠ a := by rintro rfl; exact hl h2
  rcases hm _ hne with e | e
  · have hhe : s2.head = s.head := by
      rw [hh]
      rcases hz with ⟨_, _, _, rfl⟩ | ⟨_, w, rfl⟩
      · rfl
      · rw [hh] at hne; exact absurd w.symm hne
    have h2' : Cell.isHole (s2.mem s2.head) := h2
    show Cell.units (s2.mem s2.head) ≠ 0
    rw [e, hhe] at h2' ⊢
    exact hC (by rw [← hhe, ← hp]; exact h1) h2'
  · exact e

theorem allocLoose_canon {s : RW} {len : Nat → Nat} {ex : Nat → ℤ} (h : Inv s len ex) (hC : Canon s) (fixed : Bool) (tag units : Nat)
    (ht : tag % 65536 / 2048 ≠ 31)
    (hfix : fixed = true ∨ (0 < units → ∀ x, lookupBest s units = some (some x) → s.units x = units ∨ s.units x = 2 * units)) :
    (allocLooseWith fixed s tag units).Sat True (fun _ _ => True) (fun _ s' => Canon s') := by
  have h16 := h.lt16
  have htl := h.tl
  have hbt := h.bt
  -- holes untouched, a slot `a` filled with a field, the tail possibly raised
  have fill : ∀ s1 a s2, Slot s s1 a → s2.head = s1.head → s2.pivot = s.pivot → ¬ Cell.isHole (s2.mem a) →
      (∀ b, b ≠ a → s2.mem b = s.mem b) → (s2.tail = s.tail ∨ s.tail < s2.tail) → Canon s2 := by
    intro s1 a s2 hz hh hp hl hm htt
    refine SubHoles.canon (s := s) ⟨fun x hx hu => ?_, htt, hz.headNZ hC.headNZ hh hp hl fun b hb => Or.inl (hm b hb)⟩ h hC
    have hxa : x ≠ a := by rintro rfl; exact hl hx.2.2
    have e := hm x hxa
    refine ⟨⟨?_, by rw [← hp]; exact hx.2.1, ?_⟩, ?_, ?_, Or.inl ?_⟩
    · have := hx.1
      rw [hh] at this
      rcases hz with ⟨_, _, _, rfl⟩ | ⟨_, w, rfl⟩
      · exact this
      · simp only at this; omega
    · have := hx.2.2; unfold RW.isHole at this; rw [e] at this; exact this
    · unfold RW.units at *; rw [e] at hu; exact hu
    · show x + (s2.mem x).lo + Cell.units (s2.mem x) = _; rw [e]
    · show x + (s2.mem x).lo = _; rw [e]
  unfold allocLooseWith
  by_cases c0 : units = 0
  · rw [if_pos c0]
    refine Out.Sat.bind (P := fun a s' => Slot s s' a) ((indexAlloc_spec h 0).mono False.elim (fun _ _ _ => trivial) fun _ _ => id) ?_
    intro a s1 hs
    have hr := hs.range h
    show Canon (s1.setCell a ⟨0, tag % 65536⟩)
    refine fill s1 a _ hs rfl hr.2.2.2.1 ?_ ?_ (Or.inl hr.2.2.2.2.2.2.1)
    · rw [mem_setCell_same]; exact ht
    · intro b hb; rw [mem_setCell_ne _ _ hb, hr.2.2.2.2.2.2.2.1]
  · rw [if_neg c0]
    obtain ⟨r, hr, hb⟩ := lookupBest_spec h units
    rw [hr] at hfix ⊢
    cases r with
    | none =>
      simp only
      by_cases c1 : s.lim - s.tail < units
      · rw [if_pos c1]; trivial
      · rw [if_neg c1]
        refine Out.Sat.bind (P := fun a s' => Slot s s' a) ((indexAlloc_spec h units).mono False.elim (fun _ _ _ => trivial) fun _ _ => id) ?_
        intro a s1 hs
        have hr := hs.range h
        show Canon { (s1.setHi a (tag % 65536)).setPayload a s1.tail with tail := s1.tail + units }
        refine fill s1 a _ hs rfl hr.2.2.2.1 ?_ ?_ (Or.inr ?_)
        · show ¬ Cell.isHole (((s1.setHi a (tag % 65536)).setPayload a s1.tail).mem a)
          rw [setHi_setPayload_mem]; exact ht
        · intro b hb
          show ((s1.setHi a (tag % 65536)).setPayload a s1.tail).mem b = _
          rw [mem_setPayload_ne _ _ hb, mem_setHi_ne _ _ hb, hr.2.2.2.2.2.2.2.1]
        · show s.tail < s1.tail + units
          rw [hr.2.2.2.2.2.2.1]; omega
    | some x =>
      obtain ⟨hx, hxu, _⟩ := hb.some' x rfl
      have hin := h.hole_inside hx (by omega)
      have hul : s.units x ≤ 2047 := Cell.units_le
      have hle : s.holeEnd x = s.start x + s.units x := rfl
      simp only
      by_cases c1 : s.units x - units = 0
      · rw [if_pos c1]
        set s1 : RW := RW.setHi { s with jv := sub16 s.jv units, jc := sub16 s.jc 1 } x (tag % 65536) with hs1
        show Canon s1
        have hm1 : s1.mem x = ⟨(s.mem x).lo, tag % 65536⟩ := mem_setHi_same _ _ _
        have hmne : ∀ b, b ≠ x → s1.mem b = s.mem b := fun b hb => mem_setHi_ne _ _ hb
        have hnh : ¬ Cell.isHole (s1.mem x) := by rw [hm1]; exact ht
        refine SubHoles.canon (s := s) ?_ h hC
        refine SubHoles.shrink (n := units) h hx (Or.inr fun hh => hnh hh.1.2.2) (fun y hy hyu => ?_) rfl ?_
        · have hyx : y ≠ x := by rintro rfl; exact hnh hy.2.2
          have e := hmne y hyx
          refine ⟨⟨hy.1, hy.2.1, ?_⟩, Or.inl e⟩
          have := hy.2.2; unfold RW.isHole at this; rw [e] at this; exact this
        · intro h1 h2
          have hne : s.head ≠ x := by
            intro hh
            have h2' : Cell.isHole (s1.mem s.head) := h2
            rw [hh] at h2'; exact hnh h2'
          have e : s1.mem s.head = s.mem s.head := hmne _ hne
          have h2' : Cell.isHole (s1.mem s.head) := h2
          show Cell.units (s1.mem s.head) ≠ 0
          rw [e] at h2' ⊢
          exact hC.headNZ h1 h2'
      · rw [if_neg c1]
        refine Out.Sat.bind (P := fun a s' => Slot s s' a) ((indexAlloc_spec h units).mono False.elim (fun _ _ _ => trivial) fun _ _ => id) ?_
        intro a s1 hs
        obtain ⟨g1, g2, g3, g4, g5, g6, g7, g8, g9, g10, g11⟩ := hs.range h
        have hax : a ≠ x := by
          rintro rfl
          rcases hs with hs | hs
          · omega
          · have := hx.1; omega
        have hdelta : (if fixed = true then units else s.units x - units) = units := by
          rcases hfix with hf | hf
          · rw [if_pos hf]
          · have := hf (by omega) x rfl
            split_ifs <;> omega
        rw [setUnits_ok _ _ (by omega)]
        show Canon _
        simp only [hdelta]
        set s2 : RW := (s1.setHi a (tag % 65536)).setPayload a (s1.start x) with hs2
        set s3 : RW := (s2.addDelta x units).setHi x (holeWord (s.units x - units)) with hs3
        have hm2x : s2.mem x = s.mem x := by
          rw [hs2, mem_setPayload_ne _ _ (Ne.symm hax), mem_setHi_ne _ _ (Ne.symm hax), g8]
        have elo : add16 (s.mem x).lo units = (s.mem x).lo + units := by
          refine add16_eq ?_
          have : s.start x = x + (s.mem x).lo := rfl
          omega
        have hm3x : s3.mem x = ⟨(s.mem x).lo + units, holeWord (s.units x - units)⟩ := by
          rw [hs3, mem_setHi_same, mem_addDelta_same, hm2x, elo]
        have hm3a : (s3.mem a).hi = tag % 65536 := by
          rw [hs3, mem_setHi_ne _ _ hax, mem_addDelta_ne _ _ hax, hs2, setHi_setPayload_mem]
        have hm3 : ∀ b, b ≠ a → b ≠ x → s3.mem b = s.mem b := by
          intro b hba hbx
          rw [hs3, mem_setHi_ne _ _ hbx, mem_addDelta_ne _ _ hbx, hs2, mem_setPayload_ne _ _ hba, mem_setHi_ne _ _ hba, g8]
        have hnh : ¬ Cell.isHole (s3.mem a) := by
          show ¬ (s3.mem a).hi / 2048 = 31; rw [hm3a]; exact ht
        refine SubHoles.canon (s := s) ?_ h hC
        refine SubHoles.shrink (n := units) h hx (Or.inl (by omega)) (fun y hy hyu => ?_) g7 ?_
        · have hya : y ≠ a := by rintro rfl; exact hnh hy.2.2
          by_cases hyx : y = x
          · rw [hyx]; exact ⟨hx, Or.inr ⟨rfl, hm3x⟩⟩
          · have e := hm3 y hya hyx
            refine ⟨⟨?_, by have h9 : y < s1.pivot := hy.2.1; rw [g4] at h9; exact h9, ?_⟩, Or.inl e⟩
            · have a1 : s1.head ≤ y := hy.1
              rcases hs with ⟨w1, w2, w3, w4⟩ | ⟨w1, w2, w4⟩
              · have : s1.head = s.head := by rw [w4]
                omega
              · have : s1.head = s.head - 1 := by rw [w4]
                omega
            · have : Cell.isHole (s3.mem y) := hy.2.2; rw [e] at this; exact this
        · refine hs.headNZ hC.headNZ rfl g4 hnh fun b hb => ?_
          by_cases hbx : b = x
          · right
            show Cell.units (s3.mem b) ≠ 0
            rw [hbx, hm3x, units_holeWord (by omega)]; exact c1
          · exact Or.inl (hm3 b hb hbx)

end Fptu.Gear
