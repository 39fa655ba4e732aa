import Verif.Lemmas.GearScan
/-!
# Specifications of the allocating functions
-/
namespace Fptu.Gear
open Finset

theorem mem_setCell_same (s : RW) (a : Nat) (c : Cell) : (s.setCell a c).mem a = c := Memory.set_same _ _ _
theorem mem_setCell_ne (s : RW) {a b : Nat} (c : Cell) (h : b ≠ a) : (s.setCell a c).mem b = s.mem b := Memory.set_ne _ _ h

theorem mem_setHi_same (s : RW) (a t : Nat) : (s.setHi a t).mem a = ⟨(s.mem a).lo, t⟩ := Memory.set_same _ _ _
theorem mem_setHi_ne (s : RW) {a b : Nat} (t : Nat) (h : b ≠ a) : (s.setHi a t).mem b = s.mem b := Memory.set_ne _ _ h
theorem mem_setLo_same (s : RW) (a t : Nat) : (s.setLo a t).mem a = ⟨t, (s.mem a).hi⟩ := Memory.set_same _ _ _
theorem mem_setLo_ne (s : RW) {a b : Nat} (t : Nat) (h : b ≠ a) : (s.setLo a t).mem b = s.mem b := Memory.set_ne _ _ h
theorem mem_addDelta_same (s : RW) (a d : Nat) : (s.addDelta a d).mem a = ⟨add16 (s.mem a).lo d, (s.mem a).hi⟩ := Memory.set_same _ _ _
theorem mem_addDelta_ne (s : RW) {a b : Nat} (t : Nat) (h : b ≠ a) : (s.addDelta a t).mem b = s.mem b := Memory.set_ne _ _ h
theorem mem_subDelta_same (s : RW) (a d : Nat) : (s.subDelta a d).mem a = ⟨sub16 (s.mem a).lo d, (s.mem a).hi⟩ := Memory.set_same _ _ _
theorem mem_subDelta_ne (s : RW) {a b : Nat} (t : Nat) (h : b ≠ a) : (s.subDelta a t).mem b = s.mem b := Memory.set_ne _ _ h
theorem mem_setPayload_same (s : RW) (a p : Nat) :
    (s.setPayload a p).mem a = ⟨(p + 65536 - a) % 65536, (s.mem a).hi⟩ := Memory.set_same _ _ _
theorem mem_setPayload_ne (s : RW) {a b : Nat} (t : Nat) (h : b ≠ a) : (s.setPayload a t).mem b = s.mem b := Memory.set_ne _ _ h
theorem mem_purge_same (s : RW) (a : Nat) : (s.purge a).mem a = ⟨0, holeWord 0⟩ := Memory.set_same _ _ _
theorem mem_purge_ne (s : RW) {a b : Nat} (h : b ≠ a) : (s.purge a).mem b = s.mem b := Memory.set_ne _ _ h

theorem setUnits_ok (s : RW) (a : Nat) {n : Nat} (h : n ≤ 2047) : s.setUnits a n = .ok () (s.setHi a (holeWord n)) := by
  unfold RW.setUnits; rw [if_neg (by omega)]
theorem setUnits_ub (s : RW) (a : Nat) {n : Nat} (h : 2047 < n) : s.setUnits a n = .ub := by
  unfold RW.setUnits; rw [if_pos h]

/-- The two ways of obtaining an index slot: reuse an empty hole or extend the index. -/
def Slot (s s1 : RW) (a : Nat) : Prop :=
  (s.hole a ∧ s.units a = 0 ∧ 1 ≤ s.jc ∧ s1 = { s with jc := s.jc - 1 }) ∨
    (0 < s.head ∧ a = s.head - 1 ∧ s1 = { s with head := s.head - 1 })

theorem indexAlloc_spec {s : RW} {len : Nat → Nat} {ex : Nat → ℤ} (h : Inv s len ex) (n : Nat) :
    (indexAlloc s n).Sat False
      (fun e s' => s' = s ∧ e = .insufficientSpace 1 n ∧ s.head = 0 ∧ ∀ a, s.hole a → s.units a ≠ 0)
      (fun a s' => Slot s s' a) := by
  have h16 := h.lt16
  unfold indexAlloc
  by_cases c : s.jc > 0
  · rw [if_pos c]
    cases hl : s.lookup (holeWord 0) with
    | some r =>
      obtain ⟨h1, h2⟩ := lookup_hole_some (by omega) hl
      refine Or.inl ⟨h1, h2, c, ?_⟩
      rw [sub16_eq (by omega) (by omega)]
    | none =>
      simp only
      by_cases c2 : s.head < 1
      · rw [if_pos c2]
        exact ⟨rfl, rfl, by omega, lookup_hole_none hl⟩
      · rw [if_neg c2]
        exact Or.inr ⟨by omega, rfl, rfl⟩
  · rw [if_neg c]
    simp only
    by_cases c2 : s.head < 1
    · rw [if_pos c2]
      refine ⟨rfl, rfl, by omega, fun a ha => ?_⟩
      have := h.jc_pos ha; omega
    · rw [if_neg c2]
      exact Or.inr ⟨by omega, rfl, rfl⟩

theorem Slot.not_live {s s1 : RW} {a : Nat} (h : Slot s s1 a) : ¬ s.live a := by
  rintro ⟨h1, h2, h3⟩
  rcases h with h | h
  · exact h3 h.1.2.2
  · omega

theorem Slot.range {s s1 : RW} {len : Nat → Nat} {ex : Nat → ℤ} (hi : Inv s len ex) (h : Slot s s1 a) :
    s1.head ≤ a ∧ a < s.pivot ∧ s1.head ≤ s.head ∧ s1.pivot = s.pivot ∧ s1.pre = s.pre ∧ s1.lim = s.lim ∧
      s1.tail = s.tail ∧ s1.mem = s.mem ∧ s1.jv = s.jv ∧ s.jc ≤ s1.jc + 1 ∧ s1.jc ≤ s.jc := by
  have := hi.hp
  rcases h with ⟨h1, h2, h3, rfl⟩ | ⟨h1, h2, rfl⟩
  · refine ⟨h1.1, h1.2.1, le_rfl, rfl, rfl, rfl, rfl, rfl, rfl, ?_, ?_⟩ <;> simp only <;> omega
  · refine ⟨?_, by omega, ?_, rfl, rfl, rfl, rfl, rfl, rfl, ?_, ?_⟩ <;> simp only <;> omega

/-- Filling an index slot. -/
theorem Inv.fill {s s1 s2 : RW} {a : Nat} {len len' : Nat → Nat} {ex ex' : Nat → ℤ} (h : Inv s len ex) (hs : Slot s s1 a)
    (hh : s2.head = s1.head) (hp : s2.pivot = s.pivot) (hpre : s2.pre = s.pre) (hlim : s2.lim = s.lim)
    (hm : ∀ b, b ≠ a → s2.mem b = s.mem b) (hl : ∀ b, b ≠ a → len' b = len b)
    (bt : s.base ≤ s2.tail) (tl : s2.tail ≤ s.lim)
    (hjc : (s2.jc : ℤ) = s1.jc + phiC a (s2.mem a)) (hjv : (s2.jv : ℤ) = s.jv + phiV a (s2.mem a))
    (hc : ∀ u, phiW s.pivot len' u a (s2.mem a) + ex' u + ind s.base (s.tail - s.base) u
      = ex u + ind s.base (s2.tail - s.base) u)
    (hex : ∀ u, 0 ≤ ex' u) : Inv s2 len' ex' := by
  rcases hs with ⟨h1, h2, h3, rfl⟩ | ⟨h1, rfl, rfl⟩
  · have hu : Cell.units (s.mem a) = 0 := h2
    refine Inv.change h a h1.1 h1.2.1 hh hp hpre hlim hm hl bt tl ?_ ?_ ?_ hex
    · rw [phiC_hole h1.2.2, hjc]; simp only; omega
    · rw [phiV_hole h1.2.2, hu, hjv]; simp
    · intro u
      have := hc u
      rw [phiW_hole (len := len) h1.2.1 h1.2.2, hu, ind_zero]; omega
  · simp only at hh hjc
    refine Inv.push h h1 hh hp hpre hlim ?_ ?_ bt tl ?_ ?_ ?_ hex
    · rw [hh]; exact hm
    · rw [hh]; exact hl
    · rw [hh]; exact hjc
    · rw [hh]; exact hjv
    · rw [hh]; exact hc

theorem Frame.fill {s s1 s2 : RW} {a : Nat} {len : Nat → Nat} {ex : Nat → ℤ} {X : Nat → Prop} (h : Inv s len ex)
    (hs : Slot s s1 a)
    (hh : s2.head = s1.head) (hp : s2.pivot = s.pivot) (hpre : s2.pre = s.pre) (hlim : s2.lim = s.lim)
    (hm : ∀ b, b ≠ a → s2.mem b = s.mem b) (hx : X a ∨ s2.isHole a) : Frame s s2 X := by
  rcases hs with ⟨h1, h2, h3, rfl⟩ | ⟨h1, rfl, rfl⟩
  · exact Frame.change a hh hp hpre hlim hm (hx.imp id fun h => ⟨h1.2.1, h1.2.2, h⟩)
  · simp only at hh
    refine Frame.push h1 h.hp hh hp hpre hlim ?_ ?_
    · rw [hh]; exact hm
    · rw [hh]; exact hx

theorem tailAlloc_spec {s : RW} {len : Nat → Nat} {ex : Nat → ℤ} (h : Inv s len ex) (n : Nat) :
    (tailAlloc s n).Sat False
      (fun e s' => s' = s ∧ e = .insufficientSpace 0 n ∧ s.lim - s.tail < n)
      (fun p s' => p = s.tail ∧ s' = { s with tail := s.tail + n } ∧ s.tail + n ≤ s.lim ∧
        Inv s' len (fun u => ex u + ind p n u) ∧ Frame s s' fun _ => False) := by
  have ht := h.tl
  have hb := h.bt
  unfold tailAlloc
  by_cases c : s.lim - s.tail < n
  · rw [if_pos c]; exact ⟨rfl, rfl, c⟩
  · rw [if_neg c]
    refine ⟨rfl, rfl, by omega, ?_, Frame.same rfl rfl rfl rfl rfl⟩
    refine Inv.retail h rfl rfl rfl rfl rfl ?_ ?_ rfl rfl ?_ ?_
    · simp only; omega
    · simp only; omega
    · intro u
      simp only
      unfold ind; split_ifs <;> omega
    · intro u; have := h.exnn u; have := ind_nonneg s.tail n u; omega

/-- Results of allocating `n` units: the chunk is inside the payload area, was free before. -/
structure AllocPost (s s' : RW) (len : Nat → Nat) (ex : Nat → ℤ) (p n : Nat) : Prop where
  inv : Inv s' len fun u => ex u + ind p n u
  frame : Frame s s' fun _ => False

/-- Taking `n` units from the beginning of a hole. -/
theorem Inv.shrinkHole {s s1 : RW} {len : Nat → Nat} {ex : Nat → ℤ} (h : Inv s len ex) {n a : Nat}
    (ha : s.hole a) (hu : n ≤ s.units a)
    (hh : s1.head = s.head) (hp : s1.pivot = s.pivot) (hpre : s1.pre = s.pre) (hlim : s1.lim = s.lim)
    (ht : s1.tail = s.tail) (hjc : s1.jc = s.jc) (hjv : s1.jv = s.jv - n)
    (hm1 : s1.mem a = ⟨(s.mem a).lo + n, holeWord (s.units a - n)⟩) (hmne : ∀ b, b ≠ a → s1.mem b = s.mem b) :
    Inv s1 len fun u => ex u + ind (s.start a) n u := by
  have hv := h.hole_units_le ha
  have hul : s.units a ≤ 2047 := Cell.units_le
  have hh1 : Cell.isHole (s1.mem a) := by rw [hm1]; exact isHole_holeWord (by omega)
  have hu1 : Cell.units (s1.mem a) = s.units a - n := by rw [hm1]; exact units_holeWord (by omega)
  refine Inv.change h a ha.1 ha.2.1 hh hp hpre hlim hmne (fun _ _ => rfl) (by rw [ht]; exact h.bt)
    (by rw [ht]; exact h.tl) ?_ ?_ ?_ ?_
  · rw [phiC_hole ha.2.2, phiC_hole hh1, hjc]; omega
  · rw [phiV_hole ha.2.2, phiV_hole hh1, hu1, hjv]
    show ((s.jv - n : Nat) : ℤ) = s.jv - (s.units a : ℤ) + ((s.units a - n : Nat) : ℤ)
    omega
  · intro u
    rw [phiW_hole ha.2.1 ha.2.2, phiW_hole ha.2.1 hh1, hu1, hm1, ht]
    show ind (a + ((s.mem a).lo + n)) (s.units a - n) u + (ex u + ind (s.start a) n u) + _
      = ind (s.start a) (s.units a) u + ex u + ind s.base (s.tail - s.base) u
    have e : ind (s.start a) (s.units a) u = ind (s.start a) n u + ind (a + ((s.mem a).lo + n)) (s.units a - n) u := by
      have := ind_add (s.start a) n (s.units a - n) u
      rw [show n + (s.units a - n) = s.units a by omega] at this
      rw [this]
      congr 2
      show a + (s.mem a).lo + n = _
      omega
    omega
  · intro u; have := h.exnn u; have := ind_nonneg (s.start a) n u; omega

/-- Allocation from a hole. -/
theorem allocDataAt_hole {s : RW} {len : Nat → Nat} {ex : Nat → ℤ} (h : Inv s len ex) {n a : Nat} (hn : 0 < n)
    (ha : s.hole a) (hu : n ≤ s.units a) :
    (allocDataAt s n (some a)).Sat False (fun _ _ => False) (fun p s' => p = s.start a ∧ AllocPost s s' len ex p n) := by
  have hv := h.hole_units_le ha
  have hv16 := h.vol_le (p := 0) (n := 0) (fun u => by rw [ind_zero]; exact h.exnn u)
  have h16 := h.lt16
  have hin := h.hole_inside ha (by omega)
  have e1 : sub16 s.jv n = s.jv - n := sub16_eq (by omega) (by omega)
  have hle : s.holeEnd a = s.start a + s.units a := rfl
  have hul : s.units a ≤ 2047 := Cell.units_le
  have hb := h.bt
  unfold allocDataAt
  simp only
  by_cases c : s.units a - n = 0
  · have hun : Cell.units (s.mem a) = n := by show s.units a = n; omega
    rw [if_pos c]
    refine ⟨rfl, ?_⟩
    set s1 : RW := RW.purge { s with jv := sub16 s.jv n } a with hs1
    have hm1 : s1.mem a = ⟨0, holeWord 0⟩ := Memory.set_same _ _ _
    have hmne : ∀ b, b ≠ a → s1.mem b = s.mem b := fun b hb => Memory.set_ne _ _ hb
    have hh1 : s1.isHole a := by show Cell.isHole (s1.mem a); rw [hm1]; exact isHole_holeWord (by omega)
    have hu1 : s1.units a = 0 := by show Cell.units (s1.mem a) = 0; rw [hm1]; exact units_holeWord (by omega)
    have f1 : Frame s s1 fun _ => False := Frame.change a rfl rfl rfl rfl hmne (Or.inr ⟨ha.2.1, ha.2.2, hh1⟩)
    have i1 : Inv s1 len fun u => ex u + ind (s.start a) n u := by
      refine Inv.change h a ha.1 ha.2.1 rfl rfl rfl rfl hmne (fun _ _ => rfl) h.bt h.tl ?_ ?_ ?_ ?_
      · rw [phiC_hole ha.2.2, phiC_hole hh1]; show (s.jc : ℤ) = _; omega
      · rw [phiV_hole ha.2.2, phiV_hole hh1]
        show ((sub16 s.jv n : Nat) : ℤ) = s.jv - (Cell.units (s.mem a) : ℤ) + (s1.units a : ℤ)
        rw [hun, e1, hu1]; omega
      · intro u
        rw [phiW_hole ha.2.1 ha.2.2, phiW_hole ha.2.1 hh1, hun]
        show ind _ (s1.units a) u + (ex u + ind (a + (s.mem a).lo) n u) + _ = ind (a + (s.mem a).lo) n u + ex u + _
        rw [hu1, ind_zero]
        show 0 + _ + ind s.base (s.tail - s.base) u = _ + ind s.base (s.tail - s.base) u
        omega
      · intro u; have := h.exnn u; have := ind_nonneg (s.start a) n u; omega
    unfold trimIf
    by_cases ct : a = s1.head
    · rw [if_pos ct]
      rw [ct] at hh1 hu1
      have hlt : s1.head < s1.pivot := by rw [← ct]; exact ha.2.1
      have t := trim_spec s1 len _ i1 hlt hh1 hu1
      exact ⟨t.inv, f1.trans t.frame⟩
    · rw [if_neg ct]; exact ⟨i1, f1⟩
  · rw [if_neg c, setUnits_ok _ _ (by omega)]
    refine ⟨rfl, ?_⟩
    set s1 : RW := RW.setHi (RW.addDelta { s with jv := sub16 s.jv n } a n) a (holeWord (s.units a - n)) with hs1
    have elo : add16 (s.mem a).lo n = (s.mem a).lo + n := by
      refine add16_eq ?_
      have : s.start a = a + (s.mem a).lo := rfl
      omega
    have hm1 : s1.mem a = ⟨(s.mem a).lo + n, holeWord (s.units a - n)⟩ := by
      rw [← elo]
      show Memory.set _ _ _ a = _
      rw [Memory.set_same]
      congr 1
      show (Memory.set _ _ _ a).lo = _
      rw [Memory.set_same]
    have hmne : ∀ b, b ≠ a → s1.mem b = s.mem b := fun b hb => by
      show Memory.set _ _ _ b = _
      rw [Memory.set_ne _ _ hb]
      exact Memory.set_ne _ _ hb
    have hh1 : s1.isHole a := by show Cell.isHole (s1.mem a); rw [hm1]; exact isHole_holeWord (by omega)
    refine ⟨?_, Frame.change a rfl rfl rfl rfl hmne (Or.inr ⟨ha.2.1, ha.2.2, hh1⟩)⟩
    exact Inv.shrinkHole h ha (by omega) rfl rfl rfl rfl rfl rfl e1 hm1 hmne

/-- What `alloc_loose` may throw, and when. -/
def LooseDeficit (s : RW) (units : Nat) (e : Exc) : Prop :=
  e = .insufficientSpace 1 units ∧
    ((s.lim - s.tail < units ∧ ∀ y, s.hole y → s.units y < units) ∨
     (s.head = 0 ∧ (∀ a, s.hole a → s.units a ≠ 0) ∧ ∀ a, s.hole a → s.units a ≠ units))

/-- Results of `alloc_loose`: a new field entry `a` that owns `units` payload units. -/
structure LoosePost (s s' : RW) (len : Nat → Nat) (ex : Nat → ℤ) (tag units a : Nat) : Prop where
  fresh : ¬ s.live a
  live : s'.live a
  inv : Inv s' (upd len a units) ex
  frame : Frame s s' fun b => b = a
  word : (s'.mem a).hi = tag % 65536
  zero : units = 0 → (s'.mem a).lo = 0

/-- Giving detached units to a newly filled index slot. -/
theorem Inv.give {s s1 s2 : RW} {a tag p n : Nat} {len : Nat → Nat} {ex : Nat → ℤ}
    (h : Inv s len ex) (hs : Slot s s1 a) (ht : tag % 65536 / 2048 ≠ 31)
    (hh : s2.head = s1.head) (hp : s2.pivot = s.pivot) (hpre : s2.pre = s.pre) (hlim : s2.lim = s.lim)
    (hm : ∀ b, b ≠ a → s2.mem b = s.mem b) (hma : s2.mem a = ⟨p - a, tag % 65536⟩) (hpa : n ≠ 0 → a ≤ p)
    (bt : s.base ≤ s2.tail) (tl : s2.tail ≤ s.lim) (hjc : s2.jc = s1.jc) (hjv : s2.jv = s.jv)
    {ex' : Nat → ℤ}
    (hc : ∀ u, ind p n u + ex' u + ind s.base (s.tail - s.base) u = ex u + ind s.base (s2.tail - s.base) u)
    (hex : ∀ u, 0 ≤ ex' u) (hz : n = 0 → p ≤ a) : LoosePost s s2 len ex' tag n a := by
  have hr := hs.range h
  have hnh : ¬ Cell.isHole (s2.mem a) := by rw [hma]; exact ht
  refine ⟨hs.not_live, ⟨by rw [hh]; exact hr.1, by rw [hp]; exact hr.2.1, hnh⟩, ?_,
    Frame.fill h hs hh hp hpre hlim hm (Or.inl rfl), by rw [hma], fun h0 => by rw [hma]; simp only; have := hz h0; omega⟩
  refine Inv.fill h hs hh hp hpre hlim hm (fun b hb => upd_ne _ _ hb) bt tl ?_ ?_ ?_ hex
  · rw [phiC_live hnh]; omega
  · rw [phiV_live hnh]; omega
  · intro u
    rw [phiW_live hnh, upd_same, hma]
    simp only
    have := hc u
    by_cases hn : n = 0
    · subst hn; rw [ind_zero] at *; omega
    · rw [show a + (p - a) = p by have := hpa hn; omega]; omega

theorem setHi_setPayload_mem (s : RW) (a t p : Nat) :
    ((s.setHi a t).setPayload a p).mem a = ⟨(p + 65536 - a) % 65536, t⟩ := by
  show Memory.set _ _ _ a = _
  rw [Memory.set_same]
  congr 1
  show (Memory.set _ _ _ a).hi = _
  rw [Memory.set_same]

theorem allocLoose_spec {s : RW} {len : Nat → Nat} {ex : Nat → ℤ} (h : Inv s len ex) (fixed : Bool) (tag units : Nat)
    (ht : tag % 65536 / 2048 ≠ 31)
    (hfix : fixed = true ∨ (0 < units → ∀ x, lookupBest s units = some (some x) → s.units x = units ∨ s.units x = 2 * units)) :
    (allocLooseWith fixed s tag units).Sat False (fun e s' => s' = s ∧ LooseDeficit s units e)
      (fun a s' => LoosePost s s' len ex tag units a) := by
  have h16 := h.lt16
  have htl := h.tl
  have hbt := h.bt
  unfold allocLooseWith
  by_cases c0 : units = 0
  · rw [if_pos c0]
    refine Out.Sat.bind (P := fun a s' => Slot s s' a) ((indexAlloc_spec h 0).mono id ?_ fun _ _ => id) ?_
    · rintro e s' ⟨e1, e2, e3, e4⟩
      refine ⟨e1, by rw [c0]; exact e2, Or.inr ⟨e3, e4, ?_⟩⟩
      rw [c0]; exact e4
    · intro a s1 hs
      have hr := hs.range h
      rw [c0]
      show LoosePost s (s1.setCell a ⟨0, tag % 65536⟩) len ex tag 0 a
      refine Inv.give (s2 := s1.setCell a ⟨0, tag % 65536⟩) (p := 0) h hs ht rfl hr.2.2.2.1 hr.2.2.2.2.1 hr.2.2.2.2.2.1 ?_ ?_ (fun h => absurd rfl h) ?_ ?_ rfl hr.2.2.2.2.2.2.2.2.1 ?_
        h.exnn (fun _ => Nat.zero_le _)
      · intro b hb; rw [mem_setCell_ne _ _ hb, hr.2.2.2.2.2.2.2.1]
      · rw [mem_setCell_same, Nat.zero_sub]
      · show _ ≤ s1.tail; rw [hr.2.2.2.2.2.2.1]; exact hbt
      · show s1.tail ≤ _; rw [hr.2.2.2.2.2.2.1]; exact htl
      · intro u
        show _ = ex u + ind s.base (s1.tail - s.base) u
        rw [hr.2.2.2.2.2.2.1, ind_zero]; omega
  · rw [if_neg c0]
    obtain ⟨r, hr, hb⟩ := lookupBest_spec h units
    rw [hr] at hfix ⊢
    cases r with
    | none =>
      simp only
      by_cases c1 : s.lim - s.tail < units
      · rw [if_pos c1]
        exact ⟨rfl, rfl, Or.inl ⟨c1, hb.none' rfl⟩⟩
      · rw [if_neg c1]
        refine Out.Sat.bind (P := fun a s' => Slot s s' a) ((indexAlloc_spec h units).mono id ?_ fun _ _ => id) ?_
        · rintro e s' ⟨e1, e2, e3, e4⟩
          refine ⟨e1, e2, Or.inr ⟨e3, e4, fun a ha => ?_⟩⟩
          have := hb.none' rfl a ha; omega
        · intro a s1 hs
          have hr := hs.range h
          have hm := setHi_setPayload_mem s1 a (tag % 65536) s1.tail
          rw [hr.2.2.2.2.2.2.1] at hm
          have hab : a < s.base := lt_of_lt_of_le hr.2.1 (Nat.le_add_right _ _)
          show LoosePost s { (s1.setHi a (tag % 65536)).setPayload a s1.tail with tail := s1.tail + units } len ex tag units a
          refine Inv.give (s2 := { (s1.setHi a (tag % 65536)).setPayload a s1.tail with tail := s1.tail + units }) (p := s.tail) h hs ht rfl hr.2.2.2.1 hr.2.2.2.2.1 hr.2.2.2.2.2.1 ?_ ?_ (fun _ => by omega) ?_ ?_ rfl
            hr.2.2.2.2.2.2.2.2.1 ?_ h.exnn (fun hh => absurd hh c0)
          · intro b hb
            show Memory.set _ _ _ b = _
            rw [Memory.set_ne _ _ hb]
            show Memory.set _ _ _ b = _
            rw [Memory.set_ne _ _ hb, hr.2.2.2.2.2.2.2.1]
          · show ((s1.setHi a (tag % 65536)).setPayload a s1.tail).mem a = _
            rw [hr.2.2.2.2.2.2.1, hm]
            congr 1
            omega
          · show _ ≤ s1.tail + units; rw [hr.2.2.2.2.2.2.1]; omega
          · show s1.tail + units ≤ _; rw [hr.2.2.2.2.2.2.1]; omega
          · intro u
            show _ = ex u + ind s.base (s1.tail + units - s.base) u
            rw [hr.2.2.2.2.2.2.1]
            unfold ind; split_ifs <;> omega
    | some x =>
      obtain ⟨hx, hxu, _⟩ := hb.some' x rfl
      have hv := h.hole_units_le hx
      have hvl := h.vol_le (p := 0) (n := 0) (fun u => by rw [ind_zero]; exact h.exnn u)
      have hin := h.hole_inside hx (by omega)
      have hjc := h.jc_pos hx
      have hul : s.units x ≤ 2047 := Cell.units_le
      have hle : s.holeEnd x = s.start x + s.units x := rfl
      have e1 : sub16 s.jv units = s.jv - units := sub16_eq (by omega) (by omega)
      have e2 : sub16 s.jc 1 = s.jc - 1 := sub16_eq (by omega) (by omega)
      simp only
      by_cases c1 : s.units x - units = 0
      · rw [if_pos c1]
        have hun : Cell.units (s.mem x) = units := by show s.units x = units; omega
        set s1 : RW := RW.setHi { s with jv := sub16 s.jv units, jc := sub16 s.jc 1 } x (tag % 65536) with hs1
        have hm1 : s1.mem x = ⟨(s.mem x).lo, tag % 65536⟩ := Memory.set_same _ _ _
        have hmne : ∀ b, b ≠ x → s1.mem b = s.mem b := fun b hb => Memory.set_ne _ _ hb
        have hnh : ¬ Cell.isHole (s1.mem x) := by rw [hm1]; exact ht
        refine ⟨fun hl => hl.2.2 hx.2.2, ⟨hx.1, hx.2.1, hnh⟩, ?_, Frame.change x rfl rfl rfl rfl hmne (Or.inl rfl),
          by rw [hm1], fun h0 => absurd h0 c0⟩
        refine Inv.change h x hx.1 hx.2.1 rfl rfl rfl rfl hmne (fun b hb => upd_ne _ _ hb) hbt htl ?_ ?_ ?_ h.exnn
        · rw [phiC_hole hx.2.2, phiC_live hnh]; show ((sub16 s.jc 1 : Nat) : ℤ) = _; omega
        · rw [phiV_hole hx.2.2, phiV_live hnh, hun]; show ((sub16 s.jv units : Nat) : ℤ) = _; omega
        · intro u
          rw [phiW_hole hx.2.1 hx.2.2, phiW_live hnh, hun, upd_same, hm1]
          rfl
      · rw [if_neg c1]
        refine Out.Sat.bind (P := fun a s' => Slot s s' a) ((indexAlloc_spec h units).mono id ?_ fun _ _ => id) ?_
        · rintro e s' ⟨e1, e2, e3, e4⟩
          refine ⟨e1, e2, Or.inr ⟨e3, e4, fun a ha hu => ?_⟩⟩
          have := (hb.some' x rfl).2.2 a ha (by omega)
          unfold betterEq at this; omega
        · intro a s1 hs
          have hrg := hs.range h
          obtain ⟨g1, g2, g3, g4, g5, g6, g7, g8, g9, g10, g11⟩ := hrg
          have hax : a ≠ x := by
            rintro rfl
            rcases hs with hs | hs
            · omega
            · have := hx.1; omega
          have hdelta : (if fixed = true then units else s.units x - units) = units := by
            rcases hfix with hf | hf
            · rw [if_pos hf]
            · have := hf (by omega) x rfl
              split_ifs <;> omega
          rw [setUnits_ok _ _ (by omega)]
          show LoosePost s _ len ex tag units a
          simp only [hdelta]
          set s2 : RW := (s1.setHi a (tag % 65536)).setPayload a (s1.start x) with hs2
          set s3 : RW := (s2.addDelta x units).setHi x (holeWord (s.units x - units)) with hs3
          have hst : s1.start x = s.start x := by show x + (s1.mem x).lo = _; rw [g8]
          have hm2x : s2.mem x = s.mem x := by
            show Memory.set _ _ _ x = _
            rw [Memory.set_ne _ _ (Ne.symm hax)]
            show Memory.set _ _ _ x = _
            rw [Memory.set_ne _ _ (Ne.symm hax), g8]
          have elo : add16 (s.mem x).lo units = (s.mem x).lo + units := by
            refine add16_eq ?_
            have : s.start x = x + (s.mem x).lo := rfl
            omega
          have hm3x : s3.mem x = ⟨(s.mem x).lo + units, holeWord (s.units x - units)⟩ := by
            rw [hs3, mem_setHi_same, mem_addDelta_same, hm2x, elo]
          have hab : a < s.base := lt_of_lt_of_le g2 (Nat.le_add_right _ _)
          have hm3a : s3.mem a = ⟨s.start x - a, tag % 65536⟩ := by
            rw [hs3, mem_setHi_ne _ _ hax, mem_addDelta_ne _ _ hax, hs2, setHi_setPayload_mem, hst,
              show (s.start x + 65536 - a) % 65536 = s.start x - a by omega]
          have hm3 : ∀ b, b ≠ a → b ≠ x → s3.mem b = s.mem b := by
            intro b hba hbx
            rw [hs3, mem_setHi_ne _ _ hbx, mem_addDelta_ne _ _ hbx, hs2, mem_setPayload_ne _ _ hba, mem_setHi_ne _ _ hba, g8]
          -- ghost intermediate state: the hole already shrunk, the slot not yet filled
          set sA : RW := { s with mem := s.mem.set x ⟨(s.mem x).lo + units, holeWord (s.units x - units)⟩, jv := s.jv - units }
            with hsA
          have iA : Inv sA len fun u => ex u + ind (s.start x) units u :=
            Inv.shrinkHole h hx hxu rfl rfl rfl rfl rfl rfl rfl (Memory.set_same _ _ _) (fun b hb => Memory.set_ne _ _ hb)
          have hAx : Cell.isHole (sA.mem x) := by
            rw [show sA.mem x = _ from Memory.set_same _ _ _]; exact isHole_holeWord (by omega)
          have fA : Frame s sA fun b => b = a :=
            Frame.change x rfl rfl rfl rfl (fun b hb => Memory.set_ne _ _ hb) (Or.inr ⟨hx.2.1, hx.2.2, hAx⟩)
          have hsl : Slot sA { sA with head := s1.head, jc := s1.jc } a := by
            rcases hs with ⟨q1, q2, q3, rfl⟩ | ⟨q1, q2, rfl⟩
            · have : sA.mem a = s.mem a := Memory.set_ne _ _ hax
              refine Or.inl ⟨⟨q1.1, q1.2.1, ?_⟩, ?_, q3, rfl⟩
              · show Cell.isHole (sA.mem a); rw [this]; exact q1.2.2
              · show Cell.units (sA.mem a) = 0; rw [this]; exact q2
            · exact Or.inr ⟨q1, q2, rfl⟩
          have g := Inv.give (s2 := { s3 with jv := sub16 s3.jv units }) (p := s.start x) (n := units) (ex' := ex) iA hsl ht rfl g4 g5 g6
            (fun b hb => by
              by_cases hbx : b = x
              · subst hbx; show s3.mem b = sA.mem b
                rw [hm3x, show sA.mem b = _ from Memory.set_same _ _ _]
              · show s3.mem b = sA.mem b
                rw [hm3 b hb hbx, show sA.mem b = _ from Memory.set_ne _ _ hbx])
            hm3a (fun _ => by omega) (by show s.base ≤ s1.tail; rw [g7]; exact hbt) (by show s1.tail ≤ s.lim; rw [g7]; exact htl)
            rfl (by show sub16 s1.jv units = s.jv - units; rw [g9, e1])
            (fun u => by show _ = _ + ind s.base (s1.tail - s.base) u; rw [g7]; show _ + _ + ind s.base (s.tail - s.base) u = _; omega)
            h.exnn (fun h0 => absurd h0 c0)
          exact ⟨hs.not_live, g.live, g.inv, fA.trans g.frame, g.word, g.zero⟩

end Fptu.Gear
