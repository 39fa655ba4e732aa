import Verif.Props.TupleDefects
/-!
# C16: hole selection is best-fit
-/
namespace Fptu.Props
open Fptu Fptu.Gear Fptu.Rw

/-- There is free space of `n` units at unit address `p` inside the tuple. -/
def FreeAt (s : RW) (p n : Nat) : Prop :=
  ∃ x, s.head ≤ x ∧ x < s.pivot ∧ (s.mem x).hi / 2048 = 31 ∧ (s.mem x).hi % 2048 = n ∧ x + (s.mem x).lo = p

/-- A new value of `n` units is put at `p` by best fit: into a smallest free space that can hold it, the one with the
lowest address among those; at the end of the data only if no free space inside can hold it. -/
def BestFit (s : RW) (n p : Nat) : Prop :=
  (∃ m, n ≤ m ∧ FreeAt s p m ∧ ∀ q k, FreeAt s q k → n ≤ k → m < k ∨ (m = k ∧ p ≤ q)) ∨
  (p = s.tail ∧ ∀ q k, FreeAt s q k → k < n)

private theorem bestFit_some {s : RW} {n x : Nat} (h : BestSpec s n (some x)) : BestFit s n (s.start x) := by
  obtain ⟨h1, h2, h3⟩ := h.some' x rfl
  refine Or.inl ⟨s.units x, h2, ⟨x, h1.1, h1.2.1, h1.2.2, rfl, rfl⟩, ?_⟩
  rintro q k ⟨y, k1, k2, k3, rfl, rfl⟩ hk
  exact h3 y ⟨k1, k2, k3⟩ hk

private theorem bestFit_none {s : RW} {n : Nat} (h : BestSpec s n none) : BestFit s n s.tail := by
  refine Or.inr ⟨rfl, ?_⟩
  rintro q k ⟨y, k1, k2, k3, rfl, rfl⟩
  exact h.none' rfl y ⟨k1, k2, k3⟩

private theorem allocLoose_place {σ : Sch} {s s' : RW} {fixed : Bool} {tag n a : Nat} (h : WF σ s) (h0 : 0 < n)
    (hs : allocLooseWith fixed s tag n = .ok a s') :
    a < s.base ∧ s.base ≤ s'.start a ∧ BestFit s n (s'.start a) ∧ a < s'.pivot ∧ (s'.mem a).hi = tag % 65536 := by
  have hi := h.inv
  have h16 := hi.lt16
  have hbt := hi.bt
  have hbase : s.base = s.pivot + s.pre := rfl
  obtain ⟨r, hr, hb⟩ := lookupBest_spec hi n
  unfold allocLooseWith at hs
  rw [if_neg (by omega), hr] at hs
  cases r with
  | none =>
    simp only at hs
    by_cases c1 : s.lim - s.tail < n
    · rw [if_pos c1] at hs; cases hs
    · rw [if_neg c1] at hs
      have key := indexAlloc_spec hi n
      cases hx : indexAlloc s n with
      | ub => rw [hx] at key; exact key.elim
      | exc e t => rw [hx] at hs; cases hs
      | ok b s1 =>
        rw [hx] at key hs
        obtain ⟨g1, g2, g3, g4, g5, g6, g7, g8, _⟩ := Slot.range hi key
        injection hs with e1 e2
        subst e1
        have hm : (s'.mem b).lo = s.tail - b := by
          rw [← e2]
          show (((s1.setHi b (tag % 65536)).setPayload b s1.tail).mem b).lo = _
          rw [setHi_setPayload_mem, g7]
          show (s.tail + 65536 - b) % 65536 = _
          omega
        have hst : s'.start b = s.tail := by show b + (s'.mem b).lo = _; rw [hm]; omega
        rw [hst]
        refine ⟨by omega, hbt, bestFit_none hb, ?_, ?_⟩
        · rw [← e2]; show b < s1.pivot; omega
        · rw [← e2]
          show (((s1.setHi b (tag % 65536)).setPayload b s1.tail).mem b).hi = _
          rw [setHi_setPayload_mem]
  | some x =>
    obtain ⟨hx, hxu, _⟩ := hb.some' x rfl
    have hin := hi.hole_inside hx (by omega)
    have hx2 := hx.2.1
    simp only at hs
    by_cases c1 : s.units x - n = 0
    · rw [if_pos c1] at hs
      injection hs with e1 e2
      subst e1
      have hst : s'.start x = s.start x := by
        show x + (s'.mem x).lo = x + (s.mem x).lo
        rw [← e2, mem_setHi_same]
      rw [hst]
      refine ⟨by omega, hin.1, bestFit_some hb, ?_, ?_⟩
      · rw [← e2]; exact hx2
      · rw [← e2, mem_setHi_same]
    · rw [if_neg c1] at hs
      have key := indexAlloc_spec hi n
      cases hy : indexAlloc s n with
      | ub => rw [hy] at key; exact key.elim
      | exc e t => rw [hy] at hs; cases hs
      | ok b s1 =>
        rw [hy] at key hs
        have hul : s.units x ≤ 2047 := Cell.units_le
        obtain ⟨g1, g2, g3, g4, g5, g6, g7, g8, _⟩ := Slot.range hi key
        have hbx : b ≠ x := by
          rintro rfl
          rcases key with key | key
          · omega
          · have := hx.1; omega
        simp only [Out.bind] at hs
        rw [setUnits_ok _ _ (by omega)] at hs
        injection hs with e1 e2
        subst e1
        have hstx : s1.start x = s.start x := by show x + (s1.mem x).lo = _; rw [g8]
        have hin1 := hin.1
        have hin2 := hin.2
        have hle : s.holeEnd x = s.start x + s.units x := rfl
        have hm : (s'.mem b).lo = s.start x - b := by
          rw [← e2]
          show (((RW.addDelta ((s1.setHi b (tag % 65536)).setPayload b (s1.start x)) x _).setHi x _).mem b).lo = _
          rw [mem_setHi_ne _ _ hbx, mem_addDelta_ne _ _ hbx, setHi_setPayload_mem, hstx]
          show (s.start x + 65536 - b) % 65536 = _
          omega
        have hst : s'.start b = s.start x := by show b + (s'.mem b).lo = _; rw [hm]; omega
        rw [hst]
        refine ⟨by omega, hin.1, bestFit_some hb, ?_, ?_⟩
        · rw [← e2]; show b < s1.pivot; omega
        · rw [← e2]
          show (((RW.addDelta ((s1.setHi b (tag % 65536)).setPayload b (s1.start x)) x _).setHi x _).mem b).hi = _
          rw [mem_setHi_ne _ _ hbx, mem_addDelta_ne _ _ hbx, setHi_setPayload_mem]

private theorem write_start {g : Genus} {v : Val} {n : Nat} {s : RW} {a : Nat} {base : Nat} (hf : v.fits g) (hn : needs g v n) (h0 : 0 < n)
    (h1 : a < base) (h2 : base ≤ s.start a) : (RW.withMem s (v.write s.mem (s.start a))).start a = s.start a := by
  have w := (write_spec hf hn h0 s.mem (s.start a)).1 a (Or.inl (by omega))
  show a + ((v.write s.mem (s.start a)) a).lo = _
  rw [w]

private theorem needs_of {g : Genus} {v : Val} {n : Nat} (h : unitsFor g v = some n) : needs g v n := by
  unfold unitsFor at h
  unfold needs
  split_ifs at * with hf
  · injection h with h; exact h.symm
  · cases he : v.estimate with
    | error e => rw [he] at h; cases h
    | ok m => rw [he] at h; injection h with h; rw [h]

/-- **C16, inserting.** In every reachable tuple, the payload of an inserted value is placed by best fit. -/
theorem C16_insert {F : Fix} {σ : Sch} {s s' : RW} {tag : Nat} {g : Genus} {v : Val} {n a : Nat} (h : Reachable F σ s)
    (hf : v.fits g = true) (hn : unitsFor g v = some n) (h0 : 0 < n) (hs : insertField F s tag g v = .ok (some a) s') :
    BestFit s n (a + (s'.mem a).lo) := by
  have hn := needs_of hn
  have hw := h.wf
  have fin : ∀ s1 b, allocLooseWith F.loose s tag n = .ok b s1 → (RW.withMem s1 (v.write s1.mem (s1.start b))).start b = s1.start b ∧
      BestFit s n (s1.start b) := by
    intro s1 b hb
    obtain ⟨p1, p2, p3, _⟩ := allocLoose_place hw h0 hb
    exact ⟨write_start hf hn h0 p1 p2, p3⟩
  show BestFit s n (s'.start a)
  unfold insertField at hs
  split_ifs at hs with c1 c2 c3 c4
  · cases hs
  · have en : n = g.looseUnits := by unfold needs at hn; rw [if_pos c4] at hn; exact hn
    subst en
    cases hb : allocLooseWith F.loose s tag g.looseUnits with
    | ub => rw [hb] at hs; cases hs
    | exc e t => rw [hb] at hs; cases hs
    | ok b s1 =>
      rw [hb] at hs
      injection hs with e1 e2
      injection e1 with e1
      subst e1
      obtain ⟨k1, k2⟩ := fin s1 b hb
      cases v with
      | inline x => have := (fits_inline hf).2.2.1; omega
      | units cs => rw [← e2, k1]; exact k2
      | text v => rw [← e2, k1]; exact k2
      | varbin v => rw [← e2, k1]; exact k2
      | property v i => rw [← e2, k1]; exact k2
      | nested v => rw [← e2, k1]; exact k2
  · have en : v.estimate = .ok n := by unfold needs at hn; rw [if_neg c4] at hn; exact hn
    rw [en] at hs
    simp only at hs
    cases hb : allocLooseWith F.loose s tag n with
    | ub => rw [hb] at hs; cases hs
    | exc e t => rw [hb] at hs; cases hs
    | ok b s1 =>
      rw [hb] at hs
      injection hs with e1 e2
      injection e1 with e1
      subst e1
      obtain ⟨k1, k2⟩ := fin s1 b hb
      rw [if_pos (by omega)] at e2
      rw [← e2, k1]; exact k2

/-- **C16, setting a field that has no value yet.** The payload of the new value is placed by best fit. -/
theorem C16_set_new {F : Fix} {σ : Sch} {s s' : RW} {tag : Nat} {g : Genus} {v : Val} {n : Nat} (h : Reachable F σ s)
    (hl : isLoose tag = true) (hf : v.fits g = true) (hd : ¬ dropped tag g v) (hn : unitsFor g v = some n) (h0 : 0 < n)
    (hnew : ∀ f ∈ fieldsOf s, f.1 ≠ tag % 65536) (hs : setField F s tag g v = .ok () s') :
    ∃ a, a < s'.pivot ∧ (s'.mem a).hi = tag % 65536 ∧ BestFit s n (a + (s'.mem a).lo) := by
  have hn := needs_of hn
  have hw := h.wf
  have hd1 : ¬ (¬ isDiscernible tag ∧ v.isEmpty g) := fun k => hd (Or.inl k)
  have fin : ∀ s1 b, allocLooseWith F.loose s tag n = .ok b s1 →
      s'  = RW.withMem s1 (v.write s1.mem (s1.start b)) → ∃ a, a < s'.pivot ∧ (s'.mem a).hi = tag % 65536 ∧ BestFit s n (s'.start a) := by
    rintro s1 b hb rfl
    obtain ⟨p1, p2, p3, p4, p5⟩ := allocLoose_place hw h0 hb
    have k1 := write_start hf hn h0 p1 p2
    have w := (write_spec hf hn h0 s1.mem (s1.start b)).1 b (Or.inl (by omega))
    refine ⟨b, p4, ?_, by rw [k1]; exact p3⟩
    show ((v.write s1.mem (s1.start b)) b).hi = _
    rw [w]; exact p5
  show ∃ a, a < s'.pivot ∧ (s'.mem a).hi = tag % 65536 ∧ BestFit s n (s'.start a)
  have hlk : tag2genus tag = g → s.lookup (tag2gid tag) = none := by
    intro hg
    rw [gid_eq, lookup_none (tag_not_hole (by rw [hg]; exact fits_not_hole hf))]
    intro b hb
    exact hnew _ (Multiset.mem_map_of_mem _ (mem_liveSet.2 hb.1)) hb.2
  unfold setField at hs
  rw [if_neg (by rw [preplaced_not_loose, hl]; decide)] at hs
  by_cases c : isLooseCollection tag = true
  · rw [if_pos c] at hs; cases hs
  rw [if_neg c] at hs
  cases hfx : g.isFixed with
  | true =>
    rw [hfx, if_pos rfl] at hs
    have en : n = g.looseUnits := by unfold needs at hn; rw [if_pos hfx] at hn; exact hn
    unfold assignLooseFixed at hs
    by_cases hg : tag2genus tag = g
    · rw [if_neg (fun k => k hg), hlk hg] at hs
      simp only at hs
      rw [if_neg hd1, ← en] at hs
      cases hb : allocLooseWith F.loose s tag n with
      | ub => rw [hb] at hs; cases hs
      | exc e t => rw [hb] at hs; cases hs
      | ok b s1 =>
        rw [hb] at hs
        injection hs with _ e2
        refine fin s1 b hb ?_
        cases v with
        | inline x => have := (fits_inline hf).2.2.1; omega
        | units cs => exact e2.symm
        | text v => exact e2.symm
        | varbin v => exact e2.symm
        | property v i => exact e2.symm
        | nested v => exact e2.symm
    · rw [if_pos hg] at hs; cases hs
  | false =>
    rw [hfx, if_neg (by decide)] at hs
    have en : v.estimate = .ok n := by unfold needs at hn; rw [hfx, if_neg (by decide)] at hn; exact hn
    unfold assignStretchy at hs
    by_cases hg : tag2genus tag = g
    · have hnu : neededUnits tag g v = .ok n := by
        unfold neededUnits
        rw [if_pos (by
          by_contra k
          rw [not_or, not_not] at k
          exact hd1 k)]
        exact en
      rw [if_neg (fun k => k hg), hlk hg, hnu] at hs
      simp only at hs
      rw [if_neg (by omega)] at hs
      cases hb : allocLooseWith F.loose s tag n with
      | ub => rw [hb] at hs; cases hs
      | exc e t => rw [hb] at hs; cases hs
      | ok b s1 =>
        rw [hb] at hs
        injection hs with _ e2
        exact fin s1 b hb e2.symm
    · rw [if_pos hg] at hs; cases hs

private theorem allocData_place {σ : Sch} {s s' : RW} {n p : Nat} (h : WF σ s) (h0 : 0 < n) (hs : allocData s n = .ok p s') :
    BestFit s n p ∧ s.base ≤ p ∧ p ≤ s.tail := by
  have hi := h.inv
  have hbt := hi.bt
  obtain ⟨r, hr, hb⟩ := lookupBest_spec hi n
  unfold allocData at hs
  rw [hr] at hs
  cases r with
  | none =>
    simp only [allocDataAt, tailAlloc] at hs
    by_cases c : s.lim - s.tail < n
    · rw [if_pos c] at hs; cases hs
    · rw [if_neg c] at hs
      injection hs with e1 e2
      subst e1
      exact ⟨bestFit_none hb, hbt, le_rfl⟩
  | some x =>
    obtain ⟨hx, hxu, _⟩ := hb.some' x rfl
    have hin := hi.hole_inside hx (by omega)
    have hle : s.holeEnd x = s.start x + s.units x := rfl
    simp only [allocDataAt] at hs
    have e1 : p = s.start x := by
      by_cases c : s.units x - n = 0
      · rw [if_pos c] at hs; injection hs with e1 _; exact e1.symm
      · rw [if_neg c] at hs
        have hul : s.units x ≤ 2047 := Cell.units_le
        rw [setUnits_ok _ _ (by omega)] at hs
        injection hs with e1 _; exact e1.symm
    subst e1
    exact ⟨bestFit_some hb, hin.1, by omega⟩

/-- **C16, setting a stretchy preplaced field that has no value yet.** -/
theorem C16_set_preplaced_new {F : Fix} {σ : Sch} {s s' : RW} {tag : Nat} {g : Genus} {v : Val} {n : Nat} (h : Reachable F σ s)
    (hp : isPreplaced tag = true) (hslot : StretchySlot σ s.pre tag g) (hf : v.fits g = true) (hd : ¬ dropped tag g v)
    (hn : unitsFor g v = some n) (h0 : 0 < n) (hnew : (s.mem (s.pivot + tag2offset tag / 4)).lo = 0)
    (hs : setField F s tag g v = .ok () s') :
    BestFit s n (s.pivot + tag2offset tag / 4 + (s'.mem (s.pivot + tag2offset tag / 4)).lo) := by
  have hn := needs_of hn
  have hw := h.wf
  have hfx := hw.sch _ _ hslot.2
  have h16 := hw.inv.lt16
  have hbase : s.base = s.pivot + s.pre := rfl
  have hk := hslot.1
  have hd1 : ¬ (¬ isDiscernible tag ∧ v.isEmpty g) := fun k => hd (Or.inl k)
  have en : v.estimate = .ok n := by unfold needs at hn; rw [hfx, if_neg (by decide)] at hn; exact hn
  unfold setField at hs
  rw [if_pos hp, hfx, if_neg (by decide)] at hs
  set a := s.pivot + tag2offset tag / 4 with ha
  unfold assignStretchy at hs
  by_cases hg : tag2genus tag = g
  · have hnu : neededUnits tag g v = .ok n := by
      unfold neededUnits
      rw [if_pos (by
        by_contra k
        rw [not_or, not_not] at k
        exact hd1 k)]
      exact en
    have hnl : isLoose tag = false := by
      have := preplaced_not_loose tag
      rw [hp] at this
      simpa using this.symm
    rw [if_neg (fun k => k hg), hnu] at hs
    simp only at hs
    rw [if_neg (by rw [hnl]; rintro ⟨k, _⟩; cases k), if_neg (by rw [hnew]; exact fun k => k rfl), if_neg (by omega)] at hs
    cases hb : allocData s n with
    | ub => rw [hb] at hs; cases hs
    | exc e t => rw [hb] at hs; cases hs
    | ok p s1 =>
      rw [hb] at hs
      injection hs with _ e2
      obtain ⟨k1, k2, k3⟩ := allocData_place hw h0 hb
      have w := (write_spec hf hn h0 (s1.setPayload a p).mem p).1 a (Or.inl (by omega))
      have e : (s'.mem a).lo = p - a := by
        rw [← e2]
        show ((v.write (s1.setPayload a p).mem p) a).lo = _
        rw [w, mem_setPayload_same]
        show (p + 65536 - a) % 65536 = _
        omega
      rw [e, show a + (p - a) = p by omega]
      exact k1
  · rw [if_pos hg] at hs; cases hs

/-- The hypotheses of C16 are met: the tuple of `good_run` has a hole of two units, and setting a new field of one unit
succeeds. -/
example : ∃ s, run .code (fresh 8 60) goodOps = some s ∧ Reachable .code noPre s ∧
    (∃ p, FreeAt s p 2 ∧ ∃ s', setField .code s (fix .u32 9) .u32 (unitsVal 1 77) = .ok () s') := by
  obtain ⟨s, hr, hre, _⟩ := good_run
  have hp : ∃ t, run .code (fresh 8 60) goodOps = some t ∧ (match setField .code t (fix .u32 9) .u32 (unitsVal 1 77) with
    | .ok _ _ => decide (t.head = 3 ∧ t.pivot = 8 ∧ (t.mem 5).hi / 2048 = 31 ∧ (t.mem 5).hi % 2048 = 2)
    | _ => false) = true := run_decide (F := .code) (s := fresh 8 60) (ops := goodOps) (fun s =>
    match setField .code s (fix .u32 9) .u32 (unitsVal 1 77) with
    | .ok _ _ => decide (s.head = 3 ∧ s.pivot = 8 ∧ (s.mem 5).hi / 2048 = 31 ∧ (s.mem 5).hi % 2048 = 2)
    | _ => false) (by decide +kernel)
  obtain ⟨t, ht, hp⟩ := hp
  have : s = t := by rw [hr] at ht; injection ht
  subst this
  cases hs : setField .code s (fix .u32 9) .u32 (unitsVal 1 77) with
  | ub => rw [hs] at hp; cases hp
  | exc e t => rw [hs] at hp; cases hp
  | ok u s' =>
    rw [hs] at hp
    obtain ⟨h1, h2, h3, h4⟩ := of_decide_eq_true hp
    exact ⟨s, hr, hre, 5 + (s.mem 5).lo, ⟨5, by omega, by omega, h3, h4, rfl⟩, s', hs⟩

end Fptu.Props
