import Verif.Props.TupleRW
import Mathlib.Algebra.BigOperators.Ring.Finset
/-!
# C12, C13, C14, C15: validity of the layout, failed modifications, reclaiming of space, genuine deficits
-/
namespace Fptu.Props
open Fptu Fptu.Gear Fptu.Rw

/-! ## C12 -/

/-- Payload units that belong to the cell `a` of the index or of the preplaced area: for a hole the size recorded in its
descriptor, for a field the size which its descriptor and its payload header tell. -/
def chunkLen (σ : Sch) (s : RW) (a : Nat) : Nat :=
  if a < s.pivot ∧ (s.mem a).hi / 2048 = 31 then (s.mem a).hi % 2048 else lenOf σ s a

/-- Structural validity, as the audit understands it: the parts of the buffer are in order; every chunk lies inside the
used payload area `[base, tail)`; chunks do not overlap; together they cover the area; the counters are exact. -/
structure Layout (σ : Sch) (s : RW) : Prop where
  bounds : s.head ≤ s.pivot ∧ s.pivot + s.pre ≤ s.tail ∧ s.tail ≤ s.lim
  inside : ∀ a, s.head ≤ a → a < s.pivot + s.pre → 0 < chunkLen σ s a →
    s.pivot + s.pre ≤ a + (s.mem a).lo ∧ a + (s.mem a).lo + chunkLen σ s a ≤ s.tail
  apart : ∀ a b, a ≠ b → s.head ≤ a → a < s.pivot + s.pre → s.head ≤ b → b < s.pivot + s.pre →
    0 < chunkLen σ s a → 0 < chunkLen σ s b →
    a + (s.mem a).lo + chunkLen σ s a ≤ b + (s.mem b).lo ∨ b + (s.mem b).lo + chunkLen σ s b ≤ a + (s.mem a).lo
  covered : ∀ u, s.pivot + s.pre ≤ u → u < s.tail →
    ∃ a, s.head ≤ a ∧ a < s.pivot + s.pre ∧ a + (s.mem a).lo ≤ u ∧ u < a + (s.mem a).lo + chunkLen σ s a
  count : s.jc = ((Finset.Ico s.head s.pivot).filter fun a => (s.mem a).hi / 2048 = 31).card
  volume : s.jv = ∑ a ∈ (Finset.Ico s.head s.pivot).filter (fun a => (s.mem a).hi / 2048 = 31), (s.mem a).hi % 2048

private theorem chunk_clen (σ : Sch) (s : RW) (a : Nat) : clen s.pivot (lenOf σ s) a (s.mem a) = chunkLen σ s a := by
  unfold clen chunkLen Cell.isHole Cell.units; rfl

theorem layout_of_inv {σ : Sch} {s : RW} (h : Inv s (lenOf σ s) fun _ => 0) : Layout σ s := by
  have hbase : s.base = s.pivot + s.pre := rfl
  refine ⟨⟨h.hp, h.bt, h.tl⟩, fun a h1 h2 h3 => ?_, fun a b hab h1 h2 h3 h4 h5 h6 => ?_, fun u h1 h2 => ?_, ?_, ?_⟩
  · have k := h.inside h1 h2 (by rw [chunk_clen]; exact h3)
    rw [chunk_clen] at k
    exact k
  · have k := fun u => h.disjoint hab h1 h2 h3 h4 u
    rw [chunk_clen, chunk_clen] at k
    have ka := k (a + (s.mem a).lo)
    have kb := k (b + (s.mem b).lo)
    unfold RW.start ind at ka kb
    split_ifs at ka kb <;> omega
  · have k := h.cover u
    by_contra hc
    have hc : ∀ a, s.head ≤ a → a < s.base → ¬ (a + (s.mem a).lo ≤ u ∧ u < a + (s.mem a).lo + chunkLen σ s a) :=
      fun a k1 k2 k3 => hc ⟨a, k1, k2, k3.1, k3.2⟩
    have e : T (phiW s.pivot (lenOf σ s) u) s.mem s.head s.base = T (fun _ _ => 0) s.mem s.head s.base := by
      refine T_congr fun a k1 k2 => ?_
      unfold phiW
      rw [chunk_clen]
      unfold ind
      rw [if_neg (hc a k1 k2)]
    rw [e] at k
    unfold T ind at k
    rw [if_pos (by omega)] at k
    simp at k
  · have k := h.cnt
    unfold T phiC Cell.isHole at k
    refine Int.ofNat_inj.1 ?_
    rw [Finset.card_filter, k, Nat.cast_sum]
    refine Finset.sum_congr rfl fun a _ => ?_
    split_ifs <;> rfl
  · have k := h.vol
    unfold T phiV Cell.isHole Cell.units at k
    refine Int.ofNat_inj.1 ?_
    rw [Finset.sum_filter, k, Nat.cast_sum]
    refine Finset.sum_congr rfl fun a _ => ?_
    split_ifs <;> rfl

theorem layout_of_wf {σ : Sch} {s : RW} (h : WF σ s) : Layout σ s := layout_of_inv h.inv

/-- **C12 (partial).** Every reachable tuple, after every history of operations that succeeded or threw, has a valid layout.
Missing for the code as it is: histories in which a defect of `src/gear.cxx` shows (`C12_layout_refuted`,
`C12_swap_refuted`, `C12_release_refuted`). -/
theorem C12_layout_partial {F : Fix} {σ : Sch} {s : RW} (h : Reachable F σ s) : Layout σ s := layout_of_wf h.wf

/-- A fresh tuple. -/
structure Fresh (σ : Sch) (pre : Nat) (s : RW) : Prop where
  made : ∃ mem items lim image, image.length = pre ∧ items + pre ≤ lim ∧ lim ≤ 65534 ∧
    (∀ k g, σ k = some g → k < pre → (image.getD k .zero).lo = 0) ∧ s = create mem items pre lim image
  sch : ∀ k g, σ k = some g → g.isFixed = false

theorem Fresh.reachable {F : Fix} {σ : Sch} {pre : Nat} {s s' : RW} {ops : List Op} (h : Fresh σ pre s) (ho : ∀ op ∈ ops, OpOk σ pre op)
    (hb : RunBenign F s ops) (hr : run F s ops = some s') : Reachable F σ s' := by
  obtain ⟨⟨mem, items, lim, image, h1, h2, h3, h4, rfl⟩, h5⟩ := h
  exact ((Reachable.create mem h1 h2 h3 h5 h4).run ho hb hr).1

/-- **C12 for the repaired allocator**: every history of operations from a fresh tuple, of any length, in a buffer with at
most 2047 payload units, is free of undefined behaviour and ends in a valid layout. In larger buffers the same holds
as long as no step drops a value that together with the junk has more than 2047 units (`SmallHoles`); without this it is
false (`C12_big_hole_refuted`). -/
theorem C12_layout_repaired {σ : Sch} {pre : Nat} {s : RW} {ops : List Op} (h : Fresh σ pre s) (ho : ∀ op ∈ ops, OpOk σ pre op) :
    (s.lim ≤ s.pivot + s.pre + 2047 ∨ SmallHoles .repaired s ops → ∃ s', run .repaired s ops = some s') ∧
    ∀ s', run .repaired s ops = some s' → Layout σ s' := by
  refine ⟨fun hl => ?_, fun s' hr => C12_layout_partial (h.reachable ho (runBenign_repaired _ _) hr)⟩
  obtain ⟨⟨mem, items, lim, image, h1, h2, h3, h4, rfl⟩, h5⟩ := h
  have hwf := create_wf (mem := mem) h1 h2 h3 h5 h4
  have key := run_lean (F := .repaired) ops hwf ho (runBenign_repaired _ _) (hl.elim (smallHoles_of ops hwf ho (runBenign_repaired _ _)) id)
  cases hr : run .repaired (create mem items pre lim image) ops with
  | none => exact absurd hr key
  | some s' => exact ⟨s', rfl⟩

/-- **C12 for the code as it is (partial)**: the same, for histories in which no defect shows. -/
theorem C12_no_undefined_partial {F : Fix} {σ : Sch} {pre : Nat} {s : RW} {ops : List Op} (h : Fresh σ pre s) (ho : ∀ op ∈ ops, OpOk σ pre op)
    (hb : RunBenign F s ops) (hl : s.lim ≤ s.pivot + s.pre + 2047 ∨ SmallHoles F s ops) : ∃ s', run F s ops = some s' ∧ Layout σ s' := by
  have hr : ∃ s', run F s ops = some s' := by
    obtain ⟨⟨mem, items, lim, image, h1, h2, h3, h4, rfl⟩, h5⟩ := h
    have hwf := create_wf (mem := mem) h1 h2 h3 h5 h4
    have key := run_lean ops hwf ho hb (hl.elim (smallHoles_of ops hwf ho hb) id)
    cases hr : run F (create mem items pre lim image) ops with
    | none => exact absurd hr key
    | some s' => exact ⟨s', rfl⟩
  obtain ⟨s', hr⟩ := hr
  exact ⟨s', hr, C12_layout_partial (h.reachable ho hb hr)⟩

/-! ## C13 -/

/-- **C13 (partial).** In every reachable tuple, a modification that throws leaves the tuple exactly as it was — same
fields, same values, same free space. Missing for the code as it is: steps in which the defect of gear.cxx:393 shows
(`C13_failed_set_refuted`) and histories which other defects have broken. -/
theorem C13_failed_partial {F : Fix} {σ : Sch} {s s' : RW} {op : Op} {e : Exc} (h : Reachable F σ s) (ho : OpOk σ s.pre op)
    (hb : StepBenign F s op) (hs : step F s op = .exc e s') : s' = s := by
  have key := step_spec h.wf op ho hb
  rw [hs] at key; exact key

theorem C13_failed_repaired {σ : Sch} {s s' : RW} {op : Op} {e : Exc} (h : Reachable .repaired σ s) (ho : OpOk σ s.pre op)
    (hs : step .repaired s op = .exc e s') : s' = s := C13_failed_partial h ho (stepBenign_repaired _ _) hs

/-! ## C14 -/

/-- **C14 (partial).** When a reachable tuple holds no loose field and no stretchy preplaced field has a value, it is back
to its initial layout: empty index, no payload, no junk. Missing for the code as it is: histories in which a defect of
`src/gear.cxx` shows (`C14_reclaim_refuted`). -/
theorem C14_reclaim_partial {F : Fix} {σ : Sch} {s : RW} (h : Reachable F σ s) (hf : fieldsOf s = 0)
    (hp : ∀ k g, σ k = some g → k < s.pre → (s.mem (s.pivot + k)).lo = 0) :
    s.head = s.pivot ∧ s.tail = s.pivot + s.pre ∧ s.jc = 0 ∧ s.jv = 0 := by
  have hw := h.wf
  have hbase : s.base = s.pivot + s.pre := rfl
  have hnl : ∀ a, ¬ s.live a := by
    intro a ha
    have : entryAt s a ∈ fieldsOf s := Multiset.mem_map_of_mem _ (mem_liveSet.2 ha)
    rw [hf] at this
    exact absurd this (Multiset.notMem_zero _)
  have lay := layout_of_wf hw
  have htail : s.tail = s.base := by
    by_contra hne
    have hbt := hw.inv.bt
    obtain ⟨a, h1, h2, h3, h4⟩ := lay.covered (s.tail - 1) (by omega) (by omega)
    have hin := lay.inside a h1 h2 (by omega)
    by_cases hap : a < s.pivot
    · have hh : s.hole a := ⟨h1, hap, by
        by_contra hn
        exact hnl a ⟨h1, hap, hn⟩⟩
      have hlen : chunkLen σ s a = s.units a := by
        unfold chunkLen; rw [if_pos ⟨hap, hh.2.2⟩]
      rw [hlen] at h4 hin
      refine hw.canon.noTail a hh (by omega) ?_
      show a + (s.mem a).lo + s.units a = s.tail
      omega
    · have hlen : chunkLen σ s a = lenOf σ s a := by unfold chunkLen; rw [if_neg (fun k => hap k.1)]
      rw [hlen] at h4
      have hz : lenOf σ s a = 0 := by
        unfold lenOf
        rw [if_neg hap]
        cases hσ : σ (a - s.pivot) with
        | none => rfl
        | some g =>
          show fieldUnits s.mem g a = 0
          have := hp _ g hσ (by omega)
          rw [show s.pivot + (a - s.pivot) = a by omega] at this
          unfold fieldUnits
          rw [hw.sch _ _ hσ, if_neg (by decide), if_pos this]
      omega
  have hz : ∀ a, s.hole a → s.units a = 0 := by
    intro a ha
    by_contra hn
    have k := hw.inv.hole_inside ha hn
    have e : s.holeEnd a = s.start a + s.units a := rfl
    omega
  have hhead : s.head = s.pivot := by
    by_contra hne
    have hhp := hw.inv.hp
    have hlt : s.head < s.pivot := by omega
    have hh : s.hole s.head := ⟨le_rfl, hlt, by
      by_contra hn
      exact hnl s.head ⟨le_rfl, hlt, hn⟩⟩
    exact hw.canon.headNZ hlt hh.2.2 (hz _ hh)
  refine ⟨hhead, htail, ?_, ?_⟩
  · rw [lay.count, hhead, Finset.Ico_self]; rfl
  · rw [lay.volume, hhead, Finset.Ico_self]; rfl

/-! ## C15 -/

/-- The units needed to store a value in a tuple, `none` if it is too long for its type. -/
def unitsFor (g : Genus) (v : Val) : Option Nat :=
  if g.isFixed then some g.looseUnits else match v.estimate with | .ok n => some n | .error _ => none

private theorem unitsFor_needs {g : Genus} {v : Val} {n : Nat} (h : needs g v n) : unitsFor g v = some n := by
  unfold needs at h
  unfold unitsFor
  split_ifs at * with hf
  · rw [h]
  · rw [h]

/-- A deficit that is genuine: the free tail is too short and so is every hole, or the index has no free slot: no space
before it and no hole without payload in it. -/
def GenuineDeficit (s : RW) (n : Nat) : Prop :=
  (s.lim - s.tail < n ∧ ∀ a, s.head ≤ a → a < s.pivot → (s.mem a).hi / 2048 = 31 → (s.mem a).hi % 2048 < n) ∨
  (s.head = 0 ∧ ∀ a, s.head ≤ a → a < s.pivot → (s.mem a).hi / 2048 = 31 → (s.mem a).hi % 2048 ≠ 0)

private theorem loose_genuine {s : RW} {n : Nat} {e : Exc} (h : LooseDeficit s n e) : GenuineDeficit s n := by
  obtain ⟨_, h | h⟩ := h
  · exact Or.inl ⟨h.1, fun a h1 h2 h3 => h.2 a ⟨h1, h2, h3⟩⟩
  · exact Or.inr ⟨h.1, fun a h1 h2 h3 => h.2.1 a ⟨h1, h2, h3⟩⟩

private theorem realloc_genuine {s : RW} {n : Nat} {e : Exc} (h : ReallocDeficit s n e) : GenuineDeficit s n := by
  obtain ⟨_, h | h⟩ := h
  · exact Or.inl ⟨h.1, fun a h1 h2 h3 => h.2 a ⟨h1, h2, h3⟩⟩
  · exact Or.inr ⟨h.1, fun a h1 h2 h3 => h.2 a ⟨h1, h2, h3⟩⟩

private theorem failure_genuine {s : RW} {g : Genus} {v : Val} {b : Bool} {e : Exc} (h : Failure s g v b e) :
    unitsFor g v = none ∨ ∃ n, unitsFor g v = some n ∧ (∃ i, e = .insufficientSpace i n ∧ i ≤ 1 ∧ (i = 0 → s.lim - s.tail < n)) ∧ GenuineDeficit s n := by
  cases h with
  | tooLong h1 h2 => left; unfold unitsFor; rw [h1, h2]; rfl
  | loose n h1 h2 h3 => exact Or.inr ⟨n, unitsFor_needs h2, ⟨1, h3.1, le_rfl, by omega⟩, loose_genuine h3⟩
  | realloc n h1 h2 h3 h4 => exact Or.inr ⟨n, unitsFor_needs h2, h4.1, realloc_genuine h4⟩

/-- **C15 (partial), insert.** If inserting throws although token and value are of the right kind, then the value is too
long for its type, or the exception reports the units of the value, asking for at most one index slot and for none only if the free tail
is too short, and the deficit is genuine. Hence an insert succeeds
whenever the free tail can hold the value and the index has a free slot; it is never undefined behaviour.
Missing for the code as it is: histories in which a defect of `src/gear.cxx` shows. -/
theorem C15_insert_partial {F : Fix} {σ : Sch} {s : RW} {tag : Nat} {g : Genus} {v : Val} (h : Reachable F σ s)
    (hf : v.fits g = true) (hg : tag2genus tag = g) (hc : isLooseCollection tag = true) (hb : StepBenign F s (.insert tag g v)) :
    (∀ e s', insertField F s tag g v = .exc e s' →
      unitsFor g v = none ∨ ∃ n, unitsFor g v = some n ∧ (∃ i, e = .insufficientSpace i n ∧ i ≤ 1 ∧ (i = 0 → s.lim - s.tail < n)) ∧ GenuineDeficit s n) ∧
    (∀ n, unitsFor g v = some n → n ≤ s.lim - s.tail → 0 < s.head → ∃ r s', insertField F s tag g v = .ok r s') := by
  have key := insert_spec h.wf hb hg hf hc
  have fwd : ∀ e s', insertField F s tag g v = .exc e s' →
      unitsFor g v = none ∨ ∃ n, unitsFor g v = some n ∧ (∃ i, e = .insufficientSpace i n ∧ i ≤ 1 ∧ (i = 0 → s.lim - s.tail < n)) ∧ GenuineDeficit s n := by
    intro e s' he
    rw [he] at key
    exact failure_genuine key.2
  refine ⟨fwd, fun n hn hl h0 => ?_⟩
  cases hr : insertField F s tag g v with
  | ub => rw [hr] at key; exact key.elim
  | ok r s' => exact ⟨r, s', rfl⟩
  | exc e s' =>
    exfalso
    rcases fwd e s' hr with k | ⟨m, k1, _, k2 | k2⟩
    · rw [hn] at k; cases k
    · rw [hn] at k1; injection k1 with k1; omega
    · omega

private theorem set_failure {F : Fix} {σ : Sch} {s : RW} {tag : Nat} {g : Genus} {v : Val} (h : WF σ s)
    (hf : v.fits g = true) (hg : tag2genus tag = g) (hc : isLooseCollection tag = false) (ht : TokenOk σ s.pre tag)
    (hb : Benign F s g v) :
    (setField F s tag g v).Sat (2047 < s.jv + occupied s tag)
      (fun e _ => ((∃ b, Failure s g v b e) ∧ (isLoose tag = false → ¬ dropped tag g v)) ∨ (isLoose tag = false ∧ dropped tag g v ∧ e = .insufficientSpace 1 0 ∧ s.head = 0 ∧ ∀ x, s.hole x → s.units x ≠ 0))
      (fun _ _ => True) := by
  have ht2 := preplaced_not_loose tag
  unfold setField
  cases hp : isPreplaced tag with
  | true =>
    have hnl : isLoose tag = false := by rw [hp] at ht2; simpa using ht2.symm
    rw [if_pos rfl]
    have hslot := ht.2 hp
    rw [hg] at hslot
    cases hfx : g.isFixed with
    | true =>
      rw [hfx, if_pos rfl] at hslot
      rw [if_pos rfl]
      obtain ⟨s', e, post, _⟩ := setPreplacedFixed_spec h hg hf hfx hslot
      rw [e]; trivial
    | false =>
      rw [hfx, if_neg (by decide)] at hslot
      rw [if_neg (by decide)]
      have hbase : s.base = s.pivot + s.pre := rfl
      have hs1 := hslot.1
      have hfa : FieldAt σ s (s.pivot + tag2offset tag / 4) g :=
        Or.inr ⟨by omega, by omega, by rw [Nat.add_sub_cancel_left]; exact hslot.2⟩
      refine Out.Sat.bind (P := fun _ _ => True)
        ((setStretchyAt_spec h hb hg hf hfx hfa (by rw [hnl]; simp)).mono
          (fun hU => by rw [occupied_stretchy hp (by rw [hg]; exact hfx) (by rw [hg]; exact hslot)]; exact hU) ?_ fun _ _ _ => trivial) fun _ _ _ => trivial
      rintro e s' (k | k)
      · exact Or.inl ⟨⟨_, k.2.1⟩, fun _ => k.2.2⟩
      · exact Or.inr ⟨hnl, k.2.1, k.2.2.1, k.2.2.2.1, k.2.2.2.2.1⟩
  | false =>
    have hll : isLoose tag = true := by rw [hp] at ht2; simpa using ht2.symm
    rw [if_neg (by decide), if_neg (by rw [hc]; decide), gid_eq]
    cases hfx : g.isFixed with
    | true =>
      rw [if_pos rfl]
      exact Out.Sat.bind (P := fun _ _ => True)
        ((setLooseFixed_spec h hb hg hf hfx).mono (fun hU => lt_of_lt_of_le hU (Nat.add_le_add_left (occupied_lookup hp ht.1) _)) (fun _ _ k => Or.inl ⟨⟨_, k.2⟩, fun c => by rw [hll] at c; cases c⟩) fun _ _ _ => trivial) fun _ _ _ => trivial
    | false =>
      rw [if_neg (by decide)]
      exact Out.Sat.bind (P := fun _ _ => True)
        ((setLooseStretchy_spec h hb hg hf hfx hll).mono (fun hU => lt_of_lt_of_le hU (Nat.add_le_add_left (occupied_lookup hp ht.1) _)) (fun _ _ k => Or.inl ⟨⟨_, k.2⟩, fun c => by rw [hll] at c; cases c⟩) fun _ _ _ => trivial) fun _ _ _ => trivial

/-- **C15 (partial), set.** The same for setting a field, loose or preplaced. Dropping the value of a preplaced field needs
an index slot for the hole, nothing else. With room for the value and an unused entry, setting succeeds, provided that the
junk and the old values of the field have at most 2047 units (`s.jv + occupied s tag`), however large the tuple is. -/
theorem C15_set_partial {F : Fix} {σ : Sch} {s : RW} {tag : Nat} {g : Genus} {v : Val} (h : Reachable F σ s)
    (hf : v.fits g = true) (hg : tag2genus tag = g) (hc : isLooseCollection tag = false) (ht : TokenOk σ s.pre tag)
    (hb : StepBenign F s (.set tag g v)) :
    (∀ e s', setField F s tag g v = .exc e s' →
      unitsFor g v = none ∨ (∃ n, unitsFor g v = some n ∧ (∃ i, e = .insufficientSpace i n ∧ i ≤ 1 ∧ (i = 0 → s.lim - s.tail < n)) ∧
        GenuineDeficit s n ∧ (isLoose tag = false → ¬ dropped tag g v)) ∨
      (isLoose tag = false ∧ dropped tag g v ∧ e = .insufficientSpace 1 0 ∧ GenuineDeficit s 0)) ∧
    (∀ n, unitsFor g v = some n → n ≤ s.lim - s.tail → 0 < s.head → s.jv + occupied s tag ≤ 2047 →
      ∃ s', setField F s tag g v = .ok () s') := by
  have key := set_failure h.wf hf hg hc ht hb.1
  have fwd : ∀ e s', setField F s tag g v = .exc e s' →
      unitsFor g v = none ∨ (∃ n, unitsFor g v = some n ∧ (∃ i, e = .insufficientSpace i n ∧ i ≤ 1 ∧ (i = 0 → s.lim - s.tail < n)) ∧
        GenuineDeficit s n ∧ (isLoose tag = false → ¬ dropped tag g v)) ∨
      (isLoose tag = false ∧ dropped tag g v ∧ e = .insufficientSpace 1 0 ∧ GenuineDeficit s 0) := by
    intro e s' he
    rw [he] at key
    rcases key with ⟨⟨b, k⟩, hd⟩ | k
    · rcases failure_genuine k with k | ⟨n, k1, k2, k3⟩
      · exact Or.inl k
      · exact Or.inr (Or.inl ⟨n, k1, k2, k3, hd⟩)
    · exact Or.inr (Or.inr ⟨k.1, k.2.1, k.2.2.1, Or.inr ⟨k.2.2.2.1, fun a h1 h2 h3 => k.2.2.2.2 a ⟨h1, h2, h3⟩⟩⟩)
  refine ⟨fwd, fun n hn hl h0 h2047 => ?_⟩
  have hbase : s.base = s.pivot + s.pre := rfl
  cases hr : setField F s tag g v with
  | ub =>
    rw [hr] at key
    have key : 2047 < s.jv + occupied s tag := key
    omega
  | ok r s' => exact ⟨s', rfl⟩
  | exc e s' =>
    exfalso
    rcases fwd e s' hr with k | ⟨m, k1, _, k2 | k2, _⟩ | ⟨_, _, _, k2 | k2⟩
    · rw [hn] at k; cases k
    · rw [hn] at k1; injection k1 with k1; omega
    · omega
    · omega
    · omega

/-- **C12 (partial), one step.** In every reachable tuple, however large, a modification is defined when the junk together with the
values of its field has at most 2047 units; an insertion always is. In full, without this condition, it is false (`C12_big_hole_refuted`). -/
theorem C12_step_partial {F : Fix} {σ : Sch} {s : RW} {op : Op} (h : Reachable F σ s) (ho : OpOk σ s.pre op) (hb : StepBenign F s op)
    (hs : ∀ tag, (op = .erase tag ∨ ∃ g v, op = .set tag g v) → s.jv + occupied s tag ≤ 2047) : step F s op ≠ .ub := by
  intro e
  have key := step_spec h.wf op ho hb
  rw [e] at key
  cases op with
  | set tag g v => exact absurd (show 2047 < s.jv + occupied s tag from key) (not_lt.2 (hs tag (Or.inr ⟨g, v, rfl⟩)))
  | insert tag g v => exact key
  | erase tag => exact absurd (show 2047 < s.jv + occupied s tag from key) (not_lt.2 (hs tag (Or.inl rfl)))

/-! ## Uniqueness of fields that are only set -/

/-- **C09 (partial), uniqueness.** A field whose descriptor is never passed to `insert` has at most one value, in every
reachable tuple; so the hypotheses on the number of values in `C09_unset_partial` and `C11_erase_single` hold for it. -/
theorem C09_single_partial {F : Fix} {σ : Sch} {pre : Nat} {s s' : RW} {ops : List Op} {w : Nat} (h : Fresh σ pre s)
    (ho : ∀ op ∈ ops, OpOk σ pre op) (hb : RunBenign F s ops) (hr : run F s ops = some s') 
    (hw : ∀ tag g v, Op.insert tag g v ∈ ops → tag % 65536 ≠ w) :
    (fieldsOf s').countP (fun f => f.1 = w) ≤ 1 := by
  have h0 : Reachable F σ s := h.reachable (ops := []) (by simp) trivial rfl
  have c0 : (fieldsOf s).countP (fun f => f.1 = w) ≤ 1 := by
    obtain ⟨⟨mem, items, lim, image, h1, h2, h3, h4, rfl⟩, h5⟩ := h
    have : liveSet (create mem items pre lim image) = ∅ := by
      ext a
      rw [mem_liveSet]
      constructor
      · intro k; exact absurd k.2.1 (by have : items ≤ a := k.1; show ¬ a < items; omega)
      · intro k; exact absurd k (Finset.notMem_empty _)
    unfold fieldsOf
    rw [this]; simp
  have hpre : s.pre = pre := by
    obtain ⟨⟨mem, items, lim, image, h1, h2, h3, h4, rfl⟩, h5⟩ := h; rfl
  clear h
  induction ops generalizing s with
  | nil => injection hr with hr; subst hr; exact c0
  | cons op ops ih =>
    obtain ⟨hb1, hb2⟩ := hb
    have hop := ho op (by simp)
    have hrest : ∀ o ∈ ops, OpOk σ pre o := fun o k => ho o (by simp [k])
    have hwrest : ∀ tag g v, Op.insert tag g v ∈ ops → tag % 65536 ≠ w := fun tag g v k => hw tag g v (by simp [k])
    rw [← hpre] at hop
    rw [run] at hr
    cases hs : step F s op with
    | ub => rw [hs] at hr; cases hr
    | exc e t =>
      rw [hs] at hr hb2
      have := C13_failed_partial h0 hop hb1 hs
      subst this
      exact ih hrest hb2 hr hwrest h0 c0 hpre
    | ok u t =>
      rw [hs] at hr hb2
      have key := step_spec h0.wf op hop hb1
      rw [hs] at key
      refine ih hrest hb2 hr hwrest (h0.step hop hb1 (Or.inl ⟨u, hs⟩)) ?_ (key.pre.trans hpre)
      have up : ∀ {f : Nat × Option Val} {r : Multiset (Nat × Option Val)}, fieldsOf s = f ::ₘ r → r.countP (fun f => f.1 = w) ≤ 1 := by
        intro f r e
        rw [e, Multiset.countP_cons] at c0; omega
      cases op with
      | set tag g v =>
        have hs : setField F s tag g v = .ok () t := hs
        cases hp : isPreplaced tag with
        | true =>
          cases hfx : g.isFixed with
          | true => rw [(C09_set_preplaced_fixed h0 hp hop.1 hfx hop.2 hs).2.2.1]; exact c0
          | false => rw [(C09_set_preplaced_stretchy_partial h0 hp hop.1 hfx hop.2 hb1 hs).2.2.2.2.1]; exact c0
        | false =>
          have hl : isLoose tag = true := by
            have := preplaced_not_loose tag; rw [hp] at this; simpa using this.symm
          by_cases hd : dropped tag g v
          · rcases (C09_unset_partial h0 hl hop.2 hb1 hs hd).2.1 with k | ⟨old, k⟩
            · rw [k]; exact c0
            · exact up k
          · obtain ⟨rest, k1, k2⟩ := (C09_set_partial h0 hl hop.2 hb1 hs hd).2.2.1
            rw [k1, Multiset.countP_cons]
            rcases k2 with ⟨k2, k3⟩ | ⟨old, k2⟩
            · rw [← k2]
              by_cases c : tag % 65536 = w
              · rw [Multiset.countP_eq_zero.2 (fun f hf => by rw [← c]; exact k3 f hf)]
                split_ifs <;> omega
              · rw [if_neg c]; exact c0
            · rw [k2, Multiset.countP_cons] at c0
              exact c0
      | insert tag g v =>
        have hne := hw tag g v (by simp)
        have hs : (insertField F s tag g v).bind (fun _ s => Out.ok () s) = .ok u t := hs
        cases hi : insertField F s tag g v with
        | ub => rw [hi] at hs; cases hs
        | exc e x => rw [hi] at hs; cases hs
        | ok r x =>
          rw [hi] at hs
          injection hs with _ hs
          subst hs
          have k := C10_insert_partial h0 hop.2 hb1 hi
          by_cases c : ¬ isDiscernible tag ∧ v.isEmpty g
          · rw [(k.1 c).1]; exact c0
          · rw [(k.2.1 c).2, Multiset.countP_cons_of_neg (p := fun f : Nat × Option Val => f.1 = w) _ hne]; exact c0
      | erase tag =>
        have hs : (if isPreplaced tag then (erasePreplaced F s tag).bind fun _ s => Out.ok () s
          else (eraseLoose s tag).bind fun _ s => .ok () s) = .ok u t := hs
        cases hp : isPreplaced tag with
        | true =>
          rw [hp, if_pos rfl] at hs
          unfold erasePreplaced at hs
          by_cases hex : preplacedExist s tag = true
          · rw [if_pos hex] at hs
            have hslot := hop.2 hp
            cases hfx : (tag2genus tag).isFixed with
            | true =>
              rw [hfx, if_pos rfl] at hslot
              obtain ⟨x, e, post, _⟩ := erasePreplacedFixed_spec (F := F) h0.wf rfl hfx hslot
              rw [e] at hs
              injection hs with _ hs
              subst hs
              rw [(LooseKept.of_all h0.wf post.live fun b hb => (post.kept b _ (Or.inl ⟨hb, rfl⟩)).2).2]; exact c0
            | false =>
              rw [hfx, if_neg (by decide)] at hslot
              have k := erasePreplacedStretchy_spec (F := F) h0.wf rfl hslot
              cases hi : erasePreplacedAt F s tag with
              | ub => rw [hi] at hs; cases hs
              | exc e x => rw [hi] at hs; cases hs
              | ok r x =>
                rw [hi] at hs k
                injection hs with _ hs
                subst hs
                have hs1 := hslot.1
                obtain ⟨_, o, _⟩ := k
                have hpv := o.pivot
                rw [(LooseKept.of_all h0.wf (s' := x) (fun b => by
                  by_cases hba : b = s.pivot + tag2offset tag / 4
                  · subst hba
                    exact ⟨fun hh => absurd hh.2.1 (by omega), fun hh => absurd hh.2.1 (by omega)⟩
                  · exact o.live b hba) fun b hb => o.kept b (by have := hb.2.1; omega) (Or.inl hb)).2]
                exact c0
          · rw [if_neg hex] at hs
            injection hs with _ hs
            subst hs; exact c0
        | false =>
          rw [hp, if_neg (by decide)] at hs
          cases hi : eraseLoose s tag with
          | ub => rw [hi] at hs; cases hs
          | exc e x => rw [hi] at hs; cases hs
          | ok n x =>
            rw [hi] at hs
            injection hs with _ hs
            subst hs
            cases hc : isLooseCollection tag with
            | true =>
              rw [((C11_erase_collection h0 hop.1 hc).2.2 n x hi).2.1]
              exact le_trans (Multiset.countP_le_of_le _ (Multiset.filter_le _ _)) c0
            | false =>
              have k := (C11_erase_single h0 hop.1 hc).2.2 n x hi
              by_cases hz : n = 1
              · obtain ⟨old, e⟩ := k.2.2.1 hz
                exact up e
              · have k1 := k.1
                have : (fieldsOf s).countP (fun f => f.1 = tag % 65536) = 0 := by omega
                rw [(k.2.1 (by omega)).1]
                exact le_trans (Multiset.countP_le_of_le _ (Multiset.filter_le _ _)) c0

end Fptu.Props
