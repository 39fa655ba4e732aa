import Verif.Lemmas.CompactSort
import Verif.Props.Serial
/-!
# C17, C18: compaction and sorting of the index

`srt` and `gsrt` are `std::sort`: any function returning a sorted permutation of its argument.
-/
namespace Fptu.Props
open Fptu Fptu.Gear Fptu.Rw Fptu.Audit Fptu.Serial Fptu.Compact

/-- No holes in the index, no free units between the payloads, and nothing else changed than that. -/
structure Compacted (σ : Sch) (s t : RW) : Prop where
  layout : Layout σ t
  same : SameFields σ s t
  noHoles : ∀ a, t.head ≤ a → a < t.pivot → (t.mem a).hi / 2048 ≠ 31
  noJunk : t.jc = 0 ∧ t.jv = 0
  covered : ∀ u, t.pivot + t.pre ≤ u → u < t.tail → ∃ a g, FieldAt σ t a g ∧
    a + (t.mem a).lo ≤ u ∧ u < a + (t.mem a).lo + fieldUnits t.mem g a
  size : bruttoSize t + junkBytes s = bruttoSize s
  head : headSpace t = headSpace s + s.jc
  tail : tailSpaceUnits t = tailSpaceUnits s + s.jv
  capacity : capacity t = capacity s

theorem compacted_of {σ : Sch} {s t : RW} (h : WF σ s) (cp : ∃ f, Copied σ s t f) (wf : WF σ t) (hh : t.head = s.head + s.jc)
    (hpv : t.pivot = s.pivot) (hpr : t.pre = s.pre) (ht : t.tail = s.tail - s.jv) (hl : t.lim = s.lim) (h1 : t.jc = 0) (h2 : t.jv = 0) :
    Compacted σ s t := by
  obtain ⟨f, cp⟩ := cp
  have nh : ∀ a, t.head ≤ a → a < t.pivot → (t.mem a).hi / 2048 ≠ 31 := fun a a1 a2 => jc_no_holes wf h1 a a1 a2
  have L := layout_of_wf wf
  have hb := h.inv.bt
  have hhp := h.inv.hp
  have htl := h.inv.tl
  have hjc := h.inv.jc_le
  have hbase : s.base = s.pivot + s.pre := rfl
  have hbt := wf.inv.bt
  have hbaset : t.base = t.pivot + t.pre := rfl
  have hc := wf_count h
  have hw := wf_total h
  have hc' := wf_count wf
  have hw' := wf_total wf
  refine ⟨L, SameFields.of_copied h cp, nh, ⟨h1, h2⟩, fun u u1 u2 => ?_, ?_, hh, ?_, ?_⟩
  · obtain ⟨a, a1, a2, a3, a4⟩ := L.covered u u1 u2
    unfold chunkLen at a4
    rw [if_neg (fun k => nh a a1 k.1 k.2)] at a4
    by_cases c : a < t.pivot
    · have hf : FieldAt σ t a (cellGenus (t.mem a)) := Or.inl ⟨⟨a1, c, nh a a1 c⟩, rfl⟩
      exact ⟨a, _, hf, a3, by rw [← hf.len]; exact a4⟩
    · cases hs : σ (a - t.pivot) with
      | none =>
        unfold lenOf at a4
        rw [if_neg c, hs] at a4
        simp only at a4
        omega
      | some g =>
        have hf : FieldAt σ t a g := Or.inr ⟨by omega, a2, hs⟩
        exact ⟨a, g, hf, a3, by rw [← hf.len]; exact a4⟩
  · unfold bruttoSize junkBytes junkUnits units2bytes
    simp only [Nat.shiftLeft_eq]
    omega
  · unfold tailSpaceUnits; omega
  · unfold Serial.capacity; rw [hl]

theorem History.compactify {F : Fix} {sch : Option Schema} {s t : RW} {guard : Bool} {srt : List Item → List Item} (h : History F sch s)
    (hs : Sorter srt) (e : compactifyWith guard srt (schOf sch) s = .ok () t) : History F sch t :=
  ⟨h.schema, h.made.compactify hs e, (compactify_ok hs h.made.wf e).2.2.2.2.2.1.trans h.pre⟩

/-- **C17 (compaction, partial).** Compaction of any tuple any history produces keeps every field with its value, and the
order of the loose fields; afterwards the index has no holes, the payloads have no gaps, the tuple is smaller by
exactly the junk, and the gained space is available to new fields. Missing: tuples with holes in the index and a null of a
stretchy type in the index, and tuples with unused payload units and a stretchy preplaced field that is not set (`C17_null_refuted`,
`C17_preplaced_refuted`; both covered by `C17_compactify_repaired`). -/
theorem C17_compactify_partial {F : Fix} {sch : Option Schema} {s : RW} {srt : List Item → List Item} (h : History F sch s) (hs : Sorter srt)
    (h1 : s.jc = 0 ∨ NoNil s) (h2 : s.jv = 0 ∨ NoNilPre (schOf sch) s) :
    ∃ t, compactifyWith false srt (schOf sch) s = .ok () t ∧ History F sch t ∧ Compacted (schOf sch) s t := by
  obtain ⟨t, f, e, cp, wf, hp, k1, k2, k3, k4, k5, k6, k7⟩ := compactify_spec (guard := false) hs h.made.wf (Or.inr h1) (Or.inr h2)
  exact ⟨t, e, h.compactify hs e, compacted_of h.made.wf ⟨f, cp⟩ wf k1 k2 k3 k4 k5 k6 k7⟩

/-- **C17 (compaction) with the missing checks added**: no restrictions. -/
theorem C17_compactify_repaired {F : Fix} {sch : Option Schema} {s : RW} {srt : List Item → List Item} (h : History F sch s) (hs : Sorter srt) :
    ∃ t, compactifyWith true srt (schOf sch) s = .ok () t ∧ History F sch t ∧ Compacted (schOf sch) s t := by
  obtain ⟨t, f, e, cp, wf, hp, k1, k2, k3, k4, k5, k6, k7⟩ := compactify_spec (guard := true) hs h.made.wf (Or.inl rfl) (Or.inl rfl)
  exact ⟨t, e, h.compactify hs e, compacted_of h.made.wf ⟨f, cp⟩ wf k1 k2 k3 k4 k5 k6 k7⟩

/-- **C17 (a compaction never damages a tuple).** Whenever the compaction of the code as it is completes, the result is right. -/
theorem C17_compactify_completes {F : Fix} {sch : Option Schema} {s t : RW} {srt : List Item → List Item} (h : History F sch s) (hs : Sorter srt)
    (e : compactifyWith false srt (schOf sch) s = .ok () t) : History F sch t ∧ Compacted (schOf sch) s t := by
  obtain ⟨cp, wf, hp, k1, k2, k3, k4, k5, k6, k7⟩ := compactify_ok hs h.made.wf e
  exact ⟨h.compactify hs e, compacted_of h.made.wf cp wf k1 k2 k3 k4 k5 k6 k7⟩

/-- **C17 (`optimize`, partial).** `optimize` with compaction only does the same, and reports invalidated iterators exactly when the
index had holes; if it reports none, the tuple is unchanged. Same restrictions as `C17_compactify_partial`. -/
theorem C17_optimize_partial {F : Fix} {sch : Option Schema} {s : RW} {srt : List Item → List Item} {gsrt : List Cell → List Cell}
    (h : History F sch s) (hs : Sorter srt) (h1 : s.jc = 0 ∨ NoNil s) (h2 : s.jv = 0 ∨ NoNilPre (schOf sch) s) :
    ∃ t, optimizeWith false true srt gsrt (schOf sch) ⟨true, false, false⟩ s = .ok (decide (0 < s.jc)) t ∧ History F sch t ∧
      Compacted (schOf sch) s t ∧ (s.jc = 0 → t = s) := by
  obtain ⟨t, e, k1, k2⟩ := C17_compactify_partial h hs h1 h2
  have wf := h.made.wf
  have hj : s.jc = 0 → s.jv = 0 := by
    intro hj
    have L := layout_of_wf wf
    rw [L.volume]
    have c := L.count
    rw [hj] at c
    rw [Finset.card_eq_zero.1 c.symm]
    rfl
  by_cases c : s.jc = 0
  · have e0 : compactifyWith false srt (schOf sch) s = .ok () s := by
      unfold compactifyWith dropHoles
      rw [if_pos c]
      show closeGaps false srt (schOf sch) s = _
      unfold closeGaps
      rw [if_pos (hj c)]
    rw [e0] at e
    injection e with _ e
    subst e
    refine ⟨s, ?_, k1, k2, fun _ => rfl⟩
    unfold optimizeWith
    rw [if_neg (by rintro ⟨_, k | k⟩; exacts [k c, k (hj c)])]
    simp only [Out.bind]
    rw [if_neg (by simp), decide_eq_false (by omega)]
  · refine ⟨t, ?_, k1, k2, fun k => absurd k c⟩
    unfold optimizeWith
    rw [if_pos ⟨rfl, Or.inl c⟩, e]
    simp only [Out.bind]
    rw [if_neg (by simp)]

/-- **C17 (validation).** The serialized form of a compacted tuple passes the validation that does not allow holes. Same limits as for
`C19_serialized_partial`. -/
theorem C17_serialized_partial {F : Fix} {sch : Option Schema} {s t : RW} {srt : List Item → List Item} (h : History F sch s) (hs : Sorter srt)
    (e : compactifyWith false srt (schOf sch) s = .ok () t) (hmax : t.pivot - t.head + stretchyOf sch ≤ 8191)
    (hsize : t.tail - t.head + 1 ≤ 65534) :
    (∃ st, auditRo sch (takeAsis sch t) (4 * (t.tail - t.head + 1)) = .pass st ∧ st.hc = 0 ∧ st.hv = 0) ∧
    SameFields (schOf sch) s (serialized sch t) := by
  obtain ⟨k1, k2⟩ := C17_compactify_completes h hs e
  obtain ⟨⟨st, l1, l2, l3⟩, _, l4⟩ := C19_serialized_partial k1 hmax hsize
  exact ⟨⟨st, l1, l2.trans k2.noJunk.1, l3.trans k2.noJunk.2⟩, k2.same.trans l4 (by
    obtain ⟨_, _, _, _, _, k, _⟩ := compactify_ok hs h.made.wf e
    exact k)⟩

/-- The tuple of `goodOps`, with a hole, meets the hypotheses. -/
theorem good_noNil : ∃ s, History .code none s ∧ s.jc = 1 ∧ (liveSet s).card = 4 ∧ NoNil s ∧ NoNilPre (schOf none) s := by
  obtain ⟨s, hr, hp⟩ := run_decide (F := .code) (s := fresh 8 60) (ops := goodOps) (fun s => decide (s.jc = 1 ∧ (liveSet s).card = 4 ∧
    (List.range 8).all (fun a => (cellGenus (s.mem a)).isInplaced || decide (a < s.head ∨ (s.mem a).lo ≠ 0)) = true)) (by decide +kernel)
  obtain ⟨p1, p2, p3⟩ := of_decide_eq_true hp
  have hH : History .code none s := .of_run (mem := fun _ => .zero) (items := 8) (lim := 60) (image := []) (ops := goodOps)
    (fun S h => (by cases h)) rfl (by decide) (by decide) (fun k g h => (by cases h)) (opOk_of (by decide +kernel))
    (runBenign_of (by decide +kernel)) hr
  have hpv : s.pivot = 8 := ((run_spec goodOps (create_wf (σ := noPre) (mem := fun _ => .zero) (items := 8) (pre := 0) (lim := 60) (image := []) rfl (by decide) (by decide)
    (fun _ _ h => by cases h) (fun _ _ h => by cases h)) (opOk_of (by decide +kernel))
    (runBenign_of (by decide +kernel))).1 s hr).pivot
  refine ⟨s, hH, p1, p2, fun a ha hi => ?_, fun k g _ hk => by cases hk⟩
  have a1 := ha.1
  have a2 := ha.2.1
  have k := List.all_eq_true.1 p3 a (List.mem_range.2 (by omega))
  rw [hi, Bool.false_or, decide_eq_true_eq] at k
  rcases k with k | k
  · omega
  · exact k

/-! ## Compaction as it is -/

theorem bind_ub {s : RW} {guard : Bool} {srt : List Item → List Item} {σ : Sch} (h : dropHoles guard s = .ub) :
    compactifyWith guard srt σ s = .ub := by unfold compactifyWith; rw [h]; rfl

/-- **C17 (refuted).** A collection item that is a null of a stretchy type, inserted after a field that is then erased: the
compaction subtracts the distance it moves the descriptor by from an offset that is zero, which is undefined. (In a release
build the null becomes a field with an offset of 65535.) -/
theorem C17_null_refuted {F : Fix} (hF : F = .code ∨ F = .repaired) : ∃ s, History F none s ∧
    (liveSet s).card = 1 ∧ ∀ srt, compactifyWith false srt (schOf none) s = .ub := by
  have ho : ∀ op ∈ [setN 1 3, Op.insert (makeTag .nested 2 true true false) .nested (.nested none), eraseN 1], OpOk (schOf none) 0 op :=
    opOk_of (by decide +kernel)
  have hb : RunBenign F (fresh 8 60) [setN 1 3, .insert (makeTag .nested 2 true true false) .nested (.nested none), eraseN 1] :=
    runBenign_of (by rcases hF with rfl | rfl <;> decide +kernel)
  obtain ⟨s, hr, hp⟩ := run_decide (F := F) (s := fresh 8 60)
    (ops := [setN 1 3, .insert (makeTag .nested 2 true true false) .nested (.nested none), eraseN 1])
    (fun s => decide ((liveSet s).card = 1 ∧
      s.jc ≠ 0 ∧ (squeeze false s.head (s.pivot - s.head) s.mem s.pivot).isNone)) (by rcases hF with rfl | rfl <;> decide +kernel)
  obtain ⟨p1, p2, p3⟩ := of_decide_eq_true hp
  refine ⟨s, .of_run (mem := fun _ => .zero) (items := 8) (lim := 60) (image := []) (fun S h => (by cases h)) rfl (by decide) (by decide)
    (fun k g h => (by cases h)) ho hb hr, p1, fun srt => bind_ub ?_⟩
  unfold dropHoles
  rw [if_neg p2, Option.isNone_iff_eq_none.1 p3]

/-- **C17 (refuted).** A schema with a preplaced nested tuple that is not set (the initial state), two loose fields of which one is
erased: the compaction reads the size of the unset field, which is undefined. -/
theorem C17_preplaced_refuted {F : Fix} (hF : F = .code ∨ F = .repaired) : ∃ s, History F (some oneStretchy) s ∧
    (liveSet s).card = 1 ∧ ∀ srt, compactifyWith false srt (schOf (some oneStretchy)) s = .ub := by
  have ho : ∀ op ∈ [setN 1 3, setN 2 4, eraseN 1], OpOk (schOf (some oneStretchy)) 1 op := opOk_of (by decide +kernel)
  have hb : RunBenign F (create (fun _ => .zero) 8 1 60 [.zero]) [setN 1 3, setN 2 4, eraseN 1] :=
    runBenign_of (by rcases hF with rfl | rfl <;> decide +kernel)
  obtain ⟨s, hr, hp⟩ := run_decide (F := F) (s := create (fun _ => .zero) 8 1 60 [.zero]) (ops := [setN 1 3, setN 2 4, eraseN 1])
    (fun s => (match dropHoles false s with
      | .ok _ t => decide (t.jv ≠ 0 ∧ (preItems false (schOf (some oneStretchy)) t.mem t.pivot t.pre).isNone)
      | _ => false) && decide ((liveSet s).card = 1)) (by rcases hF with rfl | rfl <;> decide +kernel)
  rw [Bool.and_eq_true] at hp
  obtain ⟨hp, hc⟩ := hp
  refine ⟨s, .of_run (mem := fun _ => .zero) (items := 8) (lim := 60) (image := [.zero]) (fun S h => ?_) (by decide +kernel) (by decide) (by decide)
    (fun k g h hk => ?_) ho hb hr, of_decide_eq_true hc, fun srt => ?_⟩
  · injection h with h
    rw [← h]; exact oneStretchy_ok
  · have : k = 0 := by have hk : k < 1 := hk; omega
    subst this; rfl
  · unfold compactifyWith
    cases e : dropHoles false s with
    | ub => rfl
    | exc x y => rw [e] at hp; cases hp
    | ok u t =>
      rw [e] at hp
      obtain ⟨p1, p2⟩ := of_decide_eq_true hp
      show closeGaps false srt (schOf (some oneStretchy)) t = .ub
      unfold closeGaps
      rw [if_neg p1, Option.isNone_iff_eq_none.1 p2]

/-- **C17 (refuted, debug builds).** Two fields in a tuple with two index slots, one of them erased: the compaction runs into the assertion
`dst > area_`, although the tuple is valid and the result would be right. -/
theorem C17_assertion_refuted {F : Fix} (hF : F = .code ∨ F = .repaired) : ∃ s, History F none s ∧ dropsFirstUnit s ∧
    ∀ srt, Sorter srt → ∃ t, compactifyWith false srt (schOf none) s = .ok () t ∧ Compacted (schOf none) s t := by
  have ho : ∀ op ∈ [setN 1 3, setN 2 4, eraseN 1], OpOk (schOf none) 0 op := opOk_of (by decide +kernel)
  have hb : RunBenign F (fresh 2 40) [setN 1 3, setN 2 4, eraseN 1] := runBenign_of (by rcases hF with rfl | rfl <;> decide +kernel)
  obtain ⟨s, hr, hp⟩ := run_decide (F := F) (s := fresh 2 40) (ops := [setN 1 3, setN 2 4, eraseN 1])
    (fun s => decide (s.jc ≠ 0 ∧ s.head + s.jc ≤ 1 ∧ s.pivot = 2 ∧
      (List.range 2).all (fun a => (cellGenus (s.mem a)).isInplaced || decide (a < s.head ∨ (s.mem a).lo ≠ 0)) = true))
    (by rcases hF with rfl | rfl <;> decide +kernel)
  obtain ⟨p1, p2, p3, p4⟩ := of_decide_eq_true hp
  have hH : History F none s := .of_run (mem := fun _ => .zero) (items := 2) (lim := 40) (image := []) (fun S h => (by cases h)) rfl
    (by decide) (by decide) (fun k g h => (by cases h)) ho hb hr
  have hn : NoNil s := by
    intro a ha hi
    have a1 := ha.1
    have a2 := ha.2.1
    have k := List.all_eq_true.1 p4 a (List.mem_range.2 (by omega))
    rw [hi, Bool.false_or, decide_eq_true_eq] at k
    rcases k with k | k
    · omega
    · exact k
  refine ⟨s, hH, ⟨p1, p2⟩, fun srt hs => ?_⟩
  obtain ⟨t, e, _, k⟩ := C17_compactify_partial hH hs (Or.inr hn) (Or.inr fun k g _ hk => by cases hk)
  exact ⟨t, e, k⟩

/-! ## Sorting -/

theorem copied_refl {σ : Sch} {s : RW} (h : WF σ s) : Copied σ s s id := by
  refine ⟨fun b hb => ⟨hb, rfl, Same.refl fun hf h0 => ?_⟩, fun a ha => ⟨a, ha, rfl⟩, fun _ _ _ _ k => k, rfl,
    fun k g hk hp => ⟨rfl, Same.refl fun hf h0 => ?_⟩, fun _ _ _ => rfl⟩
  · have hF : FieldAt σ s b (cellGenus (s.mem b)) := Or.inl ⟨hb, rfl⟩
    show 0 < fieldUnits s.mem (cellGenus (s.mem b)) b
    rw [← FieldAt.len hF]; exact h.pos _ _ ⟨hf, hF⟩ h0
  · have hF : FieldAt σ s (s.pivot + k) g := Or.inr ⟨by omega, by show _ < s.pivot + s.pre; omega, by rw [Nat.add_sub_cancel_left]; exact hk⟩
    rw [← FieldAt.len hF]; exact h.pos _ _ ⟨hf, hF⟩ h0

/-- The same fields, loose fields in any order: stored values; typed getters of preplaced fields, and of loose fields with a
single value. -/
structure SameUnordered (σ : Sch) (s t : RW) : Prop where
  stored : fieldsOf t = fieldsOf s
  loose : ∀ tag g, tag2genus tag ≠ .hole → g ≠ .varbin →
    (∀ a b, s.live a → s.live b → (s.mem a).hi = tag2gid tag → (s.mem b).hi = tag2gid tag → a = b) → getLoose t tag g = getLoose s tag g
  preStored : ∀ k g, σ k = some g → k < s.pre → valueAt g t.mem (t.pivot + k) = valueAt g s.mem (s.pivot + k)
  preFixed : ∀ tag g, FixedSlot σ s.pre tag g → getPreplacedFixed t tag g = getPreplacedFixed s tag g
  preStretchy : ∀ tag g, StretchySlot σ s.pre tag g → g ≠ .varbin → getPreplacedStretchy t tag g = getPreplacedStretchy s tag g

theorem SameUnordered.of_permuted {σ : Sch} {s t : RW} {f : Nat → Nat} (h : WF σ s) (p : Permuted σ s t f) : SameUnordered σ s t :=
  ⟨p.fields h.word, fun tag _ h1 h2 h3 => p.read h.word h1 h2 (p.lookup (by rw [gid_eq]; exact tag_not_hole h1) h3),
    fun k g hσ hk => (p.stretchy k g hσ hk).2.value (stretchy_not_hole (h.sch _ _ hσ)), fun _ _ h1 => p.readFixed h1,
    fun _ _ h1 h2 => p.readStretchy h.sch h1 h2⟩

/-- **C18 (sorting) with the vector sized right.** Sorting the index of any tuple any history produces keeps every field with its value
(among several values of one collection the order may change); the index is sorted by descending type and identifier;
sizes and junk stay; a result of `false` means an unchanged tuple; and if the index had no holes, the tuple stays valid for all
further modifications. -/
theorem C18_sort_repaired {F : Fix} {sch : Option Schema} {s : RW} {gsrt : List Cell → List Cell} (h : History F sch s) (hs : GidSorter gsrt) :
    ∃ b t, sortWith false gsrt s = .ok b t ∧ SameUnordered (schOf sch) s t ∧
      (∀ a c, t.head ≤ a → a < c → c < t.pivot → (t.mem c).hi ≤ (t.mem a).hi) ∧
      bruttoSize t = bruttoSize s ∧ looseCount t = looseCount s ∧ junkBytes t = junkBytes s ∧ (b = false → t = s) ∧
      (s.jc = 0 → Layout (schOf sch) t ∧ (F = .repaired → History F sch t)) := by
  obtain ⟨b, t, f, e, p, k1, k2, k3, k4, k5, k6, k7, k8, k9, k10⟩ := sort_spec hs h.made.wf h.made.pure
  refine ⟨b, t, e, .of_permuted h.made.wf p, k8, ?_, ?_, ?_, k9, fun hj => ⟨layout_of_wf (k10 hj).1, fun hF => ?_⟩⟩
  · unfold bruttoSize; rw [k1, k4]
  · unfold looseCount Serial.indexSize; rw [k1, k2, k6]
  · unfold junkBytes junkUnits; rw [k6, k7]
  · exact ⟨h.schema, h.made.sort hF hj hs e, k3.trans h.pre⟩

/-- **C18 (`optimize`) with both defects repaired**: with any flags, on any tuple any history of the repaired code produces. -/
theorem C18_optimize_repaired {sch : Option Schema} {s : RW} {srt : List Item → List Item} {gsrt : List Cell → List Cell}
    (h : History .repaired sch s) (hs : Sorter srt) (hg : GidSorter gsrt) (fl : Compact.Flags) :
    ∃ b t, optimizeWith true false srt gsrt (schOf sch) fl s = .ok b t ∧ SameUnordered (schOf sch) s t ∧
      (fl.compactify = true → t.jc = 0 ∧ t.jv = 0 ∧ History .repaired sch t) ∧
      (fl.enforceSort = true → ∀ a c, t.head ≤ a → a < c → c < t.pivot → (t.mem c).hi ≤ (t.mem a).hi) := by
  have wf := h.made.wf
  have first : ∃ b t f, (if fl.compactify ∧ (s.jc ≠ 0 ∨ s.jv ≠ 0) then
      (compactifyWith true srt (schOf sch) s).bind fun _ t => .ok (decide (s.jc > 0)) t
      else .ok false s : Out Bool) = .ok b t ∧ Permuted (schOf sch) s t f ∧ History .repaired sch t ∧
      (fl.compactify = true → t.jc = 0 ∧ t.jv = 0) := by
    by_cases c : fl.compactify = true ∧ (s.jc ≠ 0 ∨ s.jv ≠ 0)
    · obtain ⟨t, f, e, cp, wt, hp, k1, k2, k3, k4, k5, k6, k7⟩ := compactify_spec (guard := true) hs wf (Or.inl rfl) (Or.inl rfl)
      exact ⟨_, t, f, by rw [if_pos c, e]; rfl, cp.permuted, h.compactify hs e, fun _ => ⟨k6, k7⟩⟩
    · refine ⟨false, s, id, by rw [if_neg c], (copied_refl wf).permuted, h, fun k => ?_⟩
      constructor <;> by_contra k' <;> exact c ⟨k, by tauto⟩
  obtain ⟨b, t, f, e, p, hh, hj⟩ := first
  unfold optimizeWith
  rw [e]
  simp only [Out.bind]
  by_cases c : (fl.sortIndex = true ∧ t.pivot - t.head - t.jc ≥ 256) ∨ fl.enforceSort = true
  · rw [if_pos c]
    obtain ⟨b', u, f', e', p', k1, k2, k3, k4, k5, k6, k7, k8, k9, k10⟩ := sort_spec hg hh.made.wf hh.made.pure
    rw [e']
    refine ⟨_, u, rfl, .of_permuted wf (p.trans p'), fun hc => ?_, fun _ => k8⟩
    obtain ⟨j1, j2⟩ := hj hc
    exact ⟨k6.trans j1, k7.trans j2, hh.schema, hh.made.sort rfl j1 hg e', k3.trans hh.pre⟩
  · rw [if_neg c]
    refine ⟨b, t, rfl, .of_permuted wf p, fun hc => ⟨(hj hc).1, (hj hc).2, hh⟩, fun k => ?_⟩
    exact absurd (Or.inr k) c

/-- **C18 (sorting, partial).** The code as it is leaves a tuple alone whose index is already sorted. Missing: everything else. -/
theorem C18_sort_partial {s : RW} {gsrt : List Cell → List Cell} (h : ∀ a, s.head ≤ a → a + 1 < s.pivot → (s.mem (a + 1)).hi ≤ (s.mem a).hi) :
    sortWith true gsrt s = .ok false s := by
  unfold sortWith
  rw [if_pos]
  unfold indexSorted
  rw [List.all_eq_true]
  intro i hi
  rw [List.mem_range] at hi
  rw [decide_eq_true_eq]
  exact h _ (by omega) (by omega)

/-- **C18 (refuted).** In every other case, if the code as it is completes sorting, then it has overwritten as many units after the
index as the index has entries with zeros: preplaced fields and payloads. -/
theorem C18_overwrites_refuted {s t : RW} {b : Bool} {gsrt : List Cell → List Cell} (hs : GidSorter gsrt)
    (hu : ∃ a, s.head ≤ a ∧ a + 1 < s.pivot ∧ (s.mem a).hi < (s.mem (a + 1)).hi)
    (hpos : ∀ a, s.head ≤ a → a < s.pivot → (s.mem a).hi ≠ 0) (e : sortWith true gsrt s = .ok b t) :
    ∀ i, i < s.pivot - s.head → t.mem (s.pivot + i) = ⟨0, 0⟩ := by
  refine sort_destroys hs ?_ hpos e
  obtain ⟨a, h1, h2, h3⟩ := hu
  unfold indexSorted
  rw [List.all_eq_false]
  refine ⟨a - s.head, List.mem_range.2 (by omega), ?_⟩
  rw [decide_eq_true_eq, show s.head + (a - s.head) = a by omega]
  omega

/-- A concrete `std::sort`. -/
def gidSort : List Cell → List Cell := List.insertionSort fun a b => b.hi ≤ a.hi

theorem gidSort_ok : GidSorter gidSort := fun l =>
  ⟨List.perm_insertionSort _ l, by
    haveI : Std.Total (fun a b : Cell => b.hi ≤ a.hi) := ⟨fun a b => Nat.le_total _ _⟩
    haveI : IsTrans Cell (fun a b : Cell => b.hi ≤ a.hi) := ⟨fun a b c h1 h2 => Nat.le_trans h2 h1⟩
    exact List.pairwise_insertionSort _ l⟩

/-- Two numbers, the one with the larger identifier inserted first. -/
def sortOps : List Op := [setF .u32 2 5, setF .u32 1 9]

/-- **C18 (refuted).** Two fields: after `optimize` with forced sorting both values are lost. With the vector sized right they are kept. -/
theorem C18_sort_refuted {F : Fix} (hF : F = .code ∨ F = .repaired) : ∃ s t u, History F none s ∧
    optimizeWith false true id gidSort (schOf none) ⟨false, false, true⟩ s = .ok true t ∧
    optimizeWith false false id gidSort (schOf none) ⟨false, false, true⟩ s = .ok true u ∧
    getLoose s (fix .u32 1) .u32 = .ok (some (unitsVal 1 9)) ∧ getLoose s (fix .u32 2) .u32 = .ok (some (unitsVal 1 5)) ∧
    getLoose t (fix .u32 1) .u32 = .ok (some (.units [⟨0, 0⟩])) ∧ getLoose t (fix .u32 2) .u32 = .ok (some (.units [⟨0, 0⟩])) ∧
    getLoose u (fix .u32 1) .u32 = .ok (some (unitsVal 1 9)) ∧ getLoose u (fix .u32 2) .u32 = .ok (some (unitsVal 1 5)) := by
  have ho : ∀ op ∈ sortOps, OpOk (schOf none) 0 op := opOk_of (by decide +kernel)
  have hb : RunBenign F (fresh 2 40) sortOps := runBenign_of (by rcases hF with rfl | rfl <;> decide +kernel)
  obtain ⟨s, hr, hp⟩ := run_decide (F := F) (s := fresh 2 40) (ops := sortOps)
    (fun s => match optimizeWith false true id gidSort (schOf none) ⟨false, false, true⟩ s,
        optimizeWith false false id gidSort (schOf none) ⟨false, false, true⟩ s with
      | .ok true t, .ok true u => decide (
        getLoose s (fix .u32 1) .u32 = .ok (some (unitsVal 1 9)) ∧ getLoose s (fix .u32 2) .u32 = .ok (some (unitsVal 1 5)) ∧
        getLoose t (fix .u32 1) .u32 = .ok (some (.units [⟨0, 0⟩])) ∧ getLoose t (fix .u32 2) .u32 = .ok (some (.units [⟨0, 0⟩])) ∧
        getLoose u (fix .u32 1) .u32 = .ok (some (unitsVal 1 9)) ∧ getLoose u (fix .u32 2) .u32 = .ok (some (unitsVal 1 5)))
      | _, _ => false) (by rcases hF with rfl | rfl <;> decide +kernel)
  have hH : History F none s := .of_run (mem := fun _ => .zero) (items := 2) (lim := 40) (image := []) (fun S h => (by cases h)) rfl
    (by decide) (by decide) (fun k g h => (by cases h)) ho hb hr
  split at hp
  · rename_i t u h1 h2
    exact ⟨s, t, u, hH, h1, h2, of_decide_eq_true hp⟩
  · cases hp

end Fptu.Props
