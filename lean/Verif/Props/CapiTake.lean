import Verif.Model.CapiTake
import Verif.Props.Grow
/-!
# Property C76: room, defragmentation and the serialized form in the C API
-/
namespace Fptu.Props
open Fptu Fptu.Gear Fptu.Rw Fptu.Audit Fptu.Serial Fptu.Compact Fptu.CapiTake

/-- What the documentation of `fptu_junkspace` promises of a defragmentation from `s` to `t`: nothing is left to gain, and the junk became
room for fields and data. -/
structure Gained (s t : RW) : Prop where
  none : junkspace t = 0
  room : 4 * space4items t + space4data t = 4 * space4items s + space4data s + junkspace s
  items : space4items s ≤ space4items t
  data : space4data s ≤ space4data t

private theorem gained_of {σ : Sch} {s t : RW} (h : Compacted σ s t) : Gained s t := by
  have h1 : t.head = s.head + s.jc := h.head
  have h2 : t.lim - t.tail = s.lim - s.tail + s.jv := h.tail
  obtain ⟨h3, h4⟩ := h.noJunk
  have e1 : ∀ u : RW, space4data u = 4 * (u.lim - u.tail) := fun u => by
    unfold space4data tailSpaceBytes tailSpaceUnits units2bytes; rw [Nat.shiftLeft_eq]; omega
  have e2 : ∀ u : RW, junkspace u = 4 * (u.jv + u.jc) := fun u => by
    unfold junkspace junkBytes junkUnits units2bytes; rw [Nat.shiftLeft_eq]; omega
  have e3 : ∀ u : RW, space4items u = u.head := fun _ => rfl
  constructor
  · rw [e2, h3, h4]
  · rw [e1, e1, e2, e3, e3, h1, h2]; omega
  · rw [e3, e3]; omega
  · rw [e1, e1]; omega

private theorem plain_shrink {s t : RW} {b guard presized : Bool} {srt : List Item → List Item} {gsrt : List Cell → List Cell}
    (e : optimizeWith guard presized srt gsrt (fun _ => none) ⟨true, false, false⟩ s = .ok b t) (hn : t.pivot - t.head - t.jc < 256) :
    shrinkWith guard presized srt gsrt s = .ok b t := by
  unfold shrinkWith
  have e' : optimizeWith guard presized srt gsrt (fun _ => none) ⟨true, true, false⟩ s = .ok b t := by
    unfold optimizeWith at e ⊢
    revert e
    generalize (if (⟨true, false, false⟩ : Compact.Flags).compactify = true ∧ (s.jc ≠ 0 ∨ s.jv ≠ 0) then _ else _ : Out Bool) = r
    intro e
    cases r with
    | ub => cases e
    | exc x u => cases e
    | ok c u =>
      simp only [Out.bind] at e ⊢
      rw [if_neg (by simp)] at e
      injection e with e1 e2
      subst e1; subst e2
      rw [if_neg]
      simp only [true_and, Bool.false_eq_true, or_false]
      omega
  rw [e']

private theorem junk_zero {F : Fix} {s : RW} (h : History F none s) (hj : s.jc = 0) : s.jv = 0 := by
  have L := layout_of_wf h.made.wf
  rw [L.volume]
  have c := L.count
  rw [hj] at c
  rw [Finset.card_eq_zero.1 c.symm]
  rfl

/-- **C76 (`fptu_shrink`, partial).** For every tuple with less than 256 fields and, if there are holes, without null values of stretchy types:
all fields are kept in their order, the reported junk becomes room, and true is answered exactly if the index had holes; otherwise the tuple
is unchanged. Missing: tuples with 256 or more fields (`C76_many_refuted`) and nulls (`C76_null_refuted`). -/
theorem C76_shrink_partial {F : Fix} {s : RW} {srt : List Item → List Item} {gsrt : List Cell → List Cell} (h : History F none s) (hs : Sorter srt)
    (hn : looseCount s < 256) (h1 : s.jc = 0 ∨ NoNil s) :
    ∃ t, shrink srt gsrt s = .ok (decide (0 < s.jc)) t ∧ History F none t ∧ Compacted (schOf none) s t ∧ Gained s t ∧ (s.jc = 0 → t = s) := by
  obtain ⟨t, e, k1, k2, k3⟩ := C17_optimize_partial (gsrt := gsrt) h hs h1 (Or.inr (fun k g _ hk => (by cases hk)))
  have hc : looseCount t = looseCount s := by
    rw [(C40_account k1.made).1, (C40_account h.made).1, k2.same.stored]
  exact ⟨t, plain_shrink e (by rw [← hc] at hn; exact hn), k1, k2, gained_of k2, k3⟩

/-- **C76 (`fptu_shrink`) with the defects of `optimize` repaired**: for every tuple of the repaired code, whatever its size. -/
theorem C76_shrink_repaired {s : RW} {srt : List Item → List Item} {gsrt : List Cell → List Cell} (h : History .repaired none s) (hs : Sorter srt)
    (hg : GidSorter gsrt) : ∃ b t, shrinkWith true false srt gsrt s = .ok b t ∧ SameUnordered (schOf none) s t ∧ junkspace t = 0 ∧
      History .repaired none t := by
  obtain ⟨b, t, e, k1, k2, _⟩ := C18_optimize_repaired h hs hg ⟨true, true, false⟩
  obtain ⟨j1, j2, k⟩ := k2 rfl
  refine ⟨b, t, ?_, k1, ?_, k⟩
  · unfold shrinkWith
    rw [show optimizeWith true false srt gsrt (fun _ => none) ⟨true, true, false⟩ s = .ok b t from e]
  · unfold junkspace junkBytes junkUnits
    rw [j1, j2]
    rfl

/-- **C76 (`fptu_cond_shrink`, partial).** Like `fptu_shrink`, and with the same answer. -/
theorem C76_cond_shrink_partial {F : Fix} {s : RW} {srt : List Item → List Item} {gsrt : List Cell → List Cell} (h : History F none s) (hs : Sorter srt)
    (hn : looseCount s < 256) (h1 : s.jc = 0 ∨ NoNil s) : condShrink srt gsrt s = shrink srt gsrt s := by
  unfold condShrink
  by_cases c : junkspace s > 0
  · rw [if_pos c]
  · rw [if_neg c]
    have hj : s.jc = 0 := by
      unfold junkspace junkBytes junkUnits units2bytes at c
      rw [Nat.shiftLeft_eq] at c
      omega
    obtain ⟨t, e, _, _, _, k⟩ := C76_shrink_partial (gsrt := gsrt) h hs hn h1
    rw [e, k hj, hj]
    rfl

/-- **C76 (`fptu_check_ro_ex`).** For every buffer: the assertion on the volume of the holes never fails, and the check that does not allow
holes accepts exactly the buffers which the other check accepts and whose index has no hole. -/
theorem C76_check {m : Memory} {bytes : Nat} (hw : ∀ a, (m a).hi < 65536) :
    checkRoEx (m, bytes) true = (checkRoEx (m, bytes) false).map fun b =>
      b && decide (∀ a < 1 + (m 0).hi / 8, 1 ≤ a → (m a).hi / 2048 ≠ 31) := by
  unfold checkRoEx
  dsimp only
  cases e : auditRo none m bytes with
  | bug r => rfl
  | fail msg r => rfl
  | pass st =>
    obtain ⟨_, ⟨tail', _, hl, _⟩, _⟩ := C07_layout_partial (sch := none) (fun S h => (by cases h)) hw e
    have hc : st.hc = ((Finset.Ico 1 (1 + (m 0).hi / 8)).filter fun a => (m a).hi / 2048 = 31).card := hl.count
    have hv : st.hv = ∑ a ∈ (Finset.Ico 1 (1 + (m 0).hi / 8)).filter (fun a => (m a).hi / 2048 = 31), (m a).hi % 2048 := hl.volume
    simp only [if_true, Bool.false_eq_true, if_false, Option.map_some, Bool.true_and]
    by_cases c : st.hc = 0
    · rw [if_neg (not_not.2 c)]
      rw [c] at hc
      have hemp := Finset.card_eq_zero.1 hc.symm
      rw [hemp] at hv
      rw [if_pos (by simpa using hv)]
      congr 1
      symm
      refine decide_eq_true fun a h1 h2 h3 => ?_
      have : a ∈ (Finset.Ico 1 (1 + (m 0).hi / 8)).filter fun a => (m a).hi / 2048 = 31 :=
        Finset.mem_filter.2 ⟨Finset.mem_Ico.2 ⟨h2, h1⟩, h3⟩
      rw [hemp] at this
      cases this
    · rw [if_pos c]
      congr 1
      symm
      refine decide_eq_false fun h => c ?_
      rw [hc, Finset.card_eq_zero, Finset.filter_eq_empty_iff]
      intro a ha
      exact h a (Finset.mem_Ico.1 ha).2 (Finset.mem_Ico.1 ha).1

/-- A serialized tuple of three units: a hole without payload and a 16-bit field. -/
def holedMem : Memory := fun a => if a = 0 then ⟨3, 16⟩ else if a = 1 then ⟨0, 63488⟩ else if a = 2 then ⟨700, Genus.code .u16 * 2048 + 6⟩ else .zero

/-- `C76_check` applies: the first check accepts the tuple, the second one does not. -/
example : (∀ a, (holedMem a).hi < 65536) ∧ checkRoEx (holedMem, 12) false = some true ∧ checkRoEx (holedMem, 12) true = some false := by
  refine ⟨fun a => ?_, by decide +kernel, by decide +kernel⟩
  unfold holedMem
  split_ifs <;> decide

/-- **C76 (`fptu_take_noshrink`, partial).** The serialized form inside the mutable one passes `fptu_check_ro`, and the check that does
not allow holes exactly if nothing is to gain; it has the same fields. Missing: the largest tuple (`C19_too_large_refuted`), more than 8191
entries. -/
theorem C76_take_noshrink_partial {F : Fix} {s : RW} (h : History F none s) (hmax : s.pivot - s.head ≤ 8191) (hsize : s.tail - s.head + 1 ≤ 65534) :
    checkRoEx (takeNoshrink s) false = some true ∧ checkRoEx (takeNoshrink s) true = some (decide (junkspace s = 0)) ∧
    (takeNoshrink s).2 = bruttoSize s ∧ SameFields (schOf none) s (serialized none s) := by
  obtain ⟨⟨st, e, h1, h2⟩, k1, k2⟩ := C19_serialized_partial h (by show s.pivot - s.head + 0 ≤ 8191; omega) hsize
  have e' : auditRo none (takeNoshrink s).1 (takeNoshrink s).2 = .pass st := by
    unfold takeNoshrink
    rw [k1]
    exact e
  unfold checkRoEx
  rw [e']
  refine ⟨rfl, ?_, ?_, k2⟩
  · show (if st.hc ≠ 0 then some false else if st.hv = 0 then some true else none) = _
    have ej : junkspace s = 4 * (s.jv + s.jc) := by
      unfold junkspace junkBytes junkUnits units2bytes; rw [Nat.shiftLeft_eq]; omega
    by_cases c : s.jc = 0
    · rw [h1, if_neg (not_not.2 c), h2, if_pos (junk_zero h c), ej, c, junk_zero h c]
      rfl
    · rw [h1, if_pos c, ej, decide_eq_false (by omega)]
  · unfold takeNoshrink bruttoSize units2bytes
    rw [k1, Nat.shiftLeft_eq]
    omega

/-- **C76 (`fptu_take`, partial).** The result passes the check that does not allow holes and has the same fields in the same order.
Missing as for `C76_shrink_partial`. -/
theorem C76_take_partial {F : Fix} {s : RW} {srt : List Item → List Item} {gsrt : List Cell → List Cell} (h : History F none s) (hs : Sorter srt)
    (hn : looseCount s < 256) (h1 : s.jc = 0 ∨ NoNil s) (hsize : s.tail - s.head + 1 ≤ 65534) :
    ∃ t ro, take srt gsrt s = .ok ro t ∧ ro = takeNoshrink t ∧ checkRoEx ro true = some true ∧ ro.2 + junkspace s = bruttoSize s ∧
      History F none t ∧ SameFields (schOf none) s (serialized none t) := by
  obtain ⟨t, e, k1, k2, k3, _⟩ := C76_shrink_partial (gsrt := gsrt) h hs hn h1
  have hc : looseCount t = looseCount s := by
    rw [(C40_account k1.made).1, (C40_account h.made).1, k2.same.stored]
  have hsz := k2.size
  have hj : t.jc = 0 := k2.noJunk.1
  have hpre : t.pre = s.pre := k1.pre.trans h.pre.symm
  obtain ⟨l1, l2, l3, l4⟩ := C76_take_noshrink_partial k1 (by unfold looseCount Serial.indexSize at hc hn; omega) (by
    unfold bruttoSize units2bytes at hsz
    rw [Nat.shiftLeft_eq, Nat.shiftLeft_eq] at hsz
    omega)
  refine ⟨t, _, ?_, rfl, ?_, ?_, k1, k2.same.trans l4 hpre⟩
  · unfold take
    rw [C76_cond_shrink_partial h hs hn h1, e]
    rfl
  · rw [l2, k3.none]
    rfl
  · rw [l3]
    exact hsz

/-- A tuple with a hole meets the hypotheses: `fptu_shrink` answers true and gains its junk. -/
example : ∃ s t, History .code none s ∧ looseCount s = 4 ∧ NoNil s ∧ 4 ≤ junkspace s ∧ shrink itemSort gidSort s = .ok true t ∧ Gained s t := by
  obtain ⟨s, h, h1, h2, h3, _⟩ := good_noNil
  have hc : looseCount s = 4 := by rw [← h2]; exact (C40_account h.made).1.trans (by unfold fieldsOf; rw [Multiset.card_map]; rfl)
  obtain ⟨t, e, _, _, k, _⟩ := C76_shrink_partial (gsrt := gidSort) h itemSort_ok (by omega) (Or.inr h3)
  refine ⟨s, t, h, hc, h3, ?_, ?_, k⟩
  · unfold junkspace junkBytes junkUnits units2bytes; rw [Nat.shiftLeft_eq]; omega
  · rw [e, h1]; rfl

/-- **C76 (`fptu_shrink`) is false for nulls**: the defragmentation of a tuple with a null of a stretchy type and a hole is undefined. -/
theorem C76_null_refuted {F : Fix} (hF : F = .code ∨ F = .repaired) : ∃ s, History F none s ∧ 0 < junkspace s ∧
    ∀ srt gsrt, shrink srt gsrt s = .ub ∧ take srt gsrt s = .ub := by
  obtain ⟨s, h, _, hu⟩ := C17_null_refuted hF
  have hj : s.jc ≠ 0 := by
    intro c
    have := hu id
    unfold compactifyWith dropHoles at this
    rw [if_pos c] at this
    have e : closeGaps false id (schOf none) s = .ub := this
    unfold closeGaps at e
    rw [if_pos (junk_zero h c)] at e
    cases e
  have hp : 0 < junkspace s := by
    unfold junkspace junkBytes junkUnits units2bytes; rw [Nat.shiftLeft_eq]; omega
  have key : ∀ srt gsrt, shrink srt gsrt s = .ub := by
    intro srt gsrt
    unfold shrink shrinkWith optimizeWith
    rw [if_pos ⟨rfl, Or.inl hj⟩, show compactifyWith false srt (fun _ => none) s = .ub from hu srt]
    rfl
  refine ⟨s, h, hp, fun srt gsrt => ⟨key srt gsrt, ?_⟩⟩
  unfold take condShrink
  rw [if_pos hp, key]
  rfl

/-- 255 values of one collection, a number, and a value of another collection. -/
def insW (id k : Nat) : Op := .insert (makeTag .u16 id true true false) .u16 (.inline k)
def manyOps : List Op := List.replicate 255 (insW 2 3) ++ [setF .u32 1 9, insW 1 3]

def lost (s : RW) : Bool := match shrink id gidSort s with
  | .ok true t => decide (getLoose t (fix .u32 1) .u32 = .ok (some (.units [⟨0, 0⟩])))
  | _ => false

set_option maxRecDepth 100000 in
/-- **C76 (`fptu_shrink`) is false for many fields**: in a tuple with 257 fields and no junk at all `fptu_shrink` loses the value of a number, which
becomes zero. -/
theorem C76_many_refuted : ∃ s t, History .code none s ∧ looseCount s = 257 ∧ junkspace s = 0 ∧
    getLoose s (fix .u32 1) .u32 = .ok (some (unitsVal 1 9)) ∧ shrink id gidSort s = .ok true t ∧
    getLoose t (fix .u32 1) .u32 = .ok (some (.units [⟨0, 0⟩])) := by
  have ho : ∀ op ∈ manyOps, OpOk (schOf none) 0 op := opOk_of (by decide +kernel)
  have hb : RunBenign .code (fresh 257 700) manyOps := runBenign_of (by decide +kernel)
  obtain ⟨s, hr, hp⟩ := run_decide (F := .code) (s := fresh 257 700) (ops := manyOps)
    (fun s => decide (looseCount s = 257 ∧ junkspace s = 0 ∧ getLoose s (fix .u32 1) .u32 = .ok (some (unitsVal 1 9))) && lost s) (by decide +kernel)
  have hH : History .code none s := .of_run (mem := fun _ => .zero) (items := 257) (lim := 700) (image := []) (fun S h => (by cases h)) rfl
    (by decide) (by decide) (fun k g h => (by cases h)) ho hb hr
  rw [Bool.and_eq_true] at hp
  obtain ⟨p1, p2⟩ := hp
  obtain ⟨p3, p4, p5⟩ := of_decide_eq_true p1
  unfold lost at p2
  split at p2
  · rename_i t ht
    exact ⟨s, t, hH, p3, p4, p5, ht, of_decide_eq_true p2⟩
  · cases p2

end Fptu.Props
