import Verif.Lemmas.CompactData
import Verif.Lemmas.TupleMove
import Verif.Model.Serial
/-!
# Serialized form: header, copy; compaction without the missing checks
-/
namespace Fptu.Serial
open Fptu.Gear Fptu.Rw Fptu.Audit

theorem takeAsis_header {sch : Option Schema} {s : RW} (h1 : s.tail - s.head + 1 ≤ 65534) (h2 : s.pivot - s.head ≤ 8191) :
    (takeAsis sch s 0).lo = s.tail - s.head + 1 ∧ (takeAsis sch s 0).hi / 8 = s.pivot - s.head ∧
    Nested.isSorted (takeAsis sch s 0) = false ∧ Nested.havePreplaced (takeAsis sch s 0) = decide (preBytesOf sch ≠ 0) := by
  unfold takeAsis
  rw [if_pos rfl]
  unfold Nested.header Nested.isSorted Nested.havePreplaced preplacedFlag
  refine ⟨?_, ?_, ?_, ?_⟩
  · show (s.tail - s.head + 1) % 65536 = _
    omega
  · show ((s.pivot - s.head) * 8 + _) % 65536 / 8 = _
    split_ifs <;> omega
  · show (((s.pivot - s.head) * 8 + (if preBytesOf sch > 0 then 2 else 0)) % 65536 % 2 == 1) = false
    rw [beq_eq_false_iff_ne]
    split_ifs <;> omega
  · show (((s.pivot - s.head) * 8 + (if preBytesOf sch > 0 then 2 else 0)) % 65536 / 2 % 2 == 1) = _
    by_cases c : preBytesOf sch > 0
    · rw [if_pos c, decide_eq_true (by omega), beq_iff_eq]; omega
    · rw [if_neg c, decide_eq_false (by omega), beq_eq_false_iff_ne]; omega

/-- A tuple re-created from the serialized form is the original at another place, unless it does not fit. -/
theorem recreate_moved {sch : Option Schema} {s t : RW} {σ : Sch} (wf : WF σ s) (hpu : s.pre = bytes2units (preBytesOf sch))
    (hmax : s.pivot - s.head ≤ 8191) (hsize : s.tail - s.head + 1 ≤ 65534)
    {overhead more moreData extra : Nat} {mem : Memory}
    (e : createFromRo overhead mem s.jc s.jv (takeAsis sch s) more moreData (preBytesOf sch) extra = .ok t) (hroom : t.tail ≤ t.lim) :
    Moved s t := by
  obtain ⟨k1, k2, k3, k4⟩ := takeAsis_header (sch := sch) hsize hmax
  have hb := wf.inv.bt
  have hhp := wf.inv.hp
  have hbase : s.base = s.pivot + s.pre := rfl
  have hjc := wf.inv.jc_le
  have hvl := wf.inv.vol_le (p := 0) (n := 0) (fun u => by unfold ind; rw [if_neg (by omega)])
  have hl16 := wf.inv.lt16
  have htl := wf.inv.tl
  have hll := wf.inv.ll
  set ro := takeAsis sch s with hro
  have hidx : Nested.indexSize (ro 0) = s.pivot - s.head := k2
  have hpay : (ro 0).lo - 1 - Nested.indexSize (ro 0) = s.tail - s.pivot := by rw [k1, hidx]; omega
  unfold createFromRo at e
  cases e1 : estimateRo overhead (ro 0) more moreData (preBytesOf sch) with
  | error x => rw [e1] at e; cases e
  | ok size =>
    rw [e1] at e
    have e : constructRo overhead mem s.jc s.jv ro (size + extra) more (preBytesOf sch) = .ok t := e
    unfold constructRo at e
    by_cases c1 : more > Audit.maxFields
    · rw [if_pos c1] at e; cases e
    rw [if_neg c1] at e
    by_cases c2 : size + extra > bufLimit
    · rw [if_pos c2] at e; cases e
    rw [if_neg c2] at e
    simp only at e
    rw [hpay, hidx] at e
    set R := min Audit.maxFields (s.pivot - s.head + more) with hR
    have hRge : s.pivot - s.head ≤ R := by
      have : Audit.maxFields = 8191 := rfl
      omega
    cases e2 : estimate overhead R (4 * (s.tail - s.pivot)) (preBytesOf sch) true with
    | error x => rw [e2] at e; cases e
    | ok needed =>
      rw [e2] at e
      have e : (if size + extra < needed then _ else _) = Except.ok t := e
      by_cases c3 : size + extra < needed
      · rw [if_pos c3] at e; cases e
      rw [if_neg c3] at e
      injection e with e
      have hn : (ro 0).lo - 1 = s.tail - s.head := by rw [k1]; omega
      rw [hn] at e
      have t1 : t.head = R - (s.pivot - s.head) := by rw [← e]
      have t2 : t.pivot = R := by rw [← e]
      have t3 : t.tail = R + (s.tail - s.pivot) := by rw [← e]
      refine ⟨?_, ?_, ?_, fun i hi => ?_, ?_, ?_, hroom, ?_⟩
      · rw [t1, t2]; omega
      · rw [← e]; exact hpu.symm
      · rw [t1, t3]; omega
      · rw [t1]
        rw [← e]
        show (mem.writeCells (R - (s.pivot - s.head)) (ro.readCells 1 (s.tail - s.head))) (R - (s.pivot - s.head) + i) = _
        rw [Memory.writeCells_apply, Memory.length_readCells, if_pos (by omega), Nat.add_sub_cancel_left]
        have e : (ro.readCells 1 (s.tail - s.head)).getD i .zero = ro (1 + i) := by
          simp [Memory.readCells, List.getD, hi]
        rw [e, hro]
        unfold takeAsis
        rw [if_neg (by omega), show 1 + i - 1 = i by omega]
      · rw [← e]; show s.jc % 65536 = s.jc; omega
      · rw [← e]; show s.jv % 65536 = s.jv; omega
      · rw [← e]; show min 65534 _ ≤ 65534; omega

end Fptu.Serial

namespace Fptu.Compact
open Fptu.Gear Fptu.Rw

theorem squeeze_guard {head n : Nat} {m : Memory} {d : Nat} {r : Memory × Nat} (h : squeeze false head n m d = some r) :
    squeeze true head n m d = some r := by
  induction n generalizing m d with
  | zero => exact h
  | succ n ih =>
    rw [squeeze] at h ⊢
    simp only at h ⊢
    by_cases c1 : Cell.isHole (m (head + n))
    · rw [if_pos c1] at h ⊢; exact ih h
    rw [if_neg c1] at h ⊢
    by_cases c2 : head + n = d - 1
    · rw [if_pos c2] at h ⊢; exact ih h
    rw [if_neg c2] at h ⊢
    by_cases c3 : (cellGenus (m (head + n))).isInplaced = true
    · rw [if_pos c3] at h ⊢; exact ih h
    rw [if_neg c3] at h ⊢
    rw [if_neg (by simp)] at h
    by_cases c5 : (m (head + n)).lo ≤ d - 1 - (head + n)
    · rw [if_pos c5] at h; cases h
    rw [if_neg c5] at h
    rw [if_neg (fun k => by omega), if_neg c5]
    exact ih h

theorem preItems_guard {σ : Sch} {m : Memory} {pivot n : Nat} {r : List Item} (h : preItems false σ m pivot n = some r) :
    preItems true σ m pivot n = some r := by
  induction n generalizing r with
  | zero => exact h
  | succ n ih =>
    rw [preItems] at h ⊢
    cases hs : σ n with
    | none => rw [hs] at h; exact ih h
    | some g =>
      rw [hs] at h
      simp only at h ⊢
      by_cases c : (m (pivot + n)).lo = 0
      · rw [if_pos c] at h; cases h
      · rw [if_neg c] at h ⊢
        obtain ⟨a, ha, hr⟩ := Option.map_eq_some_iff.1 h
        rw [ih ha, ← hr]
        rfl

/-- Where the code does not run into undefined behaviour, the missing checks make no difference. -/
theorem compactify_guard {srt : List Item → List Item} {σ : Sch} {s t : RW} {u : Unit} (h : compactifyWith false srt σ s = .ok u t) :
    compactifyWith true srt σ s = .ok u t := by
  have h1 : ∀ {s t : RW} {u : Unit}, dropHoles false s = .ok u t → dropHoles true s = .ok u t := by
    intro s t u h
    unfold dropHoles at h ⊢
    by_cases c : s.jc = 0
    · rw [if_pos c] at h ⊢; exact h
    rw [if_neg c] at h ⊢
    cases e : squeeze false s.head (s.pivot - s.head) s.mem s.pivot with
    | none => rw [e] at h; cases h
    | some r => rw [e] at h; rw [squeeze_guard e]; exact h
  have h2 : ∀ {s t : RW} {u : Unit}, closeGaps false srt σ s = .ok u t → closeGaps true srt σ s = .ok u t := by
    intro s t u h
    unfold closeGaps at h ⊢
    by_cases c : s.jv = 0
    · rw [if_pos c] at h ⊢; exact h
    rw [if_neg c] at h ⊢
    cases e : preItems false σ s.mem s.pivot s.pre with
    | none => rw [e] at h; cases h
    | some r => rw [e] at h; rw [preItems_guard e]; exact h
  unfold compactifyWith at h ⊢
  cases e : dropHoles false s with
  | ub => rw [e] at h; cases h
  | exc x y => rw [e] at h; cases h
  | ok v w =>
    rw [e] at h
    rw [h1 e]
    exact h2 h

/-- What a successful compaction does, with or without the missing checks. -/
theorem compactify_ok {guard : Bool} {srt : List Item → List Item} (hsrt : Sorter srt) {σ : Sch} {s t : RW} {u : Unit} (h : WF σ s)
    (e : compactifyWith guard srt σ s = .ok u t) : (∃ f, Copied σ s t f) ∧ WF σ t ∧ Pure t ∧ t.head = s.head + s.jc ∧ t.pivot = s.pivot ∧
      t.pre = s.pre ∧ t.tail = s.tail - s.jv ∧ t.lim = s.lim ∧ t.jc = 0 ∧ t.jv = 0 := by
  obtain ⟨t', f, e', k⟩ := compactify_spec (guard := true) hsrt h (Or.inl rfl) (Or.inl rfl)
  have e2 : compactifyWith true srt σ s = .ok u t := by
    cases guard with
    | true => exact e
    | false => exact compactify_guard e
  rw [e'] at e2
  injection e2 with _ e2
  subst e2
  exact ⟨⟨f, k.1⟩, k.2⟩

end Fptu.Compact
