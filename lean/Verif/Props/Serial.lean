import Verif.Lemmas.TupleMove
import Verif.Lemmas.TupleSum
import Verif.Model.Serial
import Verif.Props.AuditComplete
/-!
# C19, C40, C41: serialized form, size queries, creation
-/
namespace Fptu.Props
open Fptu Fptu.Gear Fptu.Rw Fptu.Audit Fptu.Serial

/-- Both tuples hold the same fields: the same stored values, for loose fields in the same order, and every typed getter returns the same. (Getters of binary
blobs are covered through the stored values only: they read up to four bytes past the value, see C05.) -/
structure SameFields (σ : Sch) (s t : RW) : Prop where
  stored : fieldsOf t = fieldsOf s
  order : entriesOf t = entriesOf s
  loose : ∀ tag g, tag2genus tag ≠ .hole → g ≠ .varbin → getLoose t tag g = getLoose s tag g
  preStored : ∀ k g, σ k = some g → k < s.pre → valueAt g t.mem (t.pivot + k) = valueAt g s.mem (s.pivot + k)
  preFixed : ∀ tag g, FixedSlot σ s.pre tag g → getPreplacedFixed t tag g = getPreplacedFixed s tag g
  preStretchy : ∀ tag g, StretchySlot σ s.pre tag g → g ≠ .varbin → getPreplacedStretchy t tag g = getPreplacedStretchy s tag g

theorem SameFields.of_copied {σ : Sch} {s t : RW} {f : Nat → Nat} (h : WF σ s) (c : Copied σ s t f) : SameFields σ s t :=
  ⟨c.fields h.word, c.entries h.word, fun _ _ h1 h2 => c.read h.word h1 h2,
    fun k g hσ hk => (c.stretchy k g hσ hk).2.value (stretchy_not_hole (h.sch _ _ hσ)), fun _ _ h1 => c.readFixed h1,
    fun _ _ h1 h2 => c.readStretchy h.sch h1 h2⟩

theorem SameFields.trans {σ : Sch} {s t u : RW} (h : SameFields σ s t) (h' : SameFields σ t u) (hp : t.pre = s.pre) : SameFields σ s u :=
  ⟨h'.stored.trans h.stored, h'.order.trans h.order, fun a b c d => (h'.loose a b c d).trans (h.loose a b c d),
    fun k g a b => (h'.preStored k g a (by rw [hp]; exact b)).trans (h.preStored k g a b),
    fun a b c => (h'.preFixed a b (by rw [hp]; exact c)).trans (h.preFixed a b c),
    fun a b c d => (h'.preStretchy a b (by rw [hp]; exact c) d).trans (h.preStretchy a b c d)⟩

/-- The serialized form of `s`, in the terms of the layout of a mutable tuple. -/
abbrev serialized (sch : Option Schema) (s : RW) : RW := roView sch (takeAsis sch s) (s.tail - s.head + 1) s.jc s.jv

theorem serialized_moved {sch : Option Schema} {s : RW} (h : WF (schOf sch) s) (hpre : s.pre = bytes2units (preBytesOf sch))
    (h1 : s.tail - s.head + 1 ≤ 65534) (h2 : s.pivot - s.head ≤ 8191) : Moved s (serialized sch s) := by
  obtain ⟨k1, k2, k3, k4⟩ := takeAsis_header (sch := sch) h1 h2
  refine ⟨?_, ?_, ?_, fun i hi => ?_, rfl, rfl, ?_, ?_⟩
  · show 1 + (takeAsis sch s 0).hi / 8 = 1 + _
    rw [k2]
  · rw [hpre, b2u']; rfl
  · show s.tail - s.head + 1 = 1 + _; omega
  · show takeAsis sch s (1 + i) = _
    unfold takeAsis
    rw [if_neg (by omega), show 1 + i - 1 = i by omega]
  · show s.tail - s.head + 1 ≤ (takeAsis sch s 0).lo
    rw [k1]
  · show (takeAsis sch s 0).lo ≤ _
    rw [k1]; exact h1

/-- **C19 (serialized form, partial).** The serialized form of every tuple any history produces, if it is not larger than the
maximum of 65534 units, is accepted by the validation of serialized tuples (against the same schema); the length of the
buffer is the size stated in its header; the validation reports exactly the holes of the mutable tuple; and every field
reads the same as in the mutable tuple. Missing: histories in which a defect of `src/gear.cxx` shows (none for
`Fix.repaired`), more than 8191 index entries and stretchy preplaced fields together (`C12_audit_aborts`), and the
tuple of 65535 units (`C19_too_large_refuted`). -/
theorem C19_serialized_partial {F : Fix} {sch : Option Schema} {s : RW} (h : History F sch s)
    (hmax : s.pivot - s.head + stretchyOf sch ≤ 8191) (hsize : s.tail - s.head + 1 ≤ 65534) :
    (∃ st, auditRo sch (takeAsis sch s) (4 * (s.tail - s.head + 1)) = .pass st ∧ st.hc = s.jc ∧ st.hv = s.jv) ∧
    (takeAsis sch s 0).lo = s.tail - s.head + 1 ∧ SameFields (schOf sch) s (serialized sch s) := by
  obtain ⟨wf, hp, hpre⟩ := h.facts
  have hidx : s.pivot - s.head ≤ 8191 := by omega
  obtain ⟨k1, k2, k3, k4⟩ := takeAsis_header (sch := sch) hsize hidx
  have m := serialized_moved wf hpre hsize hidx
  refine ⟨?_, k1, SameFields.of_copied wf (m.copied wf)⟩
  have hpiv : (serialized sch s).pivot = 1 + (s.pivot - s.head) := m.pivot
  obtain ⟨st, hs, h1, h2⟩ := auditTuple_complete h.schema (m.wf wf) (m.pure wf hp) (m.pre.trans hpre)
    (by rw [hpiv]; show 1 + (s.pivot - s.head) - 1 + _ ≤ 8191; omega)
    (fl := ⟨Nested.isSorted (takeAsis sch s 0), Nested.havePreplaced (takeAsis sch s 0), false⟩) k4
    (fun c => absurd (k3.symm.trans c) (by decide))
  refine ⟨st.read 0, ?_, h1, h2⟩
  unfold auditRo
  have hlite : liteCheckup (takeAsis sch s) (4 * (s.tail - s.head + 1)) = none := by
    have hb := wf.inv.bt
    have hhp := wf.inv.hp
    have hbase : s.base = s.pivot + s.pre := rfl
    unfold liteCheckup Nested.indexSize units2bytes Audit.maxFields
    simp only [Nat.shiftLeft_eq]
    rw [k1, k2]
    split_ifs <;> first | rfl | omega
  rw [hlite]
  simp only
  have e : (takeAsis sch s 0).lo = (serialized sch s).tail := k1
  rw [e]
  have hs : auditTuple sch (takeAsis sch s) 1 (1 + Nested.indexSize (takeAsis sch s 0)) (serialized sch s).tail _ = .pass st := hs
  rw [hs]
  rfl

/-- **C19 (re-creation, partial).** A mutable tuple created from that serialized form (as from any place it was transferred
to), with any reserve and in any buffer large enough, again has a valid layout, the same holes, and every field reads
the same as in the original. Missing, besides what is missing in `C19_serialized_partial`: reserves with which index and
payload together exceed 65534 units (`C19_overflow_refuted`), and tuples with so much payload that the preplaced area counted
twice exceeds the maximum (`C19_recreate_refuted`). -/
theorem C19_recreated_partial {F : Fix} {sch : Option Schema} {s : RW} (h : History F sch s)
    (hmax : s.pivot - s.head ≤ 8191) (hsize : s.tail - s.head + 1 ≤ 65534)
    {overhead more moreData extra : Nat} {mem : Memory} (hmore : more ≤ 8191) (hdata : moreData ≤ 4 * 65534)
    (hpre : 4 * (s.tail - s.pivot) + moreData + preBytesOf sch ≤ 4 * 65534)
    (hroom : min 8191 (s.pivot - s.head + more) + (s.tail - s.pivot) ≤ 65534)
    (hbuf : overhead + 4 * 8191 + 4 * 65535 + extra ≤ bufLimit) :
    ∃ t, createFromRo overhead mem s.jc s.jv (takeAsis sch s) more moreData (preBytesOf sch) extra = .ok t ∧
      History F sch t ∧ Layout (schOf sch) t ∧ t.jc = s.jc ∧ t.jv = s.jv ∧ SameFields (schOf sch) s t ∧
      t.head = min 8191 (s.pivot - s.head + more) - (s.pivot - s.head) ∧
      (t.lim < 65534 → moreData ≤ tailSpaceBytes t) := by
  obtain ⟨wf, hp, hpu⟩ := h.facts
  obtain ⟨k1, k2, k3, k4⟩ := takeAsis_header (sch := sch) hsize hmax
  have hb := wf.inv.bt
  have hhp := wf.inv.hp
  have hbase : s.base = s.pivot + s.pre := rfl
  have hjc := wf.inv.jc_le
  have hvl := wf.inv.vol_le (p := 0) (n := 0) (fun u => by unfold ind; rw [if_neg (by omega)])
  have hl16 := wf.inv.lt16
  have htl := wf.inv.tl
  have hll := wf.inv.ll
  set ro := takeAsis sch s with hro
  have hidx : Nested.indexSize (ro 0) = s.pivot - s.head := k2
  have hpay : (ro 0).lo - 1 - Nested.indexSize (ro 0) = s.tail - s.pivot := by rw [k1, hidx]; omega
  set R := min 8191 (s.pivot - s.head + more) with hR
  have hRle : R ≤ 8191 := by omega
  have hRge : s.pivot - s.head ≤ R := by omega
  set D := min (4 * 65534) (4 * (s.tail - s.pivot) + moreData) with hD
  have hDle : D ≤ 4 * 65534 - preBytesOf sch := by omega
  have hDge : 4 * (s.tail - s.pivot) ≤ D := by omega
  have e1 : estimateRo overhead (ro 0) more moreData (preBytesOf sch) = .ok (overhead + R * 4 + (D + 3) / 4 * 4) := by
    unfold estimateRo estimate Audit.maxFields maxBytesNetto
    rw [hpay, hidx, if_neg (by omega), if_neg (by omega), if_neg (by omega), if_neg (by omega), if_pos rfl]
  have e2 : estimate overhead R (4 * (s.tail - s.pivot)) (preBytesOf sch) true = .ok (overhead + R * 4 + (4 * (s.tail - s.pivot) + 3) / 4 * 4) := by
    unfold estimate Audit.maxFields maxBytesNetto
    rw [if_neg (by omega), if_neg (by omega), if_pos rfl]
  let t : RW := RW.mk (mem.writeCells (R - (s.pivot - s.head)) (ro.readCells 1 (s.tail - s.head))) (R - (s.pivot - s.head)) R
    (bytes2units (preBytesOf sch)) (R + (s.tail - s.pivot))
    (min maxUnitsNetto ((overhead + R * 4 + (D + 3) / 4 * 4 + extra - overhead) / 4)) (s.jc % 65536) (s.jv % 65536)
  have e : createFromRo overhead mem s.jc s.jv ro more moreData (preBytesOf sch) extra = .ok t := by
    unfold createFromRo
    rw [e1]
    show constructRo overhead mem s.jc s.jv ro _ more (preBytesOf sch) = _
    unfold constructRo Audit.maxFields
    simp only [hidx, hpay, k1, ← hR]
    rw [if_neg (by omega), if_neg (by omega), show s.tail - s.head + 1 - 1 - (s.pivot - s.head) = s.tail - s.pivot by omega,
      show s.tail - s.head + 1 - 1 = s.tail - s.head by omega, e2]
    show (if _ then _ else _) = _
    rw [if_neg (by omega)]
  have hfit : t.tail ≤ t.lim := by show R + (s.tail - s.pivot) ≤ min 65534 _; omega
  refine ⟨t, e, ?_⟩
  · have m : Moved s t := recreate_moved wf hpu hmax hsize e hfit
    refine ⟨⟨h.schema, h.made.recreate rfl hpu hmax hsize e hfit, rfl⟩, layout_of_wf (m.wf wf), m.jc, m.jv, SameFields.of_copied wf (m.copied wf), rfl, fun hlim => ?_⟩
    have hlim : min 65534 ((overhead + R * 4 + (D + 3) / 4 * 4 + extra - overhead) / 4) < 65534 := hlim
    unfold tailSpaceBytes tailSpaceUnits units2bytes
    rw [Nat.shiftLeft_eq]
    show moreData ≤ (min 65534 ((overhead + R * 4 + (D + 3) / 4 * 4 + extra - overhead) / 4) - (R + (s.tail - s.pivot))) * 2 ^ 2
    omega

/-- Both theorems apply to the tuple of `goodOps`: four fields and a hole; it is re-created with a reserve of three items and
100 bytes. -/
example : ∃ s, History .code none s ∧ s.jc = 1 ∧ (liveSet s).card = 4 ∧ accepted (auditRo none (takeAsis none s) (4 * (s.tail - s.head + 1))) = true ∧
    ∃ t, createFromRo 44 (fun _ => .zero) s.jc s.jv (takeAsis none s) 3 100 0 0 = .ok t ∧ t.head = 3 ∧ fieldsOf t = fieldsOf s := by
  obtain ⟨s, hr, hp⟩ := run_decide (F := .code) (s := fresh 8 60) (ops := goodOps) (fun s => decide (s.jc = 1 ∧ (liveSet s).card = 4 ∧
    s.pivot - s.head = 5 ∧ s.tail ≤ 60 ∧ s.pivot ≤ s.tail)) (by decide +kernel)
  obtain ⟨p1, p2, p3, p4, p5⟩ := of_decide_eq_true hp
  have hH : History .code none s := .of_run (mem := fun _ => .zero) (items := 8) (lim := 60) (image := []) (ops := goodOps)
    (fun S h => (by cases h)) rfl (by decide) (by decide) (fun k g h => (by cases h)) (opOk_of (by decide +kernel))
    (runBenign_of (by decide +kernel)) hr
  have h0 : stretchyOf none = 0 := rfl
  have h1 : preBytesOf none = 0 := rfl
  obtain ⟨⟨st, k1, _⟩, _, _⟩ := C19_serialized_partial hH (by omega) (by omega)
  obtain ⟨t, j1, _, _, _, _, j2, j3, _⟩ := C19_recreated_partial hH (overhead := 44) (more := 3) (moreData := 100) (extra := 0)
    (mem := fun _ => .zero) (by omega) (by omega) (by omega) (by omega) (by omega) (by omega) (by decide)
  refine ⟨s, hH, p1, p2, by rw [k1]; rfl, t, j1, ?_, j2.stored⟩
  rw [j3, p3]; rfl

/-! ## Inserting into a tuple without holes -/

/-- An insert into a tuple without holes succeeds when there is a slot and enough free tail; it takes at most one slot and
the units of the value. -/
theorem insert_plain {F : Fix} {s : RW} {tag n : Nat} {g : Genus} {v : Val} (hj : s.jc = 0) (hf : v.fits g = true)
    (hg : tag2genus tag = g) (hc : isLooseCollection tag = true) (hn : unitsFor g v = some n) (h0 : 0 < s.head) (hl : n ≤ s.lim - s.tail) :
    ∃ t, step F s (.insert tag g v) = .ok () t ∧ t.jc = 0 ∧ t.jv = s.jv ∧ t.pivot = s.pivot ∧ t.pre = s.pre ∧ t.lim = s.lim ∧
      s.head ≤ t.head + 1 ∧ t.tail ≤ s.tail + n ∧
      (v.isEmpty g = false → t.head + 1 = s.head ∧ t.tail = s.tail + n) := by
  have i : ∀ k, indexAlloc s k = .ok (s.head - 1) { s with head := s.head - 1 } := by
    intro k
    unfold indexAlloc
    rw [if_neg (by omega)]
    simp only
    rw [if_neg (by omega)]
  have al : ∃ s1 : RW, allocLooseWith F.loose s tag n = .ok (s.head - 1) s1 ∧ s1.jc = 0 ∧ s1.jv = s.jv ∧ s1.pivot = s.pivot ∧
      s1.pre = s.pre ∧ s1.lim = s.lim ∧ s1.head = s.head - 1 ∧ s1.tail = s.tail + n := by
    unfold allocLooseWith
    by_cases hz : n = 0
    · rw [if_pos hz, i]
      exact ⟨_, rfl, hj, rfl, rfl, rfl, rfl, rfl, by rw [hz]; rfl⟩
    · have lb : lookupBest s n = some none := by unfold lookupBest; rw [if_pos (Or.inl (by omega))]
      rw [if_neg hz, lb]
      simp only
      rw [if_neg (by omega), i]
      exact ⟨_, rfl, hj, rfl, rfl, rfl, rfl, rfl, rfl⟩
  obtain ⟨s1, e1, k1, k2, k3, k4, k5, k6, k7⟩ := al
  show ∃ t, (insertField F s tag g v).bind (fun _ s => .ok () s) = .ok () t ∧ _
  unfold insertField
  rw [if_neg (fun h => h hg), if_neg (fun h => h hc)]
  by_cases hd : ¬ isDiscernible tag ∧ v.isEmpty g
  · rw [if_pos hd]
    refine ⟨s, rfl, hj, rfl, rfl, rfl, rfl, by omega, by omega, fun h => ?_⟩
    rw [h] at hd; exact absurd hd.2 (by decide)
  rw [if_neg hd]
  unfold unitsFor at hn
  by_cases hfx : g.isFixed = true
  · rw [if_pos hfx] at hn ⊢
    injection hn with hn
    rw [hn, e1]
    cases v <;> exact ⟨_, rfl, k1, k2, k3, k4, k5, (by show _ ≤ s1.head + 1; omega), k7.le, fun _ => ⟨(by show s1.head + 1 = _; omega), k7⟩⟩
  · rw [if_neg hfx] at hn ⊢
    cases he : v.estimate with
    | error e => rw [he] at hn; cases hn
    | ok m =>
      rw [he] at hn
      injection hn with hn
      subst hn
      simp only
      rw [e1]
      refine ⟨_, rfl, ?_⟩
      by_cases hm : m ≠ 0
      · rw [if_pos hm]
        exact ⟨k1, k2, k3, k4, k5, (by show _ ≤ s1.head + 1; omega), k7.le, fun _ => ⟨(by show s1.head + 1 = _; omega), k7⟩⟩
      · rw [if_neg hm]
        exact ⟨k1, k2, k3, k4, k5, (by omega), k7.le, fun _ => ⟨(by omega), k7⟩⟩

/-- An insert of a value of the proper type under a collection token. -/
def InsertOf (op : Op) (n : Nat) : Prop :=
  ∃ tag g v, op = .insert tag g v ∧ v.fits g = true ∧ tag2genus tag = g ∧ isLooseCollection tag = true ∧ unitsFor g v = some n

/-- All operations of the list succeed. -/
def AllOk (F : Fix) : RW → List Op → Prop
  | _, [] => True
  | s, op :: ops => ∃ t, step F s op = .ok () t ∧ AllOk F t ops

theorem inserts_ok {F : Fix} (ops : List (Op × Nat)) : ∀ s : RW, s.jc = 0 → (∀ p ∈ ops, InsertOf p.1 p.2) → ops.length ≤ s.head →
    (ops.map Prod.snd).sum ≤ s.lim - s.tail → AllOk F s (ops.map Prod.fst) := by
  induction ops with
  | nil => intro s _ _ _ _; trivial
  | cons p ops ih =>
    intro s hj hi hh hs
    obtain ⟨tag, g, v, e, h1, h2, h3, h4⟩ := hi p (List.mem_cons_self ..)
    rw [List.map_cons, List.sum_cons] at hs
    rw [List.length_cons] at hh
    obtain ⟨t, k1, k2, k3, k4, k5, k6, k7, k8, _⟩ := insert_plain (F := F) hj h1 h2 h3 h4 (by omega) (by omega)
    rw [List.map_cons, e]
    exact ⟨t, k1, ih t k2 (fun q hq => hi q (List.mem_cons_of_mem _ hq)) (by omega) (by rw [k6]; omega)⟩

/-! ## C19: what fails -/

/-- A collection of nested tuples. -/
def nestTok : Nat := makeTag .nested 1 true false false

theorem nstVal_fits {n : Nat} (h : 2 ≤ n) (h' : n ≤ 65535) : (nstVal n 0).fits .nested = true := by
  unfold nstVal Val.fits
  simp only [Bool.and_eq_true, decide_eq_true_eq, List.all_eq_true, List.mem_cons, List.mem_replicate]
  refine ⟨⟨trivial, List.cons_ne_nil _ _, ?_⟩, ?_⟩
  · show n = _
    rw [List.length_cons, List.length_replicate]; omega
  · rintro c (rfl | ⟨_, rfl⟩)
    · unfold Cell.ok; simp; omega
    · decide

/-- A tuple made of one nested tuple of `n` units. -/
theorem one_nested_in (F : Fix) {sch : Option Schema} {n pre items lim : Nat} {image : List Cell} (hS : ∀ S, sch = some S → SchemaOk S)
    (hns : ∀ k, schOf sch k = none) (hi : image.length = pre) (hp : (preBytesOf sch + 3) / 4 = pre) (h1 : 2 ≤ n)
    (h2 : items + 1 + pre + n ≤ lim) (h3 : lim ≤ 65534) :
    ∃ s, run F (create (fun _ => .zero) (items + 1) pre lim image) [.insert nestTok .nested (nstVal n 0)] = some s ∧
      History F sch s ∧ s.head = items ∧ s.pivot = items + 1 ∧ s.tail = items + 1 + pre + n ∧ s.lim = lim ∧ s.jc = 0 ∧ s.jv = 0 := by
  obtain ⟨s, k1, k2, k3, k4, k5, k6, k7, k8, k9⟩ := insert_plain (F := F)
    (s := create (fun _ => .zero) (items + 1) pre lim image) (tag := nestTok) (g := .nested) (v := nstVal n 0) (n := n)
    rfl (nstVal_fits h1 (by omega)) (by decide +kernel) (by decide +kernel) rfl (by show 0 < items + 1; omega)
    (by show n ≤ lim - (items + 1 + pre); omega)
  obtain ⟨k9, k10⟩ := k9 (by
    show decide (n < 2) = false
    rw [decide_eq_false_iff_not]; omega)
  have hr : run F (create (fun _ => .zero) (items + 1) pre lim image) [.insert nestTok .nested (nstVal n 0)] = some s := by
    rw [run, k1]; rfl
  have k9 : s.head + 1 = items + 1 := k9
  refine ⟨s, hr, .of_run (mem := fun _ => .zero) (items := items + 1) (lim := lim) (image := image)
    (ops := [.insert nestTok .nested (nstVal n 0)]) hS (by rw [hi, hp]) (by omega) h3
    (fun k g hk => (by rw [hns] at hk; cases hk)) ?_ ?_ (by rw [hi]; exact hr), by omega, k4, k10, k6, k2, k3⟩
  · intro op hop
    rw [List.mem_singleton] at hop
    rw [hop]
    exact ⟨⟨by decide +kernel, fun hpp => absurd hpp (by decide +kernel)⟩, nstVal_fits h1 (by omega)⟩
  · refine ⟨?_, by split <;> trivial⟩
    refine ⟨Or.inr fun m _ _ x hx => ?_, Or.inr (Or.inl (Nat.succ_pos _))⟩
    have lb : ∀ t : RW, t.jc = 0 → lookupBest t m = some none := fun t ht => by unfold lookupBest; rw [if_pos (Or.inl (by omega))]
    rw [lb _ rfl] at hx
    cases hx

theorem one_nested (F : Fix) {sch : Option Schema} {n pre items : Nat} {image : List Cell} (hS : ∀ S, sch = some S → SchemaOk S)
    (hns : ∀ k, schOf sch k = none) (hi : image.length = pre) (hp : (preBytesOf sch + 3) / 4 = pre) (h1 : 2 ≤ n)
    (h2 : items + 1 + pre + n ≤ 65534) :
    ∃ s, run F (create (fun _ => .zero) (items + 1) pre 65534 image) [.insert nestTok .nested (nstVal n 0)] = some s ∧
      History F sch s ∧ s.head = items ∧ s.pivot = items + 1 ∧ s.tail = items + 1 + pre + n ∧ s.lim = 65534 ∧ s.jc = 0 ∧ s.jv = 0 :=
  one_nested_in F hS hns hi hp h1 h2 le_rfl

/-- **C19 (refuted).** One value of 65533 units in a tuple of the maximal size: it is stored successfully, and the serialized
form is rejected by the validation: with the header it has 65535 units, one more than the validation permits. -/
theorem C19_too_large_refuted (F : Fix) : ∃ s, History F none s ∧
    run F (create (fun _ => .zero) 1 0 65534 []) [.insert nestTok .nested (nstVal 65533 0)] = some s ∧
    accepted (auditRo none (takeAsis none s) (4 * (s.tail - s.head + 1))) = false := by
  obtain ⟨s, h1, h2, h3, h4, h5, h6, h7, h8⟩ := one_nested F (sch := none) (n := 65533) (pre := 0) (items := 0) (image := [])
    (fun S h => by cases h) (fun k => rfl) rfl rfl (by omega) (by omega)
  refine ⟨s, h2, h1, ?_⟩
  have hl : liteCheckup (takeAsis none s) (4 * (s.tail - s.head + 1)) ≠ none := by
    rw [h3, h5]
    unfold liteCheckup
    split_ifs <;> first | decide | omega
  unfold auditRo
  cases hc : liteCheckup (takeAsis none s) (4 * (s.tail - s.head + 1)) with
  | none => exact absurd hc hl
  | some e => rfl

/-- **C19 (refuted).** A serialized tuple with one value of 60000 units, loaded with a reserve of 8191 items, gets an end of data
beyond the end of the space it believes to have (and beyond its buffer, if that is not larger than requested by more than
the excess), from where the free space is computed by an unsigned subtraction. -/
theorem C19_overflow_refuted (F : Fix) : ∃ s t, History F none s ∧
    createFromRo 44 (fun _ => .zero) s.jc s.jv (takeAsis none s) 8191 0 0 0 = .ok t ∧ t.lim < t.tail := by
  obtain ⟨s, h1, h2, h3, h4, h5, h6, h7, h8⟩ := one_nested F (sch := none) (n := 60000) (pre := 0) (items := 0) (image := [])
    (fun S h => by cases h) (fun k => rfl) rfl rfl (by omega) (by omega)
  obtain ⟨k1, k2, _, _⟩ := takeAsis_header (sch := none) (s := s) (by omega) (by omega)
  have k1 : (takeAsis none s 0).lo = 60002 := by omega
  have k2 : Nested.indexSize (takeAsis none s 0) = 1 := by show _ / 8 = 1; omega
  have e : createFromRo 44 (fun _ => .zero) s.jc s.jv (takeAsis none s) 8191 0 0 0 =
      .ok (RW.mk (Memory.writeCells (fun _ => .zero) 8190 ((takeAsis none s).readCells 1 60001)) 8190 8191 0 68191 65534 (s.jc % 65536) (s.jv % 65536)) := by
    unfold createFromRo estimateRo constructRo
    rw [k2, k1]
    rfl
  exact ⟨s, _, h2, e, (by decide : 65534 < 68191)⟩

/-- A schema with a preplaced binary of 64 bytes. -/
def binSchema : Schema := ⟨64, [tagFromOffset 0 .bin512 64 false false]⟩

/-- **C19 (refuted).** With a schema with a preplaced field of 64 bytes, a valid tuple of 65528 units, which the validation accepts,
cannot be loaded for modification: `tuple_too_large`, since the preplaced area is counted twice. -/
theorem C19_recreate_refuted (F : Fix) : ∃ s, History F (some binSchema) s ∧
    (∃ st, auditRo (some binSchema) (takeAsis (some binSchema) s) (4 * 65528) = .pass st) ∧
    createFromRo 44 (fun _ => .zero) s.jc s.jv (takeAsis (some binSchema) s) 0 0 64 0 = .error .tupleTooLarge := by
  obtain ⟨s, h1, h2, h3, h4, h5, h6, h7, h8⟩ := one_nested F (sch := some binSchema) (n := 65510) (pre := 16) (items := 0)
    (image := List.replicate 16 .zero)
    (fun S h => by
      injection h with h
      subst h
      exact ⟨by decide +kernel, by decide +kernel, by decide +kernel⟩)
    (fun k => by
      unfold schOf Schema.sch
      simp only
      rw [show binSchema.tokens.filter isStretchyPre = [] by decide +kernel]; rfl) rfl rfl (by omega) (by omega)
  have hst : stretchyOf (some binSchema) = 0 := by decide +kernel
  obtain ⟨⟨st, k1, _⟩, k2, _⟩ := C19_serialized_partial h2 (by rw [hst]; omega) (by omega)
  obtain ⟨j1, j2, _, _⟩ := takeAsis_header (sch := some binSchema) (s := s) (by omega) (by omega)
  have j1 : (takeAsis (some binSchema) s 0).lo = 65528 := by omega
  have j2 : Nested.indexSize (takeAsis (some binSchema) s 0) = 1 := by show _ / 8 = 1; omega
  refine ⟨s, h2, ⟨st, ?_⟩, ?_⟩
  · rw [show s.tail - s.head + 1 = 65528 by omega] at k1
    exact k1
  · unfold createFromRo estimateRo
    rw [j2, j1]
    rfl

/-! ## C41 -/

/-- **C41 (creation, partial).** Creating a tuple for `items` fields and `data` bytes, within the limits, succeeds, in every
buffer the allocator may hand out; the new tuple holds nothing but the initial image; and any list of at most `items`
values that needs at most `data` bytes can be inserted into it, in any order, without an exception.
Missing: requests with which index and data together exceed 65534 units (`C41_capped_refuted`), and data that is lost to the
rounding of the preplaced area (`C41_rounding_refuted`). -/
theorem C41_create_partial {overhead items data preBytes extra : Nat} {mem : Memory} {image : List Cell} {F : Fix}
    (hi : items ≤ 8191) (hd : data + preBytes ≤ 4 * 65534) (hu : items + (data + preBytes + 3) / 4 ≤ 65534)
    (hp : preBytes % 4 = 0) (hb : overhead + 4 * items + 4 * ((data + preBytes + 3) / 4) + extra ≤ bufLimit) :
    ∃ s, createNew overhead mem items data preBytes extra image = .ok s ∧ fieldsOf s = 0 ∧ s.jc = 0 ∧ s.jv = 0 ∧
      s.tail = s.pivot + (preBytes + 3) / 4 ∧ s.tail ≤ s.lim ∧ s.lim ≤ 65534 ∧
      ∀ ops : List (Op × Nat), (∀ p ∈ ops, InsertOf p.1 p.2) → ops.length ≤ items → 4 * (ops.map Prod.snd).sum ≤ data →
        AllOk F s (ops.map Prod.fst) := by
  have e1 : estimate overhead items data preBytes false = .ok (overhead + items * 4 + (data + preBytes + 3) / 4 * 4) := by
    unfold estimate Audit.maxFields maxBytesNetto
    rw [if_neg (by omega), if_neg (by omega), if_neg (by decide)]
  have e2 : estimate overhead items 0 preBytes false = .ok (overhead + items * 4 + (0 + preBytes + 3) / 4 * 4) := by
    unfold estimate Audit.maxFields maxBytesNetto
    rw [if_neg (by omega), if_neg (by omega), if_neg (by decide)]
  refine ⟨create mem items (bytes2units preBytes) (min maxUnitsNetto ((overhead + items * 4 + (data + preBytes + 3) / 4 * 4 + extra - overhead) / 4)) image,
    ?_, ?_, rfl, rfl, ?_, ?_, ?_, ?_⟩
  · unfold createNew
    rw [e1]
    show construct overhead mem _ items preBytes image = _
    unfold construct
    rw [e2]
    show (if _ then _ else _) = _
    rw [if_neg (by omega)]
  · unfold fieldsOf
    have : liveSet (create mem items (bytes2units preBytes) (min maxUnitsNetto ((overhead + items * 4 + (data + preBytes + 3) / 4 * 4 + extra - overhead) / 4)) image) = ∅ := by
      ext a
      rw [mem_liveSet]
      constructor
      · rintro ⟨h1, h2, _⟩
        have h1 : items ≤ a := h1
        have h2 : a < items := h2
        omega
      · intro h; exact absurd h (Finset.notMem_empty _)
    rw [this]; rfl
  · show items + bytes2units preBytes = items + _
    rw [b2u']
  · show items + bytes2units preBytes ≤ min 65534 _
    rw [b2u']
    omega
  · show min 65534 _ ≤ 65534
    omega
  · intro ops h1 h2 h3
    refine inserts_ok ops _ rfl h1 h2 ?_
    show _ ≤ min 65534 _ - (items + bytes2units preBytes)
    rw [b2u']
    omega

/-- **C41 (limits).** Whatever is created is within the limits: more than 8191 items, or data and preplaced area together
above the maximum, or a buffer above the limit always throw. -/
theorem C41_limits {overhead items data preBytes extra : Nat} {mem : Memory} {image : List Cell} {s : RW}
    (h : createNew overhead mem items data preBytes extra image = .ok s) :
    items ≤ 8191 ∧ data + preBytes ≤ 4 * 65534 ∧ overhead + 4 * items + data + preBytes + extra ≤ bufLimit ∧
      s.head = items ∧ s.pivot = items ∧ s.lim ≤ 65534 ∧ overhead + 4 * s.lim ≤ overhead + 4 * items + 4 * ((data + preBytes + 3) / 4) + extra := by
  unfold createNew estimate at h
  unfold Audit.maxFields maxBytesNetto at h
  by_cases c1 : preBytes > 4 * 65534
  · rw [if_pos c1] at h; cases h
  rw [if_neg c1] at h
  by_cases c2 : data > 4 * 65534 - preBytes ∨ items > 8191
  · rw [if_pos c2] at h; cases h
  rw [if_neg c2, if_neg (by decide)] at h
  have h : construct overhead mem (overhead + items * 4 + (data + preBytes + 3) / 4 * 4 + extra) items preBytes image = .ok s := h
  unfold construct at h
  have e2 : estimate overhead items 0 preBytes false = .ok (overhead + items * 4 + (0 + preBytes + 3) / 4 * 4) := by
    unfold estimate Audit.maxFields maxBytesNetto
    rw [if_neg (by omega), if_neg (by omega), if_neg (by decide)]
  rw [e2] at h
  have h : (if overhead + items * 4 + (0 + preBytes + 3) / 4 * 4 > overhead + items * 4 + (data + preBytes + 3) / 4 * 4 + extra ∨
    overhead + items * 4 + (data + preBytes + 3) / 4 * 4 + extra > bufLimit then Except.error Exc.invalidArgument else .ok _) = Except.ok s := h
  by_cases c3 : overhead + items * 4 + (0 + preBytes + 3) / 4 * 4 > overhead + items * 4 + (data + preBytes + 3) / 4 * 4 + extra ∨
    overhead + items * 4 + (data + preBytes + 3) / 4 * 4 + extra > bufLimit
  · rw [if_pos c3] at h; cases h
  rw [if_neg c3] at h
  injection h with h
  rw [← h]
  refine ⟨by omega, by omega, by omega, rfl, rfl, ?_, ?_⟩
  · show min 65534 _ ≤ 65534; omega
  · show overhead + 4 * min 65534 _ ≤ _; omega

/-- The hypotheses of `C41_create_partial` on a typical request, with the real overhead of 44 bytes. -/
example : ∃ s, createNew 44 (fun _ => .zero) 10 100 8 20 [.zero, .zero] = .ok s ∧ s.lim = 42 ∧ s.tail = 12 := ⟨_, rfl, rfl, rfl⟩

/-- **C41 (refuted).** 8191 items with the maximum of data are accepted, yet there is not enough room for the data: the limit of
65534 units counts index and data together, and the excess is silently cut. -/
theorem C41_capped_refuted : ∃ s, createNew 44 (fun _ => .zero) 8191 (4 * 65534) 0 0 [] = .ok s ∧
    tailSpaceBytes s + 4 * 8191 = 4 * 65534 := ⟨_, rfl, rfl⟩

/-- **C41 (refuted).** With one preplaced byte and three requested bytes of data, there is no room for data at all: preplaced
area and data are rounded up together, but the preplaced area takes whole units. -/
theorem C41_rounding_refuted : ∃ s, createNew 44 (fun _ => .zero) 1 3 1 0 [.zero] = .ok s ∧ tailSpaceBytes s = 0 := ⟨_, rfl, rfl⟩

/-- **C41 (reset).** Resetting any tuple of any history which was created for at least one item makes it what it was after
creation: no fields, the whole space free again. -/
theorem C41_reset {F : Fix} {sch : Option Schema} {s : RW} (h : History F sch s) (h1 : 1 ≤ s.pivot) (h2 : s.pivot ≤ 8191)
    (image : List Cell) : ∃ mem, reset s image = .ok (create mem s.pivot s.pre s.lim image) := by
  obtain ⟨wf, _, hpre⟩ := h.facts
  have := wf.inv.bt
  have := wf.inv.tl
  have := wf.inv.ll
  have hb : s.base = s.pivot + s.pre := rfl
  refine ⟨s.mem, ?_⟩
  unfold reset Audit.maxFields bufLimit
  rw [if_neg (by omega), if_neg (by omega)]
  rfl

/-- **C41 (refuted).** A tuple created for no items cannot be reset: `tuple_bad` is thrown for a sound tuple. -/
theorem C41_reset_refuted : ∃ s, createNew 44 (fun _ => .zero) 0 100 0 0 [] = .ok s ∧ reset s [] = .error .tupleBad := ⟨_, rfl, rfl⟩

/-! ## C40 -/

/-- **C40 (accounting).** In every tuple of any history: the number of loose fields is what `loose_count` says; the brutto
size is header, one slot for each field, preplaced area and payload of the fields, plus the junk; and the used space,
the space before the index and the free tail add up to the capacity. -/
theorem C40_account {F : Fix} {σ : Sch} {s : RW} (h : Reachable F σ s) :
    looseCount s = Multiset.card (fieldsOf s) ∧
    bruttoSize s = 4 * (1 + looseCount s + s.pre + payloadOf σ s) + junkBytes s ∧
    4 * headSpace s + (bruttoSize s - 4) + tailSpaceBytes s = capacity s := by
  have wf := h.wf
  have h1 := wf_count wf
  have h2 := wf_total wf
  have hb := wf.inv.bt
  have hhp := wf.inv.hp
  have htl := wf.inv.tl
  have hbase : s.base = s.pivot + s.pre := rfl
  unfold looseCount bruttoSize junkBytes junkUnits headSpace tailSpaceBytes tailSpaceUnits capacity Serial.indexSize units2bytes
  simp only [Nat.shiftLeft_eq]
  refine ⟨by omega, by omega, by omega⟩

/-- **C40 (emptiness).** A tuple without preplaced fields is reported empty exactly when it has no fields. -/
theorem C40_empty {F : Fix} {s : RW} (h : Reachable F (fun _ => none) s) (hp : s.pre = 0) : Serial.isEmpty s = true ↔ fieldsOf s = 0 := by
  have wf := h.wf
  have h1 := wf_count wf
  have hb := wf.inv.bt
  have hhp := wf.inv.hp
  have hbase : s.base = s.pivot + s.pre := rfl
  unfold Serial.isEmpty
  rw [beq_iff_eq]
  constructor
  · intro he
    rw [← Multiset.card_eq_zero]; omega
  · intro hf
    obtain ⟨k1, k2, k3, k4⟩ := C14_reclaim_partial h hf (fun _ _ hk => by cases hk)
    omega

/-- **C40 (netto size, partial).** The netto size is brutto minus junk when there is no junk. Missing: all the others
(`C40_netto_refuted`). -/
theorem C40_netto_partial {s : RW} (h1 : s.jc = 0) (h2 : s.jv = 0) : nettoSize s = bruttoSize s - junkBytes s := by
  unfold nettoSize junkBytes junkUnits units2bytes
  rw [h1, h2]; rfl

/-- **C40 (refuted).** After erasing a field, the netto size, which should be the brutto size without junk, is too large: the
number of junk units is subtracted from a number of bytes. -/
theorem C40_netto_refuted (F : Fix) (hF : F = .code ∨ F = .repaired) :
    ∃ s, run F (fresh 4 40) [setN 1 3, setN 2 5, eraseN 1] = some s ∧ junkBytes s = 16 ∧ bruttoSize s = 44 ∧
      nettoSize s = 40 := by
  obtain ⟨s, h1, h2⟩ := run_decide (F := F) (s := fresh 4 40) (ops := [setN 1 3, setN 2 5, eraseN 1])
    (fun s => decide (junkBytes s = 16 ∧ bruttoSize s = 44 ∧ nettoSize s = 40))
    (by rcases hF with rfl | rfl <;> decide +kernel)
  exact ⟨s, h1, of_decide_eq_true h2⟩

end Fptu.Props
