import Verif.Model.Handle
import Verif.Props.Compact
/-!
# C34: handles validate and optimize when the caller asks for it
-/
namespace Fptu.Props
open Fptu Fptu.Gear Fptu.Rw Fptu.Audit Fptu.Serial Fptu.Compact Fptu.Handle

/-- **C34 (modes).** An explicit mode prevails over every default; a combined mode keeps its meaning wherever it is applied. -/
theorem C34_modes (m : Mode) (d e : Bool) :
    apply .enforce d = true ∧ apply .skip d = false ∧ apply .default d = d ∧ apply (combine m d) e = apply m d := by
  cases m <;> cases d <;> cases e <;> decide

/-- The validation reports a problem. -/
def rejected (r : Res) : Bool := match r with | .fail _ _ => true | _ => false

/-- **C34 (weak handles).** Unless told to skip the validation, the constructor of a weak handle succeeds exactly for buffers the
validation accepts for the given schema, and the handle is that buffer; it throws `tuple_hollow` exactly for null pointers and buffers of less than
four bytes, `tuple_bad` exactly when the validation rejects. Told to skip, it never throws. For all buffers, sizes and schemas. -/
theorem C34_weak (ptr : Option Memory) (bytes : Nat) (sch : Option Schema) (mode : Mode) :
    (mode ≠ .skip →
      (∀ h, weak ptr bytes sch mode = .ok h ↔ ∃ m, ptr = some m ∧ h = some m ∧ accepted (auditRo sch m bytes) = true) ∧
      (weak ptr bytes sch mode = .error .tupleHollow ↔ ptr = none ∨ bytes < 4) ∧
      (weak ptr bytes sch mode = .error .tupleBad ↔
        4 ≤ bytes ∧ ∃ m, ptr = some m ∧ rejected (auditRo sch m bytes) = true)) ∧
    (mode = .skip → weak ptr bytes sch mode = .ok (if bytes < 4 then none else ptr)) := by
  refine ⟨fun hm => ?_, fun hm => ?_⟩
  · have e : weak ptr bytes sch mode = makeFromBuffer ptr bytes sch false := by
      cases mode
      · rfl
      · exact absurd rfl hm
      · rfl
    rw [e]
    cases ptr with
    | none =>
      refine ⟨fun h => ⟨fun k => (by cases k), ?_⟩, ⟨fun _ => Or.inl rfl, fun _ => rfl⟩, fun k => (by cases k), ?_⟩
      · rintro ⟨m, k, _⟩; cases k
      · rintro ⟨_, m, k, _⟩; cases k
    | some m =>
      by_cases c : bytes < 4
      · have r : accepted (auditRo sch m bytes) = false := by
          unfold auditRo liteCheckup
          rw [if_pos c]; rfl
        have e : makeFromBuffer (some m) bytes sch false = .error .tupleHollow := by
          unfold makeFromBuffer; dsimp only; rw [if_pos c]; rfl
        rw [e]
        refine ⟨fun h => ⟨fun k => (by cases k), ?_⟩, ⟨fun _ => Or.inr c, fun _ => rfl⟩, fun k => (by cases k), ?_⟩
        · rintro ⟨m', k, _, k'⟩
          rw [← Option.some.inj k, r] at k'; cases k'
        · rintro ⟨k, _⟩; omega
      · have e : makeFromBuffer (some m) bytes sch false = match auditRo sch m bytes with
            | .pass _ => .ok (some m) | .fail _ _ => .error .tupleBad | .bug _ => .error .bug := by
          unfold makeFromBuffer; dsimp only; rw [if_neg c]; rfl
        rw [e]
        cases a : auditRo sch m bytes with
        | pass st =>
          refine ⟨fun h => ⟨fun k => ⟨m, rfl, ?_, ?_⟩, ?_⟩, ⟨fun k => (by cases k), ?_⟩, fun k => (by cases k), ?_⟩
          · injection k with k; exact k.symm
          · rw [a]; rfl
          · rintro ⟨m', k, k', _⟩
            rw [k', ← Option.some.inj k]
          · rintro (k | k)
            · cases k
            · exact absurd k c
          · rintro ⟨_, m', k, k'⟩
            rw [← Option.some.inj k, a] at k'; cases k'
        | fail x y =>
          refine ⟨fun h => ⟨fun k => (by cases k), ?_⟩, ⟨fun k => (by cases k), ?_⟩,
            fun _ => ⟨by omega, m, rfl, by rw [a]; rfl⟩, fun _ => rfl⟩
          · rintro ⟨m', k, _, k'⟩
            rw [← Option.some.inj k, a] at k'; cases k'
          · rintro (k | k)
            · cases k
            · exact absurd k c
        | bug x =>
          refine ⟨fun h => ⟨fun k => (by cases k), ?_⟩, ⟨fun k => (by cases k), ?_⟩, fun k => (by cases k), ?_⟩
          · rintro ⟨m', k, _, k'⟩
            rw [← Option.some.inj k, a] at k'; cases k'
          · rintro (k | k)
            · cases k
            · exact absurd k c
          · rintro ⟨_, m', k, k'⟩
            rw [← Option.some.inj k, a] at k'; cases k'
  · subst hm
    cases ptr with
    | none => show Except.ok none = _; rw [ite_self]
    | some m =>
      show (if bytes < 4 then _ else _) = _
      by_cases c : bytes < 4
      · rw [if_pos c, if_pos c]; rfl
      · rw [if_neg c, if_neg c]; rfl

/-- A buffer with a schema of one number of four bytes, accepted; the same buffer without a schema is rejected. -/
example : weak (some (Memory.writeCells (fun _ => .zero) 0 [⟨2, 2⟩, ⟨7, 0⟩])) 8 (some ⟨4, [tagFromOffset 0 .u32 4 false false]⟩) .default =
      .ok (some (Memory.writeCells (fun _ => .zero) 0 [⟨2, 2⟩, ⟨7, 0⟩])) ∧
    weak (some (Memory.writeCells (fun _ => .zero) 0 [⟨2, 2⟩, ⟨7, 0⟩])) 8 none .default = .error .tupleBad :=
  ⟨((C34_weak _ _ _ _).1 (by decide)).1 _ |>.2 ⟨_, rfl, rfl, by decide +kernel⟩,
    ((C34_weak _ _ _ _).1 (by decide)).2.2.2 ⟨by decide, _, rfl, by decide +kernel⟩⟩

/-! ## Loading and cloning -/

theorem createFromRo_error {overhead : Nat} {mem : Memory} {hc hv : Nat} {ro : Memory} {a b c d : Nat} {e : Exc}
    (h : createFromRo overhead mem hc hv ro a b c d = .error e) : e ≠ .tupleBad ∧ e ≠ .tupleHollow ∧ e ≠ .bug := by
  have est : ∀ {o i n p : Nat} {k : Bool} {e : Exc}, estimate o i n p k = .error e → e ≠ .tupleBad ∧ e ≠ .tupleHollow ∧ e ≠ .bug := by
    intro o i n p k e h
    unfold estimate at h
    split_ifs at h <;> (injection h with h; subst h; decide)
  have hE : ∀ {n : Nat}, constructRo overhead mem hc hv ro n a c = .error e → e ≠ .tupleBad ∧ e ≠ .tupleHollow ∧ e ≠ .bug := by
    intro n h
    unfold constructRo at h
    split_ifs at h
    · injection h with h; subst h; decide
    · injection h with h; subst h; decide
    · dsimp only at h
      cases k : estimate overhead (min Audit.maxFields (Nested.indexSize (ro 0) + a)) (4 * ((ro 0).lo - 1 - Nested.indexSize (ro 0))) c true with
      | error x => rw [k] at h; injection h with h; subst h; exact est k
      | ok x =>
        rw [k] at h
        change (if n < x then _ else _) = _ at h
        split_ifs at h
        injection h with h
        subst h
        refine ⟨?_, ?_, ?_⟩ <;> (intro h; cases h)
  unfold createFromRo at h
  cases k : estimateRo overhead (ro 0) a b c with
  | error x =>
    rw [k] at h
    injection h with h
    subst h
    unfold estimateRo at k
    split_ifs at k
    · injection k with k; subst k; decide
    · injection k with k; subst k; decide
    · exact est k
  | ok x => rw [k] at h; exact hE h

/-- **C34 (loading external data).** A modifiable tuple is made only of data the validation accepts for the given schema; rejected data
give `tuple_bad`, and `tuple_bad` means that they were rejected. -/
theorem C34_load {overhead : Nat} {mem src : Memory} {bytes more moreData extra : Nat} {sch : Option Schema} :
    (∀ t, createFromBuffer overhead mem src bytes more moreData extra sch = .ok t → accepted (auditRo sch src bytes) = true) ∧
    (createFromBuffer overhead mem src bytes more moreData extra sch = .error .tupleBad ↔ rejected (auditRo sch src bytes) = true) := by
  unfold createFromBuffer
  cases a : auditRo sch src bytes with
  | pass st =>
    exact ⟨fun t _ => rfl, fun k => absurd rfl (createFromRo_error k).1, fun k => (by cases k)⟩
  | fail e r => exact ⟨fun t k => (by cases k), fun _ => rfl, fun _ => rfl⟩
  | bug r => exact ⟨fun t k => (by cases k), fun k => (by cases k), fun k => (by cases k)⟩

theorem no_holes_no_volume {F : Fix} {sch : Option Schema} {s : RW} (h : History F sch s) (hj : s.jc = 0) : s.jv = 0 := by
  have L := layout_of_wf h.made.wf
  rw [L.volume]
  have c := L.count
  rw [hj] at c
  rw [Finset.card_eq_zero.1 c.symm]
  rfl

/-- Sizes for which a copy with room for `more` fields and `moreData` bytes can be made (see `C19_recreated_partial`). -/
structure CopyFits (sch : Option Schema) (s : RW) (overhead more moreData extra : Nat) : Prop where
  index : s.pivot - s.head + stretchyOf sch ≤ 8191
  size : s.tail - s.head + 1 ≤ 65534
  items : more ≤ 8191
  data : moreData ≤ 4 * 65534
  pre : 4 * (s.tail - s.pivot) + moreData + preBytesOf sch ≤ 4 * 65534
  room : min 8191 (s.pivot - s.head + more) + (s.tail - s.pivot) ≤ 65534
  buf : overhead + 4 * 8191 + 4 * 65535 + extra ≤ bufLimit

/-- The copy is a valid tuple with the same fields and the same junk. -/
structure CopyOf (F : Fix) (sch : Option Schema) (s t : RW) : Prop where
  history : History F sch t
  same : SameFields (schOf sch) s t
  junk : t.jc = s.jc ∧ t.jv = s.jv
  payload : t.tail - t.pivot = s.tail - s.pivot
  index : t.pivot - t.head = s.pivot - s.head

theorem createFromRo_index {overhead : Nat} {mem : Memory} {hc hv : Nat} {ro : Memory} {a b c d : Nat} {t : RW}
    (h : createFromRo overhead mem hc hv ro a b c d = .ok t) (h1 : Nested.indexSize (ro 0) ≤ 8191) :
    t.pivot - t.head = Nested.indexSize (ro 0) ∧ t.tail - t.pivot = (ro 0).lo - 1 - Nested.indexSize (ro 0) ∧
    t.jc = hc % 65536 ∧ t.jv = hv % 65536 ∧ t.pre = bytes2units c := by
  unfold createFromRo at h
  cases k : estimateRo overhead (ro 0) a b c with
  | error x => rw [k] at h; cases h
  | ok x =>
    rw [k] at h
    change constructRo overhead mem hc hv ro (x + d) a c = _ at h
    unfold constructRo at h
    split_ifs at h
    dsimp only at h
    cases k : estimate overhead (min Audit.maxFields (Nested.indexSize (ro 0) + a)) (4 * ((ro 0).lo - 1 - Nested.indexSize (ro 0))) c true with
    | error y => rw [k] at h; cases h
    | ok y =>
      rw [k] at h
      change (if x + d < y then _ else _) = _ at h
      split_ifs at h
      injection h with h
      subst h
      refine ⟨?_, ?_, rfl, rfl, rfl⟩
      · show min Audit.maxFields _ - (min Audit.maxFields _ - _) = _
        unfold Audit.maxFields
        omega
      · show min Audit.maxFields _ + _ - min Audit.maxFields _ = _
        omega

theorem recreate {F : Fix} {sch : Option Schema} {s : RW} (h : History F sch s) {overhead more moreData extra : Nat} (mem : Memory)
    (f : CopyFits sch s overhead more moreData extra) :
    ∃ t, createFromRo overhead mem s.jc s.jv (takeAsis sch s) more moreData (preBytesOf sch) extra = .ok t ∧ CopyOf F sch s t ∧
      t.head = min 8191 (s.pivot - s.head + more) - (s.pivot - s.head) ∧ (t.lim < 65534 → moreData ≤ tailSpaceBytes t) := by
  have hi := f.index
  obtain ⟨t, e, h1, h2, h3, h4, h5, h6, h7⟩ := C19_recreated_partial h (by omega) f.size (mem := mem) f.items f.data f.pre f.room f.buf
  obtain ⟨k1, k2, _, _⟩ := takeAsis_header (sch := sch) f.size (show s.pivot - s.head ≤ 8191 by omega)
  have k2 : Nested.indexSize (takeAsis sch s 0) = s.pivot - s.head := k2
  obtain ⟨i1, i2, _⟩ := createFromRo_index e (by rw [k2]; omega)
  have hb := h.made.wf.inv.bt
  have hhp := h.made.wf.inv.hp
  have hbase : s.base = s.pivot + s.pre := rfl
  exact ⟨t, e, ⟨h1, h5, ⟨h3, h4⟩, by rw [i2, k1, k2]; omega, by rw [i1, k2]⟩, h6, h7⟩

theorem reload {F : Fix} {sch : Option Schema} {s : RW} (h : History F sch s) {overhead more moreData extra : Nat} (mem : Memory)
    (f : CopyFits sch s overhead more moreData extra) :
    (takeAsis sch s 0).lo = s.tail - s.head + 1 ∧
    createFromBuffer overhead mem (takeAsis sch s) (4 * (takeAsis sch s 0).lo) more moreData extra sch =
      createFromRo overhead mem s.jc s.jv (takeAsis sch s) more moreData (preBytesOf sch) extra := by
  obtain ⟨⟨st, k1, k2, k3⟩, k4, _⟩ := C19_serialized_partial h f.index f.size
  refine ⟨k4, ?_⟩
  unfold createFromBuffer
  rw [k4, k1]
  show createFromRo overhead mem st.hc st.hv _ _ _ _ _ = _
  rw [k2, k3]

/-- **C34 (loading what was serialized, partial).** The serialized form of every tuple any history produces can be loaded for
modification: the same fields, the same junk, room for as many fields and bytes as asked for. Missing: what `CopyFits` excludes (see C19), and
histories in which a defect of `src/gear.cxx` shows. -/
theorem C34_load_partial {F : Fix} {sch : Option Schema} {s : RW} (h : History F sch s) {overhead more moreData extra : Nat} (mem : Memory)
    (f : CopyFits sch s overhead more moreData extra) :
    ∃ t, createFromBuffer overhead mem (takeAsis sch s) (bruttoSize s) more moreData extra sch = .ok t ∧ CopyOf F sch s t ∧
      headSpace t = min 8191 (s.pivot - s.head + more) - (s.pivot - s.head) ∧ (t.lim < 65534 → moreData ≤ tailSpaceBytes t) := by
  obtain ⟨t, e, k⟩ := recreate h mem f
  obtain ⟨k1, k2⟩ := reload h mem f
  refine ⟨t, ?_, k⟩
  rw [← e, ← k2, k1]
  unfold bruttoSize units2bytes
  rw [Nat.shiftLeft_eq, Nat.mul_comm]

/-- **C34 (clones with an explicit mode).** With `enforce_validation` a clone is made only of data the validation accepts for the given
schema, and `tuple_bad` is thrown exactly when it rejects; with `enforce_skip_validation` neither is `tuple_bad` thrown nor does
the validation fail. -/
theorem C34_clone_explicit (fixed : Bool) (overhead : Nat) (mem : Memory) (extra : Nat) (m : Memory) (sch : Option Schema) :
    (∀ r, cloneWeakWith fixed overhead mem extra (some m) sch .enforce = .ok r → accepted (auditRo sch m (4 * (m 0).lo)) = true) ∧
    (cloneWeakWith fixed overhead mem extra (some m) sch .enforce = .error .tupleBad ↔
      rejected (auditRo sch m (4 * (m 0).lo)) = true) ∧
    cloneWeakWith fixed overhead mem extra (some m) sch .skip ≠ .error .tupleBad ∧
    cloneWeakWith fixed overhead mem extra (some m) sch .skip ≠ .error .bug := by
  obtain ⟨k1, k2⟩ := C34_load (overhead := overhead) (mem := mem) (src := m) (bytes := 4 * (m 0).lo) (more := 0) (moreData := 0)
    (extra := extra) (sch := sch)
  have e : cloneWeakWith fixed overhead mem extra (some m) sch .enforce =
      (createFromBuffer overhead mem m (4 * (m 0).lo) 0 0 extra sch).map fun t => some (ofRw sch t) := rfl
  have e' : cloneWeakWith fixed overhead mem extra (some m) sch .skip =
      (createFromRo overhead mem 0 0 m 0 0 (preBytesOf sch) extra).map fun t => some (ofRw sch t) := rfl
  rw [e, e', ← k2]
  refine ⟨fun r h => ?_, ?_, ?_, ?_⟩
  · cases c : createFromBuffer overhead mem m (4 * (m 0).lo) 0 0 extra sch with
    | ok t => exact k1 t c
    | error x => rw [c] at h; cases h
  · cases c : createFromBuffer overhead mem m (4 * (m 0).lo) 0 0 extra sch with
    | ok t => exact ⟨fun h => (by cases h), fun h => (by cases h)⟩
    | error x => exact ⟨fun h => (by injection h with h; rw [h]), fun h => (by injection h with h; rw [h]; rfl)⟩
  all_goals
    intro h
    cases c : createFromRo overhead mem 0 0 m 0 0 (preBytesOf sch) extra with
    | ok t => rw [c] at h; cases h
    | error x =>
      rw [c] at h
      injection h with h
      obtain ⟨c1, c2, c3⟩ := createFromRo_error c
      first | exact c1 h | exact c3 h

/-- **C34 (clones by default, refuted).** The documentation of the function: without a schema no validation, with a schema a full validation. The
code does the opposite, for all sources and schemas. So an empty tuple, which the schema rejects, is cloned with the schema into a
modifiable form whose preplaced fields lie beyond its end. -/
theorem C34_clone_default_refuted :
    (∀ overhead mem extra m S, cloneWeakWith false overhead mem extra (some m) (some S) .default =
      cloneWeakWith false overhead mem extra (some m) (some S) .skip) ∧
    (∀ overhead mem extra m, cloneWeakWith false overhead mem extra (some m) none .default =
      cloneWeakWith false overhead mem extra (some m) none .enforce) ∧
    ∃ s h b, History .code none s ∧ SchemaOk oneStretchy ∧
      weak (some (takeAsis none s)) (bruttoSize s) (some oneStretchy) .default = .error .tupleBad ∧
      cloneWeakWith false 44 (fun _ => .zero) 0 (some (takeAsis none s)) (some oneStretchy) .default = .ok (some h) ∧
      h.basis = some (b, some oneStretchy) ∧ b.tail < b.pivot + b.pre := by
  refine ⟨fun _ _ _ _ _ => rfl, fun _ _ _ _ => rfl, create (fun _ => .zero) 8 0 60 [], _, _, ?_, oneStretchy_ok, ?_, rfl, rfl, ?_⟩
  · exact .of_run (mem := fun _ => .zero) (items := 8) (lim := 60) (image := []) (ops := []) (fun S h => (by cases h)) rfl (by decide) (by decide)
      (fun k g h => (by cases h)) (by simp) trivial rfl
  · exact ((C34_weak _ _ _ _).1 (by decide)).2.2.2 ⟨by decide +kernel, _, rfl, by decide +kernel⟩
  · decide +kernel

/-- **C34 (clones by default) with the condition as documented.** -/
theorem C34_clone_default_repaired (overhead : Nat) (mem : Memory) (extra : Nat) (m : Memory) (sch : Option Schema) :
    cloneWeakWith true overhead mem extra (some m) sch .default =
      cloneWeakWith true overhead mem extra (some m) sch (if sch = none then .skip else .enforce) := by
  cases sch <;> rfl

/-- **C34 (clones are faithful, partial).** A clone of the read-only form of any tuple any history produces, made with validation, or of a tuple
without holes, holds the same fields and is a valid tuple when converted to a modifiable form. Missing: unvalidated clones
of tuples with holes (`C34_clone_holes_refuted`), and what `CopyFits` excludes. -/
theorem C34_clone_partial {F : Fix} {sch : Option Schema} {s : RW} (h : History F sch s) {overhead extra : Nat} (fixed : Bool) (mem : Memory)
    (f : CopyFits sch s overhead 0 0 extra) (mode : Mode) (hm : mode = .enforce ∨ s.jc = 0 ∨ (mode = .default ∧ fixed = false ∧ sch = none)) :
    ∃ r t, cloneWeakWith fixed overhead mem extra (some (takeAsis sch s)) sch mode = .ok (some r) ∧ r.ro = takeAsis sch t ∧
      moveToRw overhead mem extra 0 0 (some r) true = .ok (t, sch) ∧ CopyOf F sch s t := by
  obtain ⟨t, e, k, _⟩ := recreate h mem f
  obtain ⟨k1, k2⟩ := reload h mem f
  refine ⟨ofRw sch t, t, ?_, rfl, rfl, k⟩
  unfold cloneWeakWith
  dsimp only
  by_cases c : apply mode (if fixed then sch.isSome else sch.isNone) = true
  · rw [if_pos c, k2, e]; rfl
  · rw [if_neg c]
    have hj : s.jc = 0 := by
      rcases hm with hm | hm | ⟨h1, h2, h3⟩
      · subst hm; exact absurd rfl c
      · exact hm
      · subst h1 h2 h3; exact absurd rfl c
    rw [hj, no_holes_no_volume h hj] at e
    rw [e]; rfl

/-- **C34 (unvalidated clones, refuted).** A clone made without validation takes the source for one without holes. This includes the
clones of every tuple with a schema by `take_managed_clone_asis` (and the copying constructor of the managed read-only tuple):
converted back to a modifiable form it counts every hole as a field. -/
theorem C34_clone_holes_refuted :
    (∀ (F : Fix) (S : Schema) (s : RW), History F (some S) s → ∀ overhead extra mem, CopyFits (some S) s overhead 0 0 extra →
      ∀ r, takeCloneAsis overhead mem extra (some S) false s = .ok (some r) →
      ∃ t, moveToRw overhead mem extra 0 0 (some r) true = .ok (t, some S) ∧ looseCount t = looseCount s + s.jc) ∧
    ∃ s r t, History .code (some oneStretchy) s ∧ s.jc = 1 ∧ looseCount s = 1 ∧
      takeCloneAsis 44 (fun _ => .zero) 0 (some oneStretchy) false s = .ok (some r) ∧
      moveToRw 44 (fun _ => .zero) 0 0 0 (some r) true = .ok (t, some oneStretchy) ∧ looseCount t = 2 ∧
      accepted (auditRw (some oneStretchy) t) = false := by
  have gen : ∀ (F : Fix) (S : Schema) (s : RW), History F (some S) s → ∀ overhead extra mem, CopyFits (some S) s overhead 0 0 extra →
      ∀ r, takeCloneAsis overhead mem extra (some S) false s = .ok (some r) →
      ∃ t, moveToRw overhead mem extra 0 0 (some r) true = .ok (t, some S) ∧ looseCount t = looseCount s + s.jc := by
    intro F S s h overhead extra mem f r hr
    have e : takeCloneAsis overhead mem extra (some S) false s =
        (createFromRo overhead mem 0 0 (takeAsis (some S) s) 0 0 (preBytesOf (some S)) extra).map fun t => some (ofRw (some S) t) := rfl
    rw [e] at hr
    cases c : createFromRo overhead mem 0 0 (takeAsis (some S) s) 0 0 (preBytesOf (some S)) extra with
    | error x => rw [c] at hr; cases hr
    | ok t =>
      rw [c] at hr
      injection hr with hr
      rw [← Option.some.inj hr]
      refine ⟨t, rfl, ?_⟩
      have hi := f.index
      have hs := f.size
      obtain ⟨k1, k2, _, _⟩ := takeAsis_header (sch := some S) (s := s) f.size (by omega)
      have k2 : Nested.indexSize (takeAsis (some S) s 0) = s.pivot - s.head := k2
      obtain ⟨i1, i2, i3, _⟩ := createFromRo_index c (by rw [k2]; omega)
      have hjc := h.made.wf.inv.jc_le
      unfold looseCount Serial.indexSize
      rw [i1, i3, k2]
      omega
  refine ⟨gen, ?_⟩
  have ho : ∀ op ∈ [setN 1 3, setN 2 4, eraseN 1], OpOk (schOf (some oneStretchy)) 1 op := opOk_of (by decide +kernel)
  have hb : RunBenign .code (create (fun _ => .zero) 8 1 60 [.zero]) [setN 1 3, setN 2 4, eraseN 1] := runBenign_of (by decide +kernel)
  obtain ⟨s, hr, hp⟩ := run_decide (F := .code) (s := create (fun _ => .zero) 8 1 60 [.zero]) (ops := [setN 1 3, setN 2 4, eraseN 1])
    (fun s => decide (s.jc = 1 ∧ looseCount s = 1) &&
      match createFromRo 44 (fun _ => .zero) 0 0 (takeAsis (some oneStretchy) s) 0 0 4 0 with
      | .ok t => decide (looseCount t = 2 ∧ accepted (auditRw (some oneStretchy) t) = false)
      | _ => false) (by decide +kernel)
  rw [Bool.and_eq_true] at hp
  obtain ⟨h1, h2⟩ := of_decide_eq_true hp.1
  have hp := hp.2
  cases e : createFromRo 44 (fun _ => .zero) 0 0 (takeAsis (some oneStretchy) s) 0 0 4 0 with
  | error x => rw [e] at hp; cases hp
  | ok t =>
    rw [e] at hp
    obtain ⟨h3, h4⟩ := of_decide_eq_true hp
    refine ⟨s, ofRw (some oneStretchy) t, t, .of_run (mem := fun _ => .zero) (items := 8) (lim := 60) (image := [.zero]) (fun S h => ?_)
      (by decide +kernel) (by decide) (by decide) (fun k g h hk => ?_) ho hb hr, h1, h2, ?_, rfl, h3, h4⟩
    · injection h with h
      rw [← h]; exact oneStretchy_ok
    · have : k = 0 := by have hk : k < 1 := hk; omega
      subst this; rfl
    · show (createFromRo 44 (fun _ => .zero) 0 0 (takeAsis (some oneStretchy) s) 0 0 4 0).map _ = _
      rw [e]; rfl

/-- **C34 (clones of managed handles into modifiable tuples, partial).** From a handle made of any tuple any history produces: if no other schema
is asked for, the clone has the same fields and junk without validation; if another schema is asked for, the clone is made only if the
validation accepts the data for that schema. Missing: what `CopyFits` excludes. -/
theorem C34_to_rw_partial {F : Fix} {sch : Option Schema} {s : RW} (h : History F sch s) {overhead more moreData extra : Nat} (mem : Memory)
    (f : CopyFits sch s overhead more moreData extra) (want : Option Schema) (image : List Cell) :
    ((want = none ∨ want = sch) → ∃ t, cloneToRw overhead mem extra (some (ofRw sch s)) more moreData want image = .ok (t, sch) ∧ CopyOf F sch s t) ∧
    (want ≠ none → want ≠ sch → ∀ t o, cloneToRw overhead mem extra (some (ofRw sch s)) more moreData want image = .ok (t, o) →
      o = want ∧ accepted (auditRo want (takeAsis sch s) (bruttoSize s)) = true) ∧
    (∀ alone, ∃ t, moveToRw overhead mem extra more moreData (some (ofRw sch s)) alone = .ok (t, sch) ∧
      (if alone = true then t = s else CopyOf F sch s t)) := by
  obtain ⟨t, e, k, _⟩ := recreate h mem f
  obtain ⟨k1, k2⟩ := reload h mem f
  have hsz : 4 * (takeAsis sch s 0).lo = bruttoSize s := by
    rw [k1]; unfold bruttoSize units2bytes; rw [Nat.shiftLeft_eq, Nat.mul_comm]
  refine ⟨fun hw => ⟨t, ?_, k⟩, fun h1 h2 u o hu => ?_, fun alone => ?_⟩
  · show (if sch = want ∨ want.isNone then _ else _) = _
    rw [if_pos (by rcases hw with rfl | rfl; exact Or.inr rfl; exact Or.inl rfl)]
    show (createFromRo overhead mem s.jc s.jv (takeAsis sch s) more moreData (preBytesOf sch) extra).map _ = _
    rw [e]; rfl
  · change (if sch = want ∨ want.isNone then _ else _) = _ at hu
    rw [if_neg (by
      rintro (c | c)
      · exact h2 c.symm
      · exact h1 (Option.isNone_iff_eq_none.1 c))] at hu
    change (createFromBuffer overhead mem (takeAsis sch s) (4 * (takeAsis sch s 0).lo) more moreData extra want).map _ = _ at hu
    rw [hsz] at hu
    cases c : createFromBuffer overhead mem (takeAsis sch s) (bruttoSize s) more moreData extra want with
    | error x => rw [c] at hu; cases hu
    | ok v =>
      rw [c] at hu
      injection hu with hu
      exact ⟨(congrArg Prod.snd hu).symm, C34_load.1 v c⟩
  · cases alone with
    | true => exact ⟨s, rfl, rfl⟩
    | false =>
      refine ⟨t, ?_, k⟩
      show (createFromBuffer overhead mem (takeAsis sch s) (4 * (takeAsis sch s 0).lo) more moreData extra sch).map _ = _
      rw [k2, e]; rfl

/-- **C34 (clones of modifiable tuples, partial).** The same fields, the same junk, at least the same free space. Missing: what `CopyFits`
excludes, e.g. it needs the index limit to be at least as large as the preplaced area if the tuple has the maximal size. -/
theorem C34_clone_rw_partial {F : Fix} {sch : Option Schema} {s : RW} (h : History F sch s) {overhead extra : Nat} (mem : Memory)
    (f : CopyFits sch s overhead (headSpace s) (tailSpaceBytes s) extra) (hp : s.pivot ≤ 8191) :
    ∃ t, cloneRw overhead mem extra sch s = .ok t ∧ CopyOf F sch s t ∧ headSpace t = headSpace s ∧
      (t.lim < 65534 → tailSpaceBytes s ≤ tailSpaceBytes t) := by
  obtain ⟨t, e, k, k1, k2⟩ := recreate h mem f
  have hhp := h.made.wf.inv.hp
  refine ⟨t, e, k, ?_, k2⟩
  show t.head = s.head
  rw [k1]
  show min 8191 (s.pivot - s.head + s.head) - _ = _
  omega

/-! ## Taking read-only forms -/

theorem optimizeAll_spec {F : Fix} {sch : Option Schema} {s : RW} {srt : List Item → List Item} {gsrt : List Cell → List Cell}
    (h : History F sch s) (hs : Sorter srt) (h1 : s.jc = 0 ∨ NoNil s) (h2 : s.jv = 0 ∨ NoNilPre (schOf sch) s) (h3 : looseCount s < 256) :
    ∃ t, optimizeAll srt gsrt (schOf sch) s = .ok (decide (0 < s.jc)) t ∧ History F sch t ∧ Compacted (schOf sch) s t := by
  obtain ⟨t, e, k1, k2, k3⟩ := C17_optimize_partial (gsrt := gsrt) h hs h1 h2
  unfold looseCount Serial.indexSize at h3
  by_cases c : s.jc = 0
  · refine ⟨s, ?_, h, by rw [← k3 c]; rw [k3 c] at k2 ⊢; exact k2⟩
    unfold optimizeAll optimizeWith
    rw [if_neg (by rintro ⟨_, k | k⟩; exact k c; exact k (no_holes_no_volume h c))]
    simp only [Out.bind]
    rw [if_neg (by rintro (⟨_, k⟩ | k); omega; cases k), c]
    rfl
  · obtain ⟨u, f, e', _, _, _, l1, l2, _, _, _, l6, _⟩ := compactify_spec (guard := false) hs h.made.wf (Or.inr h1) (Or.inr h2)
    obtain ⟨m1, m2⟩ := C17_compactify_completes h hs e'
    refine ⟨u, ?_, m1, m2⟩
    unfold optimizeAll optimizeWith
    rw [if_pos ⟨rfl, Or.inl c⟩, e']
    simp only [Out.bind]
    rw [if_neg (by rintro (⟨_, k⟩ | k); omega; cases k)]

/-- **C34 (`take_weak`, refuted).** For every tuple with holes (any history; the cases where the compaction itself fails, C17, and 256 or more
fields left aside): asked not to optimize, `take_weak` optimizes, shrinks the tuple and reports invalidated iterators; asked to optimize
(the default), it leaves the tuple with its holes. Likewise for `take_managed_clone`. -/
theorem C34_take_weak_refuted {F : Fix} {sch : Option Schema} {s : RW} {srt : List Item → List Item} {gsrt : List Cell → List Cell}
    (h : History F sch s) (hs : Sorter srt) (h1 : NoNil s) (h2 : s.jv = 0 ∨ NoNilPre (schOf sch) s) (h3 : looseCount s < 256)
    (h4 : 0 < s.jc) :
    (∃ t, takeWeakWith false srt gsrt sch true s = .ok (takeAsis sch t, true) t ∧ bruttoSize t < bruttoSize s ∧ junkBytes t = 0) ∧
    takeWeakWith false srt gsrt sch false s = .ok (takeAsis sch s, false) s ∧ 0 < junkBytes s ∧
    (∀ overhead mem extra hollow r b t, takeCloneWith false srt gsrt overhead mem extra sch true hollow s = .ok (r, b) t →
      bruttoSize t < bruttoSize s) ∧
    (∀ overhead mem extra hollow r b t, takeCloneWith false srt gsrt overhead mem extra sch false hollow s = .ok (r, b) t → t = s) := by
  obtain ⟨t, e, k1, k2⟩ := optimizeAll_spec (gsrt := gsrt) h hs (Or.inr h1) h2 h3
  have hj : 0 < junkBytes s := by unfold junkBytes junkUnits units2bytes; rw [Nat.shiftLeft_eq]; omega
  have hlt : bruttoSize t < bruttoSize s := by have := k2.size; omega
  have ht : junkBytes t = 0 := by unfold junkBytes junkUnits; rw [k2.noJunk.1, k2.noJunk.2]; rfl
  rw [decide_eq_true h4] at e
  have eo : takeOptimized srt gsrt sch s = .ok (takeAsis sch t, true) t := by unfold takeOptimized; rw [e]; rfl
  refine ⟨⟨t, eo, hlt, ht⟩, rfl, hj, fun overhead mem extra hollow r b u hu => ?_, fun overhead mem extra hollow r b u hu => ?_⟩
  · change takeCloneOptimized srt gsrt overhead mem extra sch hollow s = _ at hu
    unfold takeCloneOptimized at hu
    rw [eo] at hu
    simp only [Out.bind] at hu
    cases c : takeCloneAsis overhead mem extra sch hollow t with
    | ok x => rw [c] at hu; injection hu with _ hu; rw [← hu]; exact hlt
    | error x => rw [c] at hu; cases hu
  · change (match takeCloneAsis overhead mem extra sch hollow s with
      | .ok r => .ok (r, false) s
      | .error e => .exc e s : Out (Option Managed × Bool)) = _ at hu
    cases c : takeCloneAsis overhead mem extra sch hollow s with
    | ok x => rw [c] at hu; injection hu with _ hu; exact hu.symm
    | error x => rw [c] at hu; cases hu

/-- **C34 (`move_to_ro`, and `take_weak` with the condition negated; partial).** Asked not to optimize they give the serialized form of the tuple as it
is; otherwise that of the compacted tuple. In both cases every field is kept. Missing: 256 or more fields (the index is then
sorted, C18), and the cases where the compaction fails (C17). -/
theorem C34_move_to_ro_partial {F : Fix} {sch : Option Schema} {s : RW} {srt : List Item → List Item} {gsrt : List Cell → List Cell}
    (h : History F sch s) (hs : Sorter srt) (h1 : s.jc = 0 ∨ NoNil s) (h2 : s.jv = 0 ∨ NoNilPre (schOf sch) s) (h3 : looseCount s < 256) :
    (moveToRo srt gsrt sch true s = .ok (ofRw sch s) s ∧ takeWeakWith true srt gsrt sch true s = .ok (takeAsis sch s, false) s) ∧
    ∃ t, moveToRo srt gsrt sch false s = .ok (ofRw sch t) t ∧
      takeWeakWith true srt gsrt sch false s = .ok (takeAsis sch t, decide (0 < s.jc)) t ∧
      History F sch t ∧ Compacted (schOf sch) s t := by
  obtain ⟨t, e, k1, k2⟩ := optimizeAll_spec (gsrt := gsrt) h hs h1 h2 h3
  refine ⟨⟨rfl, rfl⟩, t, ?_, ?_, k1, k2⟩
  · show (optimizeAll srt gsrt (schOf sch) s).bind _ = _
    rw [e]; rfl
  · show (optimizeAll srt gsrt (schOf sch) s).bind _ = _
    rw [e]; rfl

/-! ## Managed read-only handles -/

/-- **C34 (managed handles of external data, partial).** A managed handle is made only of data the validation accepts for the given schema, and
`tuple_bad` is thrown exactly when it rejects. Of the serialized form of any tuple any history produces it is made, and what it holds, and what
it becomes when taken over for modification, has the same fields and junk. Missing: what `CopyFits` excludes. -/
theorem C34_managed_partial {F : Fix} {sch : Option Schema} {s : RW} (h : History F sch s) {overhead extra : Nat} (mem : Memory)
    (f : CopyFits sch s overhead 0 0 extra) :
    (∀ (src : Memory) (bytes : Nat) (want : Option Schema),
      (∀ r, managedFrom overhead mem src bytes extra want = .ok r → accepted (auditRo want src bytes) = true) ∧
      (managedFrom overhead mem src bytes extra want = .error .tupleBad ↔ rejected (auditRo want src bytes) = true)) ∧
    ∃ r t, managedFrom overhead mem (takeAsis sch s) (bruttoSize s) extra sch = .ok r ∧ r.ro = takeAsis sch t ∧
      moveToRw overhead mem extra 0 0 (some r) true = .ok (t, sch) ∧ CopyOf F sch s t := by
  refine ⟨fun src bytes want => ?_, ?_⟩
  · obtain ⟨k1, k2⟩ := C34_load (overhead := overhead) (mem := mem) (src := src) (bytes := bytes) (more := 0) (moreData := 0)
      (extra := extra) (sch := want)
    rw [← k2]
    unfold managedFrom
    cases c : createFromBuffer overhead mem src bytes 0 0 extra want with
    | ok t => exact ⟨fun _ _ => k1 t c, fun k => (by cases k), fun k => (by cases k)⟩
    | error x => exact ⟨fun _ k => (by cases k), fun k => (by injection k with k; rw [k]), fun k => (by injection k with k; rw [k]; rfl)⟩
  · obtain ⟨t, e, k, _⟩ := C34_load_partial h mem f
    refine ⟨ofRw sch t, t, ?_, rfl, rfl, k⟩
    unfold managedFrom
    rw [e]; rfl

/-- **C34 (clones of managed handles, partial).** A clone without a schema, or with the schema of the source, into a compatible buffer is the
source itself; a clone with the schema of the source into another buffer has the same fields. With the condition as documented a clone for
another schema is made only if the validation accepts the data for that schema. An empty source gives an empty clone, or `tuple_hollow` if a
schema is asked for. Missing: `C34_clone_managed_refuted`. -/
theorem C34_clone_managed_partial {F : Fix} {sch : Option Schema} {s : RW} (h : History F sch s) {overhead extra : Nat} (mem : Memory)
    (f : CopyFits sch s overhead 0 0 extra) (fixed : Bool) (want : Option Schema) :
    ((want = none ∨ want = sch) → cloneManagedWith fixed overhead mem extra (some (ofRw sch s)) want true = .ok (some (ofRw sch s))) ∧
    (want = sch → s.jc = 0 → ∃ r t, cloneManagedWith fixed overhead mem extra (some (ofRw sch s)) want false = .ok (some r) ∧
      r.ro = takeAsis sch t ∧ moveToRw overhead mem extra 0 0 (some r) true = .ok (t, sch) ∧ CopyOf F sch s t) ∧
    (fixed = true → want ≠ none → want ≠ sch → ∀ compatible r,
      cloneManagedWith fixed overhead mem extra (some (ofRw sch s)) want compatible = .ok r →
      accepted (auditRo want (takeAsis sch s) (bruttoSize s)) = true) ∧
    (∀ compatible, cloneManagedWith fixed overhead mem extra none want compatible = if want = none then .ok none else .error .tupleHollow) := by
  obtain ⟨k1, _⟩ := reload h mem f
  have hsz : 4 * (takeAsis sch s 0).lo = bruttoSize s := by
    rw [k1]; unfold bruttoSize units2bytes; rw [Nat.shiftLeft_eq, Nat.mul_comm]
  have eq : ∀ c, cloneManagedWith fixed overhead mem extra (some (ofRw sch s)) want c =
      if c = true ∧ (want.isNone ∨ sch = want) then .ok (some (ofRw sch s))
      else cloneWeakWith fixed overhead mem extra (some (takeAsis sch s)) want .default := fun c => rfl
  refine ⟨fun hw => ?_, fun hw hj => ?_, fun hf h1 h2 c r hr => ?_, fun c => ?_⟩
  · rw [eq, if_pos ⟨rfl, by rcases hw with rfl | rfl; exact Or.inl rfl; exact Or.inr rfl⟩]
  · subst hw
    obtain ⟨r, t, e, k⟩ := C34_clone_partial h fixed mem f .default (Or.inr (Or.inl hj))
    refine ⟨r, t, ?_, k⟩
    rw [eq, if_neg (by rintro ⟨c, _⟩; cases c), e]
  · rw [eq, if_neg (by
      rintro ⟨_, c | c⟩
      · exact h1 (Option.isNone_iff_eq_none.1 c)
      · exact h2 c.symm)] at hr
    subst hf
    rw [C34_clone_default_repaired, if_neg h1] at hr
    rw [← hsz]
    exact (C34_clone_explicit _ _ _ _ _ _).1 r hr
  · cases want with
    | none => rfl
    | some S => rw [if_neg (by intro c; cases c)]; rfl

/-- **C34 (clones of managed handles, refuted).** The function promises a full copy with a full check against the schema unless the schema is the
same. A clone for any other schema is made without a check: here of data the validation rejects for that schema. And a
clone of a tuple with a schema into a buffer of another kind, no schema given, throws `tuple_bad`: the schema of the source is not
used. -/
theorem C34_clone_managed_refuted :
    (∃ s h b, History .code none s ∧ SchemaOk oneStretchy ∧
      weak (some (takeAsis none s)) (bruttoSize s) (some oneStretchy) .default = .error .tupleBad ∧
      cloneManagedWith false 44 (fun _ => .zero) 0 (some (ofRw none s)) (some oneStretchy) true = .ok (some h) ∧
      h.basis = some (b, some oneStretchy) ∧ b.tail < b.pivot + b.pre) ∧
    ∃ s, History .code (some oneStretchy) s ∧
      accepted (auditRo (some oneStretchy) (takeAsis (some oneStretchy) s) (bruttoSize s)) = true ∧
      cloneManagedWith false 44 (fun _ => .zero) 0 (some (ofRw (some oneStretchy) s)) none true = .ok (some (ofRw (some oneStretchy) s)) ∧
      cloneManagedWith false 44 (fun _ => .zero) 0 (some (ofRw (some oneStretchy) s)) none false = .error .tupleBad := by
  refine ⟨⟨create (fun _ => .zero) 8 0 60 [], _, _, ?_, oneStretchy_ok, ?_, rfl, rfl, ?_⟩,
    create (fun _ => .zero) 8 1 60 [.zero], ?_, by decide +kernel, rfl, ?_⟩
  · exact .of_run (mem := fun _ => .zero) (items := 8) (lim := 60) (image := []) (ops := []) (fun S h => (by cases h)) rfl (by decide) (by decide)
      (fun k g h => (by cases h)) (by simp) trivial rfl
  · exact ((C34_weak _ _ _ _).1 (by decide)).2.2.2 ⟨by decide +kernel, _, rfl, by decide +kernel⟩
  · decide +kernel
  · refine .of_run (mem := fun _ => .zero) (items := 8) (lim := 60) (image := [.zero]) (ops := []) (fun S h => ?_) (by decide +kernel) (by decide)
      (by decide) (fun k g h hk => ?_) (by simp) trivial rfl
    · injection h with h
      rw [← h]; exact oneStretchy_ok
    · have : k = 0 := by have hk : k < 1 := hk; omega
      subst this; rfl
  · have e : ∀ s, cloneManagedWith false 44 (fun _ => .zero) 0 (some (ofRw (some oneStretchy) s)) none false =
        cloneWeakWith false 44 (fun _ => .zero) 0 (some (takeAsis (some oneStretchy) s)) none .enforce := fun s => rfl
    rw [e]
    exact (C34_clone_explicit _ _ _ _ _ _).2.1.2 (by decide +kernel)

/-- **C34 (taking a clone, partial).** `take_managed_clone_asis(true)` gives a hollow handle exactly for a tuple with neither fields nor
payload; otherwise, and without that request always, it gives a clone of the serialized form. Missing: what the clones themselves
violate. -/
theorem C34_take_clone_partial {sch : Option Schema} {s : RW} (hs : s.tail - s.head + 1 ≤ 65534) (hi : s.pivot - s.head ≤ 8191)
    (overhead extra : Nat) (mem : Memory) (hollow : Bool) :
    (takeCloneAsis overhead mem extra sch hollow s = .ok none ↔ hollow = true ∧ s.tail ≤ s.head) ∧
    (¬ (hollow = true ∧ s.tail ≤ s.head) →
      takeCloneAsis overhead mem extra sch hollow s = cloneWeakWith false overhead mem extra (some (takeAsis sch s)) sch .default) := by
  obtain ⟨k1, _⟩ := takeAsis_header (sch := sch) hs hi
  have r : (roEmpty (takeAsis sch s) = true) ↔ s.tail ≤ s.head := by
    unfold roEmpty
    rw [k1, decide_eq_true_eq]
    omega
  have n : ∀ m mode, cloneWeakWith false overhead mem extra (some m) sch mode ≠ .ok none := by
    intro m mode e
    have k : ∀ (x : Except Exc RW), x.map (fun t => some (ofRw sch t)) ≠ .ok none := fun x e => by
      cases x with
      | ok t => injection e with e; cases e
      | error t => cases e
    unfold cloneWeakWith at e
    dsimp only at e
    by_cases c : apply mode (if (false : Bool) = true then sch.isSome else sch.isNone) = true
    · rw [if_pos c] at e; exact k _ e
    · rw [if_neg c] at e; exact k _ e
  unfold takeCloneAsis
  by_cases c : hollow = true ∧ s.tail ≤ s.head
  · rw [if_pos (show hollow = true ∧ roEmpty (takeAsis sch s) = true from ⟨c.1, r.2 c.2⟩)]
    exact ⟨⟨fun _ => c, fun _ => rfl⟩, fun k => absurd c k⟩
  · rw [if_neg (show ¬ (hollow = true ∧ roEmpty (takeAsis sch s) = true) from fun k => c ⟨k.1, r.1 k.2⟩)]
    exact ⟨⟨fun k => absurd k (n _ _), fun k => absurd k c⟩, fun _ => rfl⟩

/-- The tuple of `goodOps`, with a hole and four fields, meets the hypotheses of the theorems above. -/
example : ∃ s, History .code none s ∧ s.jc = 1 ∧ looseCount s = 4 ∧ NoNil s ∧ NoNilPre (schOf none) s ∧ CopyFits none s 44 0 0 0 ∧
    CopyFits none s 44 (headSpace s) (tailSpaceBytes s) 0 := by
  obtain ⟨s, hr, hp⟩ := run_decide (F := .code) (s := fresh 8 60) (ops := goodOps) (fun s => decide (s.jc = 1 ∧ looseCount s = 4 ∧
    (List.range 8).all (fun a => (cellGenus (s.mem a)).isInplaced || decide (a < s.head ∨ (s.mem a).lo ≠ 0)) = true)) (by decide +kernel)
  obtain ⟨p1, p2, p3⟩ := of_decide_eq_true hp
  have hH : History .code none s := .of_run (mem := fun _ => .zero) (items := 8) (lim := 60) (image := []) (ops := goodOps)
    (fun S h => (by cases h)) rfl (by decide) (by decide) (fun k g h => (by cases h)) (opOk_of (by decide +kernel))
    (runBenign_of (by decide +kernel)) hr
  have hS := (run_spec goodOps (create_wf (σ := noPre) (mem := fun _ => .zero) (items := 8) (pre := 0) (lim := 60) (image := []) rfl (by decide) (by decide)
    (fun _ _ h => by cases h) (fun _ _ h => by cases h)) (opOk_of (by decide +kernel))
    (runBenign_of (by decide +kernel))).1 s hr
  have hpv : s.pivot = 8 := hS.pivot
  have hl : s.lim = 60 := hS.lim
  have htl := hH.made.wf.inv.tl
  have hbuf : (44 : Nat) + 4 * 8191 + 4 * 65535 + 0 ≤ bufLimit := by decide
  refine ⟨s, hH, p1, p2, fun a ha hi => ?_, fun k g _ hk => (by cases hk), ?_, ?_⟩
  · have a1 := ha.1
    have a2 := ha.2.1
    have k := List.all_eq_true.1 p3 a (List.mem_range.2 (by omega))
    rw [hi, Bool.false_or, decide_eq_true_eq] at k
    rcases k with k | k
    · omega
    · exact k
  · refine ⟨?_, by omega, by omega, by omega, ?_, by omega, hbuf⟩
    · show _ + 0 ≤ _; omega
    · show _ + _ + 0 ≤ _; omega
  · have ht : tailSpaceBytes s = 4 * (s.lim - s.tail) := by
      unfold tailSpaceBytes units2bytes tailSpaceUnits; rw [Nat.shiftLeft_eq, Nat.mul_comm]
    have hhp := hH.made.wf.inv.hp
    refine ⟨?_, by omega, ?_, by omega, ?_, ?_, hbuf⟩
    · show _ + 0 ≤ _; omega
    · show s.head ≤ _; omega
    · show _ + _ + 0 ≤ _; omega
    · show min 8191 (_ + s.head) + _ ≤ _; omega

end Fptu.Props
