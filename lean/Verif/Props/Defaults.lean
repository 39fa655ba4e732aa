import Verif.Model.Defaults
import Verif.Props.Serial
import Verif.Props.Iterate
/-!
# C94, C95: scales, default settings
-/
namespace Fptu.Props
open Fptu Fptu.Gear Fptu.Rw Fptu.Audit Fptu.Serial Fptu.Defaults

/-- The table of scales: number, fields, bytes of data. -/
def scaleTable : List (Nat × Nat × Nat) := [(0, 32, 1023), (1, 128, 4095), (2, 512, 16383), (3, 2048, 65534)]

/-- **C94 (creation, partial).** At every scale but the largest, with a preplaced area of at most 16384 bytes (no schema can have
more, C37) of whole units, a tuple can be made, in every buffer the allocator may hand out. It holds no loose fields, and any list of at most as many values as
the scale has fields, which needs at most the bytes of the scale, can be inserted without an exception.
Missing: the largest scale (`C94_extreme`, `C94_extreme_refuted`) and the rounding of the preplaced area (C41). -/
theorem C94_create_partial {overhead extra preBytes k items data : Nat} {mem : Memory} {image : List Cell} {F : Fix}
    (hk : (k, items, data) ∈ scaleTable) (hp : preBytes ≤ 16384) (hw : preBytes % 4 = 0) (hb : overhead + extra ≤ 400000) :
    ∃ s, createScaled overhead mem k preBytes extra image = some (.ok s) ∧ fieldsOf s = 0 ∧ s.jc = 0 ∧ s.jv = 0 ∧
      s.head = items ∧ s.pivot = items ∧ s.tail = items + preBytes / 4 ∧
      ∀ ops : List (Op × Nat), (∀ p ∈ ops, InsertOf p.1 p.2) → ops.length ≤ items → 4 * (ops.map Prod.snd).sum ≤ data →
        AllOk F s (ops.map Prod.fst) := by
  have hl : (Grow.scales[k]? : Option (Nat × Nat)) = some (items, data) ∧ items ≤ 2048 ∧ data ≤ 65534 := by
    have : ∀ x ∈ scaleTable, Grow.scales[x.1]? = some (x.2.1, x.2.2) ∧ x.2.1 ≤ 2048 ∧ x.2.2 ≤ 65534 := by decide
    exact this _ hk
  obtain ⟨hl, hi, hd⟩ := hl
  have hbl : bufLimit = 524272 := rfl
  obtain ⟨s, h1, h2, h3, h4, h5, _, _, h8⟩ := C41_create_partial (overhead := overhead) (items := items) (data := data)
    (preBytes := preBytes) (extra := extra) (mem := mem) (image := image) (F := F) (by omega) (by omega) (by omega) hw (by omega)
  obtain ⟨_, _, _, g1, g2, _⟩ := C41_limits h1
  refine ⟨s, ?_, h2, h3, h4, g1, g2, by omega, h8⟩
  unfold createScaled
  rw [hl]
  exact congrArg some h1

/-- The smallest scale in a program with a schema of 8 preplaced bytes. -/
example : ∃ s, createScaled 44 (fun _ => .zero) 0 8 20 [.zero, .zero] = some (.ok s) ∧ s.lim = 295 ∧ s.tail = 34 := ⟨_, rfl, rfl, rfl⟩

/-- **C94 (the largest scale).** Without a preplaced area a tuple of the largest scale can be made, in every buffer the allocator
may hand out: it has room for 8191 fields and for 229372 bytes of data, not for the 262136 bytes of the table of scales. -/
theorem C94_extreme {overhead extra : Nat} {mem : Memory} (hb : overhead + extra ≤ 229372) :
    ∃ s, createScaled overhead mem 4 0 extra [] = some (.ok s) ∧ s.head = 8191 ∧ s.pivot = 8191 ∧ s.tail = 8191 ∧
      s.jc = 0 ∧ s.jv = 0 ∧ tailSpaceBytes s = 229372 := by
  have hbl : bufLimit = 524272 := rfl
  refine ⟨create mem 8191 0 65534 [], ?_, rfl, rfl, Nat.add_zero _, rfl, rfl, by show units2bytes (65534 - (8191 + 0)) = _; decide +kernel⟩
  have e1 : estimate overhead 8191 262136 0 false = .ok (overhead + 32764 + 262136) := by
    unfold estimate Audit.maxFields maxBytesNetto
    rw [if_neg (by omega), if_neg (by omega), if_neg (by decide)]
  have e2 : estimate overhead 8191 0 0 false = .ok (overhead + 32764 + 0) := by
    unfold estimate Audit.maxFields maxBytesNetto
    rw [if_neg (by omega), if_neg (by omega), if_neg (by decide)]
  show some (createNew overhead mem 8191 262136 0 extra []) = _
  congr 1
  unfold createNew
  rw [e1]
  show construct overhead mem _ 8191 0 [] = _
  unfold construct
  rw [e2]
  show (if _ then _ else _) = _
  rw [if_neg (by omega)]
  have : min maxUnitsNetto ((overhead + 32764 + 262136 + extra - overhead) / 4) = 65534 := by
    show min 65534 _ = _; omega
  rw [this]; rfl

/-- The size of the buffer of a usual build, and a buffer with room to spare. -/
example : ∃ s, createScaled 44 (fun _ => .zero) 4 0 1000 [] = some (.ok s) ∧ s.tail = 8191 := ⟨_, rfl, rfl⟩

/-- **C94 (refuted).** With any schema that has a preplaced field, no tuple of the largest scale can be made: the constructor throws
`tuple_too_large` in every case, although the space for such a tuple is estimated without any objection and would fit. -/
theorem C94_extreme_refuted {overhead extra preBytes : Nat} {mem : Memory} {image : List Cell} (h1 : 1 ≤ preBytes) (h2 : preBytes ≤ 16384) :
    createScaled overhead mem 4 preBytes extra image = some (.error .tupleTooLarge) ∧
      spaceScaled overhead 4 preBytes = some (.ok (overhead + 4 * 8191 + 4 * 65534)) := by
  constructor
  · show some (createNew overhead mem 8191 262136 preBytes extra image) = _
    unfold createNew estimate Audit.maxFields maxBytesNetto
    rw [if_neg (by omega), if_pos (by omega)]; rfl
  · show some (estimate overhead 8191 (262136 - min 262136 preBytes) preBytes false) = _
    unfold estimate Audit.maxFields maxBytesNetto
    rw [if_neg (by omega), if_neg (by omega), if_neg (by decide)]
    congr 2
    omega

/-- **C94 (estimate).** The space estimated for a scale is what the fields of the scale and the larger of its data and the preplaced area take, rounded up
to whole units and no more; it grows with the scale. -/
theorem C94_estimate {overhead k preBytes : Nat} (hk : k < 5) (hp : preBytes ≤ 16384) :
    ∃ n items data, spaceScaled overhead k preBytes = some (.ok n) ∧ Grow.scales[k]? = some (items, data) ∧
      overhead + 4 * items + max data preBytes ≤ n ∧ n ≤ overhead + 4 * items + max data preBytes + 3 ∧
      (k + 1 < 5 → ∃ m, spaceScaled overhead (k + 1) preBytes = some (.ok m) ∧ n < m) := by
  have key : ∀ items data, items ≤ 8191 → data ≤ 262136 → Grow.scaleSpace overhead preBytes (items, data) =
      .ok (overhead + items * 4 + (max data preBytes + 3) / 4 * 4) := by
    intro items data h1 h2
    unfold Grow.scaleSpace estimate Audit.maxFields maxBytesNetto
    rw [if_neg (by omega), if_neg (by simp only; omega), if_neg (by decide)]
    congr 1
    simp only
    omega
  have all : ∀ (j items data : Nat), Grow.scales[j]? = some (items, data) → items ≤ 8191 ∧ data ≤ 262136 := by
    intro j items data h
    have hm := List.mem_of_getElem? h
    have : ∀ x ∈ Grow.scales, x.1 ≤ 8191 ∧ x.2 ≤ 262136 := by decide
    exact this _ hm
  have sp : ∀ (j items data : Nat), Grow.scales[j]? = some (items, data) →
      spaceScaled overhead j preBytes = some (.ok (overhead + items * 4 + (max data preBytes + 3) / 4 * 4)) := by
    intro j items data h
    unfold spaceScaled
    rw [h]
    exact congrArg some (key _ _ (all _ _ _ h).1 (all _ _ _ h).2)
  have t : ∀ j < 5, ∃ i d, Grow.scales[j]? = some (i, d) ∧ (j + 1 < 5 → ∃ i' d', Grow.scales[j+1]? = some (i', d') ∧ i < i' ∧ d ≤ d') := by
    intro j hj
    have : j = 0 ∨ j = 1 ∨ j = 2 ∨ j = 3 ∨ j = 4 := by omega
    rcases this with h | h | h | h | h <;> subst h
    · exact ⟨_, _, rfl, fun _ => ⟨_, _, rfl, by decide, by decide⟩⟩
    · exact ⟨_, _, rfl, fun _ => ⟨_, _, rfl, by decide, by decide⟩⟩
    · exact ⟨_, _, rfl, fun _ => ⟨_, _, rfl, by decide, by decide⟩⟩
    · exact ⟨_, _, rfl, fun _ => ⟨_, _, rfl, by decide, by decide⟩⟩
    · exact ⟨_, _, rfl, fun h => absurd h (by omega)⟩
  obtain ⟨i, d, e, n⟩ := t k hk
  refine ⟨_, i, d, sp _ _ _ e, e, by omega, by omega, fun h => ?_⟩
  obtain ⟨i', d', e', l1, l2⟩ := n h
  exact ⟨_, sp _ _ _ e', by omega⟩

example : spaceScaled 44 0 8 = some (.ok 1196) ∧ spaceScaled 44 1 8 = some (.ok 4652) := ⟨rfl, rfl⟩

/-- The table of additional room: number, fields, bytes of data. -/
def moreTable : List (Nat × Nat × Nat) := [(0, 32, 895), (1, 128, 3583), (2, 512, 14335), (3, 2048, 57343), (4, 8191, 229372)]

/-- **C94 (opening, partial).** The serialized form of any tuple of any history opens for changing at a scale, when what it holds, the room of the
scale and the preplaced area are together within the limit: the fields are the same, and there is room for as many more
fields and bytes as the scale says. Missing: tuples for which the sum exceeds the limit (`C94_open_refuted`). -/
theorem C94_open_partial {F : Fix} {sch : Option Schema} {s : RW} (h : History F sch s) {k items data overhead extra : Nat} {mem : Memory}
    (hk : (k, items, data) ∈ moreTable) (hmax : s.pivot - s.head ≤ 8191) (hsize : s.tail - s.head + 1 ≤ 65534)
    (hpre : 4 * (s.tail - s.pivot) + data + preBytesOf sch ≤ 262136)
    (hroom : min 8191 (s.pivot - s.head + items) + (s.tail - s.pivot) ≤ 65534) (hb : overhead + extra ≤ 229364) :
    ∃ t, openScaled overhead mem s.jc s.jv (takeAsis sch s) k (preBytesOf sch) extra = some (.ok t) ∧
      History F sch t ∧ SameFields (schOf sch) s t ∧ t.jc = s.jc ∧ t.jv = s.jv ∧
      t.head = min 8191 (s.pivot - s.head + items) - (s.pivot - s.head) ∧ (t.lim < 65534 → data ≤ tailSpaceBytes t) := by
  have hl : scalesMore[k]? = some (items, data) ∧ items ≤ 8191 ∧ data ≤ 229372 := by
    have : ∀ x ∈ moreTable, scalesMore[x.1]? = some (x.2.1, x.2.2) ∧ x.2.1 ≤ 8191 ∧ x.2.2 ≤ 229372 := by decide
    exact this _ hk
  obtain ⟨hl, hi, hd⟩ := hl
  have hbl : bufLimit = 524272 := rfl
  obtain ⟨t, g1, g2, _, g4, g5, g6, g7, g8⟩ := C19_recreated_partial h hmax hsize (overhead := overhead) (more := items) (moreData := data)
    (extra := extra) (mem := mem) hi (by omega) (by omega) hroom (by omega)
  refine ⟨t, ?_, g2, g6, g4, g5, g7, g8⟩
  unfold openScaled
  rw [hl]
  exact congrArg some g1

/-- **C94 (refuted).** At the largest scale no tuple opens for changing that holds, with the preplaced area counted once more, above 32764 bytes:
`tuple_too_large`, although the constructor is asked for room only up to the maximum and without a scale the same tuple opens. -/
theorem C94_open_refuted {F : Fix} {sch : Option Schema} {s : RW} (h : History F sch s) (hmax : s.pivot - s.head ≤ 8191)
    (hsize : s.tail - s.head + 1 ≤ 65534) (hpb : 1 ≤ preBytesOf sch) (hpm : preBytesOf sch ≤ 16384)
    (hbig : 32764 < 4 * (s.tail - s.pivot) + preBytesOf sch) (overhead extra : Nat) (mem : Memory) :
    openScaled overhead mem s.jc s.jv (takeAsis sch s) 4 (preBytesOf sch) extra = some (.error .tupleTooLarge) := by
  obtain ⟨k1, k2, _, _⟩ := takeAsis_header (sch := sch) hsize hmax
  have k2 : Nested.indexSize (takeAsis sch s 0) = s.pivot - s.head := by show _ / 8 = _; omega
  have w := h.made.wf
  have hp := w.inv.hp
  have hb := w.inv.bt
  have hbase : s.base = s.pivot + s.pre := rfl
  have hl : scalesMore[4]? = some (8191, 229372) := by decide
  unfold openScaled
  rw [hl]
  refine congrArg some ?_
  simp only
  unfold createFromRo estimateRo estimate Audit.maxFields maxBytesNetto
  have c : min (4 * 65534) (4 * (s.tail - s.head + 1 - 1 - (s.pivot - s.head)) + 229372) > 4 * 65534 - preBytesOf sch := by
    have hu : s.tail - s.head + 1 - 1 - (s.pivot - s.head) = s.tail - s.pivot := by omega
    rw [hu]
    exact lt_min (by omega) (by omega)
  rw [k1, k2, if_neg (by omega), if_neg (by omega), if_neg (by omega), if_pos (.inl c)]
  rfl

/-- A tuple with a schema of 64 preplaced bytes and one value of 40000 bytes: it opens at the scale below, but not at the largest. -/
theorem C94_open_witness_refuted (F : Fix) : ∃ s, History F (some binSchema) s ∧
    (∃ t, openScaled 44 (fun _ => .zero) s.jc s.jv (takeAsis (some binSchema) s) 3 64 0 = some (.ok t) ∧ SameFields (schOf (some binSchema)) s t) ∧
    openScaled 44 (fun _ => .zero) s.jc s.jv (takeAsis (some binSchema) s) 4 64 0 = some (.error .tupleTooLarge) := by
  obtain ⟨s, h1, h2, h3, h4, h5, h6, h7, h8⟩ := one_nested F (sch := some binSchema) (n := 10000) (pre := 16) (items := 0)
    (image := List.replicate 16 .zero)
    (fun S h => by
      injection h with h
      subst h
      exact ⟨by decide +kernel, by decide +kernel, by decide +kernel⟩)
    (fun k => by
      unfold schOf Schema.sch
      simp only
      rw [show binSchema.tokens.filter isStretchyPre = [] by decide +kernel]; rfl) rfl rfl (by omega) (by omega)
  have hpb : preBytesOf (some binSchema) = 64 := by decide +kernel
  refine ⟨s, h2, ?_, ?_⟩
  · obtain ⟨t, g1, _, g2, _⟩ := C94_open_partial h2 (k := 3) (items := 2048) (data := 57343) (overhead := 44) (extra := 0)
      (mem := fun _ => .zero) (by decide) (by omega) (by omega) (by omega) (by omega) (by omega)
    rw [hpb] at g1
    exact ⟨t, g1, g2⟩
  · have := C94_open_refuted h2 (by omega) (by omega) (by omega) (by omega) (by omega) 44 0 (fun _ => .zero)
    rw [hpb] at this
    exact this

/-! ## C95 -/

/-- The settings a program has made: those of its last `setup`, a zero tag standing for the one of the library. -/
def settingsOf (dflt : Nat) : List Call → Made → Made
  | [], m => m
  | .setup scale schema tag :: cs, _ => settingsOf dflt cs ⟨scale, schema, if tag = 0 then dflt else tag⟩
  | _ :: cs, m => settingsOf dflt cs m

/-- The tuples a program makes, each with the settings of the moment. -/
def madeBy (dflt : Nat) : List Call → Made → List Made
  | [], _ => []
  | .setup scale schema tag :: cs, _ => madeBy dflt cs ⟨scale, schema, if tag = 0 then dflt else tag⟩
  | .byDefault :: cs, m => m :: madeBy dflt cs m
  | .atScale scale :: cs, m => ⟨scale, m.schema, m.tag⟩ :: madeBy dflt cs m
  | .explicit e :: cs, m => e :: madeBy dflt cs m
  | .use _ :: cs, m => madeBy dflt cs m

/-- **C95 (settings).** Whatever a program does, every tuple has and keeps the scale, schema and allocator that were set when it was made, or
those it was given explicitly: a later `setup` does not touch existing tuples; and the settings are those of the last `setup`. -/
theorem C95_settings {dflt : Nat} {cs : List Call} {L L' : Lib} (h : runFrom dflt L cs = some L') :
    L'.now = settingsOf dflt cs L.now ∧ L'.tuples = L.tuples ++ madeBy dflt cs L.now := by
  induction cs generalizing L with
  | nil => injection h with h; subst h; exact ⟨rfl, (List.append_nil _).symm⟩
  | cons c cs ih =>
    unfold runFrom at h
    cases hs : stepLib dflt L c with
    | none => rw [hs] at h; cases h
    | some M =>
      rw [hs] at h
      obtain ⟨i1, i2⟩ := ih h
      cases c with
      | setup a b t =>
        simp only [stepLib] at hs
        split_ifs at hs with q1 q2 <;> injection hs with hs <;> subst hs
        · exact ⟨by rw [i1]; simp only [settingsOf, if_neg q2], by rw [i2]; simp only [madeBy, if_neg q2]⟩
        · have q2 : t = 0 := by omega
          exact ⟨by rw [i1]; simp only [settingsOf, if_pos q2], by rw [i2]; simp only [madeBy, if_pos q2]⟩
      | byDefault =>
        simp only [stepLib] at hs
        split_ifs at hs with q1
        injection hs with hs; subst hs
        exact ⟨i1, by rw [i2]; simp only [madeBy, List.append_assoc, List.singleton_append]⟩
      | atScale a =>
        simp only [stepLib] at hs
        split_ifs at hs with q1
        injection hs with hs; subst hs
        exact ⟨i1, by rw [i2]; simp only [madeBy, List.append_assoc, List.singleton_append]⟩
      | explicit m =>
        simp only [stepLib] at hs
        split_ifs at hs with q1
        injection hs with hs; subst hs
        exact ⟨i1, by rw [i2]; simp only [madeBy, List.append_assoc, List.singleton_append]⟩
      | use i =>
        simp only [stepLib] at hs
        split at hs
        · injection hs with hs; subst hs; exact ⟨i1, i2⟩
        · split_ifs at hs
          injection hs with hs; subst hs; exact ⟨i1, i2⟩

/-- Two tuples under different settings, and one at a scale. -/
example : (runFrom 7 (start 7) [.byDefault, .setup 2 (some 1) 0, .byDefault, .atScale 4]).map Lib.tuples =
    some [⟨0, none, 7⟩, ⟨2, some 1, 7⟩, ⟨4, some 1, 7⟩] := by decide

/-- The schemas a program hands over to `setup`. -/
def handed : List Call → List Nat
  | [] => []
  | .setup _ (some k) _ :: cs => k :: handed cs
  | _ :: cs => handed cs

/-- Every schema destroyed was handed over to `setup` before. -/
theorem dead_handed {dflt : Nat} {cs : List Call} {L L' : Lib} (h : runFrom dflt L cs = some L') {k : Nat} (hk : k ∈ L'.dead) :
    k ∈ L.dead ∨ L.now.schema = some k ∨ k ∈ handed cs := by
  induction cs generalizing L with
  | nil => injection h with h; subst h; exact .inl hk
  | cons c cs ih =>
    unfold runFrom at h
    cases hs : stepLib dflt L c with
    | none => rw [hs] at h; cases h
    | some M =>
      rw [hs] at h
      have i := ih h
      cases c with
      | setup a b t =>
        simp only [stepLib] at hs
        split_ifs at hs with q1 q2 <;> injection hs with hs <;> subst hs
        all_goals
          rcases i with i | i | i
          · rcases List.mem_append.mp i with i | i
            · unfold replaced at i
              split at i
              · cases i
              · rename_i j hj
                split_ifs at i with q
                · cases i
                · rw [List.mem_singleton] at i; subst i; exact .inr (.inl hj)
            · exact .inl i
          · have i : b = some k := i
            subst i; exact .inr (.inr List.mem_cons_self)
          · refine .inr (.inr ?_)
            cases b with
            | none => exact i
            | some j => exact List.mem_cons_of_mem _ i
      | byDefault =>
        simp only [stepLib] at hs
        split_ifs at hs with q1
        injection hs with hs; subst hs; exact i
      | atScale a =>
        simp only [stepLib] at hs
        split_ifs at hs with q1
        injection hs with hs; subst hs; exact i
      | explicit m =>
        simp only [stepLib] at hs
        split_ifs at hs with q1
        injection hs with hs; subst hs; exact i
      | use j =>
        simp only [stepLib] at hs
        split at hs
        · injection hs with hs; subst hs; exact i
        · split_ifs at hs
          injection hs with hs; subst hs; exact i

/-- The default schema itself always exists. -/
theorem now_alive {dflt : Nat} {cs : List Call} {L L' : Lib} (h : runFrom dflt L cs = some L') (hL : exists? L L.now.schema = true) :
    exists? L' L'.now.schema = true := by
  induction cs generalizing L with
  | nil => injection h with h; subst h; exact hL
  | cons c cs ih =>
    unfold runFrom at h
    cases hs : stepLib dflt L c with
    | none => rw [hs] at h; cases h
    | some M =>
      rw [hs] at h
      refine ih h ?_
      cases c with
      | setup a b t =>
        simp only [stepLib] at hs
        split_ifs at hs with q1 q2 <;> injection hs with hs <;> subst hs
        all_goals
          cases b with
          | none => rfl
          | some j =>
            have q1 : (!L.dead.contains j) = true := q1
            show (!(replaced L.now.schema (some j) ++ L.dead).contains j) = true
            unfold replaced
            split
            · exact q1
            · split_ifs with q
              · exact q1
              · rename_i k _
                have : ¬ j = k := fun e => q (by rw [e])
                simp [this] at q1 ⊢
                exact q1
      | byDefault =>
        simp only [stepLib] at hs
        split_ifs at hs with q1
        injection hs with hs; subst hs; exact hL
      | atScale a =>
        simp only [stepLib] at hs
        split_ifs at hs with q1
        injection hs with hs; subst hs; exact hL
      | explicit m =>
        simp only [stepLib] at hs
        split_ifs at hs with q1
        injection hs with hs; subst hs; exact hL
      | use j =>
        simp only [stepLib] at hs
        split at hs
        · injection hs with hs; subst hs; exact hL
        · split_ifs at hs
          injection hs with hs; subst hs; exact hL

/-- No call of `setup`. -/
def noSetup : List Call → Bool
  | [] => true
  | .setup .. :: _ => false
  | _ :: cs => noSetup cs

/-- The schemas given explicitly. -/
def given : List Call → List Nat
  | [] => []
  | .explicit ⟨_, some k, _⟩ :: cs => k :: given cs
  | _ :: cs => given cs

theorem alive_run {dflt : Nat} {cs : List Call} {L : Lib} (hn : noSetup cs = true) (hnow : exists? L L.now.schema = true)
    (ht : ∀ m ∈ L.tuples, exists? L m.schema = true) (hg : ∀ k ∈ given cs, k ∉ L.dead) : ∃ L', runFrom dflt L cs = some L' := by
  induction cs generalizing L with
  | nil => exact ⟨L, rfl⟩
  | cons c cs ih =>
    have add : ∀ m : Made, exists? L m.schema = true → (∀ k ∈ given cs, k ∉ L.dead) → noSetup cs = true →
        ∃ L', runFrom dflt { L with tuples := L.tuples ++ [m] } cs = some L' := by
      intro m hm hg hn
      refine ih hn hnow ?_ hg
      intro x hx
      rcases List.mem_append.mp hx with hx | hx
      · exact ht x hx
      · rw [List.mem_singleton] at hx; subst hx; exact hm
    unfold runFrom
    cases c with
    | setup a b t => cases hn
    | byDefault =>
      simp only [stepLib]
      rw [if_pos hnow]
      exact add _ hnow hg hn
    | atScale a =>
      simp only [stepLib]
      rw [if_pos hnow]
      exact add ⟨a, L.now.schema, L.now.tag⟩ hnow hg hn
    | explicit m =>
      obtain ⟨a, b, t⟩ := m
      have he : exists? L b = true := by
        cases b with
        | none => rfl
        | some k =>
          have : k ∉ L.dead := hg k List.mem_cons_self
          show (!L.dead.contains k) = true
          simpa using this
      simp only [stepLib]
      rw [if_pos he]
      refine add ⟨a, b, t⟩ he (fun k hk => hg k ?_) hn
      cases b with
      | none => exact hk
      | some j => exact List.mem_cons_of_mem _ hk
    | use i =>
      simp only [stepLib]
      cases hi : L.tuples[i]? with
      | none => exact ih hn hnow ht hg
      | some m =>
        simp only
        rw [if_pos (ht m (List.mem_of_getElem? hi))]
        exact ih hn hnow ht hg

/-- **C95 (lifetime, partial).** When a program calls `setup` before it makes any tuple, and never hands over a schema that is destroyed, no operation looks into a destroyed schema, whatever tuples it makes and uses in whatever order: with the settings of the moment, at a scale, or
with schemas of its own that are not handed over. Missing: programs that change the settings later (`C95_lifetime_refuted`). -/
theorem C95_lifetime_partial {dflt : Nat} {a b : List Call} {L : Lib} (ha : runFrom dflt (start dflt) a = some L) (hL : L.tuples = [])
    (hn : noSetup b = true) (hg : ∀ k ∈ given b, k ∉ handed a) :
    ∃ L', runFrom dflt (start dflt) (a ++ b) = some L' ∧ L'.now = L.now := by
  have hd : ∀ k ∈ given b, k ∉ L.dead := by
    intro k hk hd
    rcases dead_handed ha hd with h | h | h
    · cases h
    · cases h
    · exact hg k hk h
  obtain ⟨L', e⟩ := alive_run (dflt := dflt) hn (now_alive ha rfl) (by rw [hL]; intro m h; cases h) hd
  have app : ∀ (a : List Call) (M : Lib), runFrom dflt M a = some L → runFrom dflt M (a ++ b) = some L' := by
    intro a
    induction a with
    | nil => intro M h; injection h with h; subst h; exact e
    | cons c a ih =>
      intro M h
      unfold runFrom at h
      show (stepLib dflt M c).bind _ = _
      cases hc : stepLib dflt M c with
      | none => rw [hc] at h; cases h
      | some N => rw [hc] at h; exact ih N h
  refine ⟨L', app a _ ha, ?_⟩
  rw [(C95_settings e).1]
  have : ∀ (b : List Call) (m : Made), noSetup b = true → settingsOf dflt b m = m := by
    intro b
    induction b with
    | nil => intro m _; rfl
    | cons c b ih =>
      intro m h
      cases c with
      | setup => cases h
      | byDefault => exact ih m h
      | atScale => exact ih m h
      | explicit => exact ih m h
      | use => exact ih m h
  exact this b _ hn

/-- Two calls of `setup`, then tuples with the second schema and with one of the program's own. -/
example : ∃ L, runFrom 7 (start 7) [.setup 1 (some 1) 0, .setup 2 (some 2) 0] = some L ∧ L.dead = [1] ∧
    (runFrom 7 L [.byDefault, .explicit ⟨0, some 9, 7⟩, .use 0, .use 1]).isSome = true := ⟨_, rfl, rfl, rfl⟩

/-- **C95 (refuted).** A tuple made with the default schema does not survive the next `setup` with another schema, or with none: the schema is destroyed
while the tuple keeps the pointer, and the next operation on the tuple that looks into its schema uses freed memory. So in every state and for every
default schema. -/
theorem C95_lifetime_refuted {dflt : Nat} {L : Lib} {k scale tag : Nat} {schema : Option Nat} (h : L.now.schema = some k) (hk : k ∉ L.dead)
    (hn : schema ≠ some k) (he : exists? L schema = true) :
    (∃ M, runFrom dflt L [.byDefault, .setup scale schema tag] = some M ∧ M.tuples[L.tuples.length]? = some L.now) ∧
    runFrom dflt L [.byDefault, .setup scale schema tag, .use L.tuples.length] = none ∧
    (∃ M, runFrom dflt L [.byDefault, .use L.tuples.length] = some M) := by
  have e1 : exists? L L.now.schema = true := by
    rw [h]; show (!L.dead.contains k) = true; simpa using hk
  have e2 : exists? { L with tuples := L.tuples ++ [L.now] } schema = true := by
    cases schema with
    | none => rfl
    | some j => exact he
  have s1 : stepLib dflt L .byDefault = some { L with tuples := L.tuples ++ [L.now] } := by
    simp only [stepLib]; rw [if_pos e1]
  have g : (L.tuples ++ [L.now])[L.tuples.length]? = some L.now := by simp
  have s2 : stepLib dflt { L with tuples := L.tuples ++ [L.now] } (.setup scale schema tag) =
      some { now := ⟨scale, schema, if tag ≠ 0 then tag else dflt⟩, dead := replaced L.now.schema schema ++ L.dead, tuples := L.tuples ++ [L.now] } := by
    simp only [stepLib]; rw [if_pos e2]
  have r : replaced L.now.schema schema = [k] := by
    rw [h]; show (if schema = some k then [] else [k]) = _; rw [if_neg hn]
  refine ⟨⟨{ now := ⟨scale, schema, if tag ≠ 0 then tag else dflt⟩, dead := replaced L.now.schema schema ++ L.dead, tuples := L.tuples ++ [L.now] }, ?_, ?_⟩, ?_, ⟨{ L with tuples := L.tuples ++ [L.now] }, ?_⟩⟩
  · simp only [runFrom, s1, s2, Option.bind_some]
  · exact g
  · simp only [runFrom, s1, s2, Option.bind_some]
    simp only [stepLib, g]
    rw [if_neg]
    · rfl
    · rw [r, h]
      show ¬ (!([k] ++ L.dead).contains k) = true
      simp
  · simp only [runFrom, s1, Option.bind_some]
    simp only [stepLib, g]
    rw [if_pos]
    · rfl
    · exact e1

/-- The whole program from the start. -/
example : runFrom 7 (start 7) [.setup 0 (some 1) 0, .byDefault, .use 0, .setup 0 (some 2) 0, .use 0] = none := by decide

/-- **C95 (walk, partial).** The loop over the fields of a read-only tuple, without naming a schema, stays inside the tuple and visits each field once, as long as
the tuple has room for the preplaced area of the default schema - in particular when it was made with that schema. Missing: tuples made with another schema or none
(`C95_walk_refuted`), opaque structures and schemas that do not begin at offset 0 (C31). -/
theorem C95_walk_partial {cs : List Schemas.Cmd} {c : Schemas.Sc} {log : List (Schemas.Name × Nat)} (hc : ∀ x ∈ cs, x.Ok) (hn : ∀ x ∈ cs, x.NoOpacity)
    (e : Schemas.define cs = some (c, log)) (hz : FromZero log) (s : RW) (hs : s.head ≤ s.pivot) (hroom : 4 * s.pivot + c.image.length ≤ 4 * s.tail) :
    ∃ P L, Sequence s log P L ∧ (∀ fuel, c.npre + (s.pivot - s.head) ≤ fuel → walkDefault (some c) s fuel = some (P ++ L)) ∧
      (∀ p ∈ P ++ L, 4 * (s.head : Int) ≤ 4 * s.pivot + p ∧ (p < 0 ∨ 4 * s.pivot + p ≤ 4 * s.tail)) ∧
      ∀ n t, (n, t) ∈ log → isPreplaced t = true → (tag2offset t : Int) ∈ P → 4 * s.pivot + tag2offset t + (tag2genus t).preplacedBytes ≤ 4 * s.tail := by
  obtain ⟨P, L, h, hf, _⟩ := C31_forward_partial hc hn e hz s hs
  have hin := (C30_no_overlap_partial hc hn e).1
  refine ⟨P, L, h, hf, ?_, ?_⟩
  · intro p hp
    rcases List.mem_append.mp hp with hp | hp
    · obtain ⟨n, t, h1, h2, _, h4⟩ := (h.pre p).mp hp
      have := hin n t h1 h2
      omega
    · obtain ⟨a, h1, h2, h3⟩ := (h.loose p).mp hp
      omega
  · intro n t h1 h2 _
    have := hin n t h1 h2
    omega

/-- **C95 (refuted).** When the default schema has a plain field which is always present, the same loop over a tuple that has no room for it - one made with no schema, or before the
schema was set, or received from elsewhere - visits that field nevertheless: a place outside of the tuple. Without a default schema the loop stays inside of the
index. So for every such schema and every such tuple. -/
theorem C95_walk_refuted {cs : List Schemas.Cmd} {c : Schemas.Sc} {log : List (Schemas.Name × Nat)} (hc : ∀ x ∈ cs, x.Ok) (hn : ∀ x ∈ cs, x.NoOpacity)
    (e : Schemas.define cs = some (c, log)) (hz : FromZero log) (s : RW) (hs : s.head ≤ s.pivot) {n : Schemas.Name} {t : Nat} (ht : (n, t) ∈ log)
    (hp : isPreplaced t = true) (hf : (tag2genus t).isFixed = true) (hd : isDiscernible t = false) (hout : 4 * s.tail ≤ 4 * s.pivot + tag2offset t) :
    (∃ l, (∀ fuel, c.npre + (s.pivot - s.head) ≤ fuel → walkDefault (some c) s fuel = some l) ∧
      ∃ p ∈ l, p = (tag2offset t : Int) ∧ 4 * (s.tail : Int) ≤ 4 * s.pivot + p) ∧
    (∃ l, (∀ fuel, s.pivot - s.head ≤ fuel → walkDefault none s fuel = some l) ∧ ∀ p ∈ l, p < 0 ∧ 4 * (s.head : Int) ≤ 4 * s.pivot + p) := by
  constructor
  · obtain ⟨P, L, h, hw, _⟩ := C31_forward_partial hc hn e hz s hs
    refine ⟨P ++ L, hw, tag2offset t, List.mem_append_left _ ((h.pre _).mpr ⟨n, t, ht, hp, ?_, rfl⟩), rfl, by omega⟩
    unfold preplacedIsNull
    simp only [hf, hd]
    rfl
  · obtain ⟨L, h, hw⟩ := C31_no_schema_partial s hs
    refine ⟨L, hw, fun p hp => ?_⟩
    obtain ⟨a, h1, h2, h3⟩ := (h.loose p).mp hp
    omega

/-- A tuple of two loose fields, made without a schema. -/
def plainTuple : RW := RW.mk (fun a => if a = 8 then ⟨10240 + 1, 3⟩ else ⟨10240 + 2, 9⟩) 8 10 0 10 20 0 0

example := C95_walk_partial (fun c h => (shop_ok c h).1) (fun c h => (shop_ok c h).2.1) shop_run shop_zero shopTuple (by decide) (by decide)
example := C95_walk_refuted (fun c h => (shop_ok c h).1) (fun c h => (shop_ok c h).2.1) shop_run shop_zero plainTuple (by decide) (n := [70]) (t := 2121736)
  (by decide) (by decide) (by decide) (by decide) (by decide)

end Fptu.Props
