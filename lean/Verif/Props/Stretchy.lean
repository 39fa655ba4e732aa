import Verif.Model.Stretchy
import Verif.Lemmas.Cells
/-! # C04, C05, C06: encodings of variable-length values -/
namespace Fptu.Props
open Fptu

/-- A byte string. -/
def IsBytes (v : List Nat) : Prop := ∀ b ∈ v, b < 256

/-- The store at `p` leaves every unit outside `[p, p + units)` as it was. -/
def StaysInside (m m' : Memory) (p units : Nat) : Prop := ∀ a, a < p ∨ p + units ≤ a → m' a = m a

private theorem b2u (n : Nat) : bytes2units n = (n + 3) / 4 := by
  unfold bytes2units; rw [Nat.shiftRight_eq_div_pow]; omega

/-! ## C04: strings -/

/-- **C04 (limit).** The estimate throws exactly above 131325 bytes, otherwise it is the number of units
for the bytes plus a one- or three-byte header. -/
theorem C04_estimate (n : Nat) :
    (n > 131325 ↔ Str.estimate n = .error .valueTooLong) ∧
    (n ≤ 131325 → ∃ u, Str.estimate n = .ok u ∧ 0 < u ∧
      (let need := n + if n < 254 then 1 else 3; need ≤ 4 * u ∧ 4 * u < need + 4)) := by
  unfold Str.estimate Str.maxLength Str.tinyThreshold
  simp only [b2u]
  constructor
  · constructor
    · intro h; rw [if_pos (by omega)]
    · intro h
      by_cases hn : n > 131325
      · exact hn
      · rw [if_neg (by omega)] at h; cases h
  · intro h
    rw [if_neg (by omega)]
    refine ⟨_, rfl, ?_⟩
    split <;> omega

private theorem str_store_tiny (m : Memory) (p : Nat) (v : List Nat) (h : v.length < 254) :
    Str.store m p v =
      ((m.set (p + ((v.length + 1 + 3) / 4 - 1)) .zero).setByte (4 * p) v.length).writeBytes (4 * p + 1) v := by
  unfold Str.store Str.tinyThreshold
  simp only [h, if_true, b2u]
  rw [if_neg (by omega), Nat.mod_eq_of_lt (by omega)]

private theorem str_store_large (m : Memory) (p : Nat) (v : List Nat) (h : 254 ≤ v.length)
    (h2 : v.length ≤ 131325) :
    Str.store m p v =
      (((((m.set (p + ((v.length + 3 + 3) / 4 - 1)) .zero).setByte (4 * p) (v.length % 256)).setByte (4 * p)
        (254 + v.length % 2)).setByte (4 * p + 1) ((v.length - (254 + v.length % 2)) / 2 % 256)).setByte
        (4 * p + 2) ((v.length - (254 + v.length % 2)) / 2 / 256)).writeBytes (4 * p + 3) v := by
  unfold Str.store Str.tinyThreshold
  simp only [b2u]
  rw [if_pos h, if_neg (by omega), Nat.mod_eq_of_lt (a := 254 + v.length % 2) (by omega),
    Nat.mod_eq_of_lt (b := 65536) (by omega)]

/-- **C04 (round trip).** For every byte string not longer than the limit and every previous memory content:
reading returns exactly the stored bytes (so in particular never the string-pool placeholder), the reported
length and the occupied size agree with the estimate, nothing outside the reserved units is written, and
padding bytes are zero. -/
theorem C04_string_roundtrip (m : Memory) (p : Nat) (v : List Nat) (hv : IsBytes v)
    (hlen : v.length ≤ 131325) :
    ∃ u, Str.estimate v.length = .ok u ∧
      Str.read (Str.store m p v) p = some v ∧
      Str.length (Str.store m p v) p = v.length ∧
      Str.bruttoUnits (Str.store m p v) p = u ∧
      StaysInside m (Str.store m p v) p u ∧
      (∀ k, Str.begin_ (Str.store m p v) p + v.length ≤ k → k < 4 * (p + u) → (Str.store m p v).byte k = 0) := by
  have hest : Str.estimate v.length = .ok ((v.length + (if v.length < 254 then 1 else 3) + 3) / 4) := by
    unfold Str.estimate Str.maxLength Str.tinyThreshold
    rw [if_neg (by omega), b2u]
  refine ⟨_, hest, ?_⟩
  by_cases h : v.length < 254
  · rw [if_pos h, str_store_tiny m p v h]
    have b0 : (((m.set (p + ((v.length + 1 + 3) / 4 - 1)) .zero).setByte (4 * p) v.length).writeBytes
        (4 * p + 1) v).byte (4 * p) = v.length := by
      rw [Memory.byte_writeBytes _ _ _ hv, if_neg (by omega), Memory.byte_setByte _ _ _ _ (by omega), if_pos rfl]
    have hfr : StaysInside m (((m.set (p + ((v.length + 1 + 3) / 4 - 1)) .zero).setByte (4 * p) v.length).writeBytes
        (4 * p + 1) v) p ((v.length + 1 + 3) / 4) := by
      intro a ha
      rw [Memory.writeBytes_cell _ _ _ _ (by omega), Memory.setByte_cell_ne _ (by omega),
        Memory.set_ne _ _ (by omega)]
    have hrd := Memory.readBytes_writeBytes ((m.set (p + ((v.length + 1 + 3) / 4 - 1)) .zero).setByte (4 * p) v.length)
      (4 * p + 1) v hv
    have hpad : ∀ k, 4 * p + 1 + v.length ≤ k → k < 4 * (p + (v.length + 1 + 3) / 4) →
        (((m.set (p + ((v.length + 1 + 3) / 4 - 1)) .zero).setByte (4 * p) v.length).writeBytes
        (4 * p + 1) v).byte k = 0 := by
      intro k h1 h2
      rw [Memory.byte_writeBytes _ _ _ hv, if_neg (by omega), Memory.byte_setByte _ _ _ _ (by omega),
        if_neg (by omega), Memory.byte_set_zero _ (by omega)]
    generalize ((m.set (p + ((v.length + 1 + 3) / 4 - 1)) .zero).setByte (4 * p) v.length).writeBytes
        (4 * p + 1) v = M at *
    have ht : Str.isTiny M p = true := by unfold Str.isTiny Str.tinyThreshold; rw [b0]; exact decide_eq_true h
    have hl : Str.length M p = v.length := by unfold Str.length; rw [ht, if_pos rfl, b0]
    have hb : Str.begin_ M p = 4 * p + 1 := by unfold Str.begin_; rw [ht, if_pos rfl]
    refine ⟨?_, hl, ?_, hfr, by rw [hb]; exact hpad⟩
    · unfold Str.read
      rw [if_neg, hl, hb, hrd]
      unfold Str.isPoolTag Str.poolTag
      rw [b0]
      simp only [Bool.and_eq_true, beq_iff_eq, decide_eq_true_eq, not_and]
      intro h0
      rw [hpad (4 * p + 1) (by omega) (by omega), hpad (4 * p + 2) (by omega) (by omega),
        hpad (4 * p + 3) (by omega) (by omega)]
      omega
    · unfold Str.bruttoUnits; rw [ht, if_pos rfl, b0, b2u]; omega
  · rw [if_neg h, str_store_large m p v (by omega) hlen]
    generalize hM0 : m.set (p + ((v.length + 3 + 3) / 4 - 1)) .zero = M0
    generalize hs : (v.length - (254 + v.length % 2)) / 2 = s
    have hs1 : s < 65536 := by omega
    have hs2 : 254 + v.length % 2 + s * 2 = v.length := by omega
    generalize hM1 : (((M0.setByte (4 * p) (v.length % 256)).setByte (4 * p)
        (254 + v.length % 2)).setByte (4 * p + 1) (s % 256)).setByte (4 * p + 2) (s / 256) = M1
    have mb : ∀ k, M1.byte k = if k = 4 * p + 2 then s / 256 else if k = 4 * p + 1 then s % 256 else
        if k = 4 * p then 254 + v.length % 2 else M0.byte k := by
      intro k
      rw [← hM1, Memory.byte_setByte _ _ _ _ (by omega), Memory.byte_setByte _ _ _ _ (by omega),
        Memory.byte_setByte _ _ _ _ (by omega), Memory.byte_setByte _ _ _ _ (by omega)]
      by_cases h0 : k = 4 * p
      · simp only [h0, if_true]
      · simp only [h0, if_false]
    have mc : ∀ a, a ≠ p → M1 a = M0 a := by
      intro a ha
      rw [← hM1, Memory.setByte_cell_ne _ (by omega), Memory.setByte_cell_ne _ (by omega),
        Memory.setByte_cell_ne _ (by omega), Memory.setByte_cell_ne _ (by omega)]
    have wb : ∀ k, k < 4 * p + 3 ∨ 4 * p + 3 + v.length ≤ k → (M1.writeBytes (4 * p + 3) v).byte k = M1.byte k := by
      intro k hk
      rw [Memory.byte_writeBytes _ _ _ hv, if_neg (by omega)]
    have b0 : (M1.writeBytes (4 * p + 3) v).byte (4 * p) = 254 + v.length % 2 := by
      rw [wb _ (by omega), mb, if_neg (by omega), if_neg (by omega), if_pos rfl]
    have b1 : (M1.writeBytes (4 * p + 3) v).byte (4 * p + 1) = s % 256 := by
      rw [wb _ (by omega), mb, if_neg (by omega), if_pos rfl]
    have b2 : (M1.writeBytes (4 * p + 3) v).byte (4 * p + 2) = s / 256 := by
      rw [wb _ (by omega), mb, if_pos rfl]
    have hfr : StaysInside m (M1.writeBytes (4 * p + 3) v) p ((v.length + 3 + 3) / 4) := by
      intro a ha
      rw [Memory.writeBytes_cell _ _ _ _ (by omega), mc a (by omega), ← hM0, Memory.set_ne _ _ (by omega)]
    have hpad : ∀ k, 4 * p + 3 + v.length ≤ k → k < 4 * (p + (v.length + 3 + 3) / 4) →
        (M1.writeBytes (4 * p + 3) v).byte k = 0 := by
      intro k h1 h2
      rw [wb _ (by omega), mb, if_neg (by omega), if_neg (by omega), if_neg (by omega), ← hM0,
        Memory.byte_set_zero _ (by omega)]
    have hrd := Memory.readBytes_writeBytes M1 (4 * p + 3) v hv
    generalize M1.writeBytes (4 * p + 3) v = M at *
    have ht : Str.isTiny M p = false := by
      unfold Str.isTiny Str.tinyThreshold; rw [b0]; exact decide_eq_false (by omega)
    have hsf : Str.suffix M p = s := by unfold Str.suffix; rw [b1, b2]; omega
    have hl : Str.length M p = v.length := by
      unfold Str.length; rw [ht, if_neg (by decide), b0, hsf]; omega
    have hb : Str.begin_ M p = 4 * p + 3 := by unfold Str.begin_; rw [ht, if_neg (by decide)]
    refine ⟨?_, hl, ?_, hfr, by rw [hb]; exact hpad⟩
    · unfold Str.read
      rw [if_neg, hl, hb, hrd]
      unfold Str.isPoolTag
      rw [b0]
      simp only [Bool.and_eq_true, beq_iff_eq, decide_eq_true_eq, not_and]
      intro h0
      omega
    · unfold Str.bruttoUnits; rw [ht, if_neg (by decide), b0, hsf, b2u]; omega

/-- An odd-length string of the large form over garbage memory. -/
example (v : List Nat) (hv : v = List.replicate 301 65) : IsBytes v ∧ v.length ≤ 131325 ∧
    Str.estimate v.length = .ok 76 ∧ (Str.store (fun _ => ⟨4660, 43981⟩) 7 v).byte 28 = 255 := by
  have hb : IsBytes v := by intro b h; rw [hv] at h; rw [List.eq_of_mem_replicate h]; decide
  have hl : v.length = 301 := by rw [hv]; exact List.length_replicate
  refine ⟨hb, by omega, by rw [hl]; decide, ?_⟩
  rw [str_store_large _ _ _ (by omega) (by omega), Memory.byte_writeBytes _ _ _ hb, if_neg (by omega), hl]
  rfl

/-! ## C05: binary blobs -/

private theorem vb_store (m : Memory) (p : Nat) (v : List Nat) (h : v.length ≤ 262136) :
    Varbin.store m p v = (((m.set (p + (v.length + 3) / 4) .zero).set p
      ⟨(v.length + 3) / 4 + 1, v.length % 4⟩).writeBytes (4 * (p + 1)) v) := by
  unfold Varbin.store
  simp only [b2u, Memory.set_same, Nat.add_sub_cancel]
  congr 1
  funext x
  simp only [Memory.set_apply]
  by_cases h1 : x = p
  · simp only [h1, if_true]
    rw [Nat.mod_eq_of_lt (by omega)]
  · simp only [h1, if_false]

theorem vb_facts (m : Memory) (p : Nat) (v : List Nat) (hv : IsBytes v) (h : v.length ≤ 262136) :
    (Varbin.store m p v) p = ⟨(v.length + 3) / 4 + 1, v.length % 4⟩ ∧
    (Varbin.store m p v).readBytes (4 * (p + 1)) v.length = v ∧
    StaysInside m (Varbin.store m p v) p ((v.length + 3) / 4 + 1) := by
  rw [vb_store m p v h]
  refine ⟨?_, Memory.readBytes_writeBytes _ _ _ hv, ?_⟩
  · rw [Memory.writeBytes_cell _ _ _ _ (by omega), Memory.set_same]
  · intro a ha
    rw [Memory.writeBytes_cell _ _ _ _ (by omega), Memory.set_ne _ _ (by omega), Memory.set_ne _ _ (by omega)]

/-- **C05 (limit).** The estimate throws exactly above 262136 bytes. -/
theorem C05_estimate (n : Nat) :
    (n > 262136 ↔ Varbin.estimate n = .error .valueTooLong) ∧
    (n ≤ 262136 → Varbin.estimate n = .ok ((n + 3) / 4 + 1)) := by
  unfold Varbin.estimate
  simp only [b2u]
  by_cases h : (n + 3) / 4 + 1 > 65535
  · rw [if_pos h]; exact ⟨by simp; omega, by omega⟩
  · rw [if_neg h]; exact ⟨by simp; omega, fun _ => rfl⟩

/-- **C05 (partial).** A blob whose length is a multiple of four is stored and read back intact, within the
estimated space. For every length the stored bytes themselves are intact and no unit outside the reserved
space is written. Missing: the length read back when it is not a multiple of four, see
`C05_length_refuted`. -/
theorem C05_varbin_roundtrip_partial (m : Memory) (p : Nat) (v : List Nat) (hv : IsBytes v)
    (hlen : v.length ≤ 262136) :
    ∃ u, Varbin.estimate v.length = .ok u ∧ Varbin.bruttoUnits (Varbin.store m p v) p = u ∧
      StaysInside m (Varbin.store m p v) p u ∧
      (Varbin.read (Varbin.store m p v) p).take v.length = v ∧
      (v.length % 4 = 0 → Varbin.read (Varbin.store m p v) p = v ∧ Varbin.length (Varbin.store m p v) p = v.length) := by
  obtain ⟨h1, h2, h3⟩ := vb_facts m p v hv hlen
  refine ⟨_, (C05_estimate _).2 hlen, ?_, h3, ?_, ?_⟩
  · unfold Varbin.bruttoUnits; rw [h1]
  · have : ∀ n, v.length ≤ n → ((Varbin.store m p v).readBytes (4 * (p + 1)) n).take v.length = v := by
      intro n hn
      unfold Memory.readBytes at *
      rw [← List.map_take, List.take_range, Nat.min_eq_left hn, h2]
    unfold Varbin.read
    apply this
    unfold Varbin.length units2bytes
    rw [h1, Nat.shiftLeft_eq, if_neg (Nat.succ_ne_zero _)]
    simp only
    omega
  · intro h4
    have hl : Varbin.length (Varbin.store m p v) p = v.length := by
      unfold Varbin.length units2bytes
      rw [h1, Nat.shiftLeft_eq, if_neg (Nat.succ_ne_zero _)]
      simp only
      omega
    exact ⟨by unfold Varbin.read; rw [hl]; exact h2, hl⟩

/-- **C05 (refuted).** For every blob whose length is not a multiple of four the length read back is four bytes
too long, and the described bytes end beyond the space reserved for the value. -/
theorem C05_length_refuted (m : Memory) (p : Nat) (v : List Nat) (hv : IsBytes v) (hlen : v.length ≤ 262136)
    (h4 : v.length % 4 ≠ 0) :
    Varbin.length (Varbin.store m p v) p = v.length + 4 ∧ Varbin.read (Varbin.store m p v) p ≠ v ∧
    4 * (p + 1) + Varbin.length (Varbin.store m p v) p > 4 * (p + Varbin.bruttoUnits (Varbin.store m p v) p) := by
  obtain ⟨h1, h2, h3⟩ := vb_facts m p v hv hlen
  have hl : Varbin.length (Varbin.store m p v) p = v.length + 4 := by
    unfold Varbin.length units2bytes
    rw [h1, Nat.shiftLeft_eq, if_neg (Nat.succ_ne_zero _)]
    simp only
    omega
  refine ⟨hl, ?_, ?_⟩
  · intro h
    have := congrArg List.length h
    unfold Varbin.read at this
    rw [Memory.length_readBytes, hl] at this
    omega
  · rw [hl]; unfold Varbin.bruttoUnits; rw [h1]; simp only; omega

example : Varbin.read (Varbin.store (fun _ => ⟨7, 9⟩) 3 [1, 2, 3, 4]) 3 = [1, 2, 3, 4] ∧
    Varbin.read (Varbin.store (fun _ => ⟨7, 9⟩) 3 [1, 2, 3]) 3 = [1, 2, 3, 0, 7, 0, 9] := by decide

/-! ## C06: properties and nested tuples -/

/-- **C06 (property).** -/
theorem C06_property_roundtrip (m : Memory) (p id : Nat) (v : List Nat) (hv : IsBytes v) (hid : id < 256) :
    (v.length > 255 ↔ Property.estimate v.length = .error .valueTooLong) ∧
    (v.length ≤ 255 → ∃ u, Property.estimate v.length = .ok u ∧
      Property.read (Property.store m p v id) p = (v, id) ∧
      Property.wholeLength (Property.store m p v id) p = v.length + 2 ∧
      Property.bruttoUnits (Property.store m p v id) p = u ∧
      StaysInside m (Property.store m p v id) p u) := by
  constructor
  · unfold Property.estimate
    by_cases h : v.length > 255
    · rw [if_pos h]; simp [h]
    · rw [if_neg h]; simp; omega
  · intro h
    refine ⟨(v.length + 2 + 3) / 4, by unfold Property.estimate; rw [if_neg (by omega), b2u], ?_⟩
    have hs : Property.store m p v id = (((m.set (p + ((v.length + 2 + 3) / 4 - 1)) .zero).setByte (4 * p)
        v.length).setByte (4 * p + 1) id).writeBytes (4 * p + 2) v := by
      unfold Property.store
      simp only [b2u]
      rw [Nat.mod_eq_of_lt (by omega)]
    rw [hs]
    have hrd := Memory.readBytes_writeBytes (((m.set (p + ((v.length + 2 + 3) / 4 - 1)) .zero).setByte (4 * p)
        v.length).setByte (4 * p + 1) id) (4 * p + 2) v hv
    have hfr : StaysInside m ((((m.set (p + ((v.length + 2 + 3) / 4 - 1)) .zero).setByte (4 * p)
        v.length).setByte (4 * p + 1) id).writeBytes (4 * p + 2) v) p ((v.length + 2 + 3) / 4) := by
      intro a ha
      rw [Memory.writeBytes_cell _ _ _ _ (by omega), Memory.setByte_cell_ne _ (by omega),
        Memory.setByte_cell_ne _ (by omega), Memory.set_ne _ _ (by omega)]
    have b0 : ((((m.set (p + ((v.length + 2 + 3) / 4 - 1)) .zero).setByte (4 * p)
        v.length).setByte (4 * p + 1) id).writeBytes (4 * p + 2) v).byte (4 * p) = v.length := by
      rw [Memory.byte_writeBytes _ _ _ hv, if_neg (by omega), Memory.byte_setByte _ _ _ _ hid, if_neg (by omega),
        Memory.byte_setByte _ _ _ _ (by omega), if_pos rfl]
    have b1 : ((((m.set (p + ((v.length + 2 + 3) / 4 - 1)) .zero).setByte (4 * p)
        v.length).setByte (4 * p + 1) id).writeBytes (4 * p + 2) v).byte (4 * p + 1) = id := by
      rw [Memory.byte_writeBytes _ _ _ hv, if_neg (by omega), Memory.byte_setByte _ _ _ _ hid, if_pos rfl]
    generalize (((m.set (p + ((v.length + 2 + 3) / 4 - 1)) .zero).setByte (4 * p)
        v.length).setByte (4 * p + 1) id).writeBytes (4 * p + 2) v = M at *
    refine ⟨?_, ?_, ?_, hfr⟩
    · unfold Property.read; rw [b0, b1, hrd]
    · unfold Property.wholeLength; rw [b0]; omega
    · unfold Property.bruttoUnits Property.wholeLength; rw [b0, b2u]; omega

example : Property.read (Property.store (fun _ => ⟨7, 9⟩) 3 [1, 2, 255] 77) 3 = ([1, 2, 255], 77) := by decide

/-- A serialized tuple: its first unit carries its size in units. -/
def IsTupleImage (v : List Cell) : Prop := ∃ h t, v = h :: t ∧ h.lo = v.length

/-- **C06 (nested).** Every serialized tuple is stored as a nested value and read back unit by unit, in exactly
the estimated number of units. -/
theorem C06_nested_roundtrip (m : Memory) (p : Nat) (v : List Cell) (hv : IsTupleImage v) :
    Nested.estimate (some v) = v.length ∧
    Nested.read (Nested.store m p (some v)) p = v ∧
    Nested.bruttoUnits (Nested.store m p (some v)) p = v.length ∧
    Nested.length (Nested.store m p (some v)) p = 4 * v.length ∧
    StaysInside m (Nested.store m p (some v)) p v.length := by
  obtain ⟨h, t, rfl, hl⟩ := hv
  have hs : Nested.store m p (some (h :: t)) = (m.set p .zero).writeCells p (h :: t) := by
    unfold Nested.store
    simp only [List.headD_cons, hl, List.take_length]
  have h0 : Nested.store m p (some (h :: t)) p = h := by
    rw [hs, Memory.writeCells_apply, if_pos (by simp only [List.length_cons]; omega), Nat.sub_self,
      List.getD_cons_zero]
  refine ⟨hl, ?_, ?_, ?_, ?_⟩
  · unfold Nested.read
    rw [h0, hl, hs]
    exact Memory.readCells_writeCells _ _ _
  · unfold Nested.bruttoUnits; rw [h0, hl]
  · unfold Nested.length units2bytes; rw [h0, hl, Nat.shiftLeft_eq, Nat.mul_comm]
  · intro a ha
    rw [hs, Memory.writeCells_apply, if_neg (by omega), Memory.set_ne _ _ (by simp only [List.length_cons] at ha; omega)]

/-- **C06 (header).** The tuple header keeps item count and flags for every admissible count. -/
theorem C06_header_roundtrip (brutto count flags : Nat) (hb : brutto < 65536) (hc : count ≤ 8191) (hf : flags < 8) :
    (Nested.header brutto count flags).lo = brutto ∧
    Nested.indexSize (Nested.header brutto count flags) = count ∧
    Nested.isSorted (Nested.header brutto count flags) = (flags % 2 == 1) ∧
    Nested.havePreplaced (Nested.header brutto count flags) = (flags / 2 % 2 == 1) := by
  unfold Nested.header Nested.indexSize Nested.isSorted Nested.havePreplaced
  simp only
  rw [Nat.mod_eq_of_lt (a := count * 8 + flags) (by omega)]
  refine ⟨by omega, by omega, ?_, ?_⟩
  · rw [show (count * 8 + flags) % 2 = flags % 2 by omega]
  · rw [show (count * 8 + flags) / 2 % 2 = flags / 2 % 2 by omega]

example : IsTupleImage [⟨3, 9⟩, ⟨1, 2⟩, ⟨5, 6⟩] := ⟨_, _, rfl, rfl⟩

end Fptu.Props
