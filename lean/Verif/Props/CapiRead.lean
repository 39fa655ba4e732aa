import Verif.Props.CapiRw
/-!
# C38, C41, C47, C48: reading, creating and loading through the C API
-/
namespace Fptu.Props
open Fptu Fptu.Gear Fptu.Rw Fptu.Audit Fptu.Serial Fptu.Handle Fptu.CapiRw

/-! ## C38: `fptu_field_as_iovec` -/

private theorem readBytes_succ (m : Memory) (k n : Nat) : m.readBytes k (n + 1) = m.byte k :: m.readBytes (k + 1) n := by
  unfold Memory.readBytes
  rw [List.range_succ_eq_map, List.map_cons, List.map_map, Nat.add_zero]
  refine congrArg _ (List.map_congr_left fun i _ => ?_)
  show m.byte (k + (i + 1)) = _
  rw [show k + (i + 1) = k + 1 + i by omega]

private theorem readBytes_add (m : Memory) (k n j : Nat) : m.readBytes k (n + j) = m.readBytes k n ++ m.readBytes (k + n) j := by
  induction n generalizing k with
  | zero => rw [Nat.zero_add]; rfl
  | succ n ih => rw [show n + 1 + j = n + j + 1 by omega, readBytes_succ, ih, readBytes_succ, List.cons_append, show k + 1 + n = k + (n + 1) by omega]

private theorem readBytes_take2 (m : Memory) (k n j : Nat) : (m.readBytes k (n + j)).take n = m.readBytes k n := by
  rw [readBytes_add, List.take_left' (Memory.length_readBytes m k n)]

theorem bytes_of_cells (m : Memory) (p n : Nat) (h : ∀ i < n, Cell.ok (m (p + i)) = true) :
    m.readBytes (4 * p) (4 * n) = (m.readCells p n).flatMap cellBytes := by
  induction n generalizing p with
  | zero => rfl
  | succ n ih =>
    have e : m.readCells p (n + 1) = m p :: m.readCells (p + 1) n := by
      unfold Memory.readCells
      rw [List.range_succ_eq_map, List.map_cons, List.map_map, Nat.add_zero]
      refine congrArg _ (List.map_congr_left fun i _ => ?_)
      show m (p + (i + 1)) = _
      rw [show p + (i + 1) = p + 1 + i by omega]
    have hp := h 0 (by omega)
    unfold Cell.ok at hp
    rw [Nat.add_zero, Bool.and_eq_true, decide_eq_true_eq, decide_eq_true_eq] at hp
    rw [e, List.flatMap_cons, show 4 * (n + 1) = 4 + 4 * n by omega, readBytes_add, show 4 * p + 4 = 4 * (p + 1) by omega, ih (p + 1) (fun i hi => by
      have := h (i + 1) (by omega)
      rwa [show p + (i + 1) = p + 1 + i by omega] at this)]
    refine congrArg (· ++ _) ?_
    rw [readBytes_succ, readBytes_succ, readBytes_succ, readBytes_succ]
    show [m.byte (4 * p), m.byte (4 * p + 1), m.byte (4 * p + 1 + 1), m.byte (4 * p + 1 + 1 + 1)] = [_, _, _, _]
    have b0 : m.byte (4 * p) = (m p).lo % 256 := by
      unfold Memory.byte
      rw [show (4 * p) / 4 = p by omega, if_pos (by omega), if_pos (by omega)]
    have b1 : m.byte (4 * p + 1) = (m p).lo / 256 := by
      unfold Memory.byte
      rw [show (4 * p + 1) / 4 = p by omega, if_neg (by omega), if_pos (by omega)]
      omega
    have b2 : m.byte (4 * p + 1 + 1) = (m p).hi % 256 := by
      unfold Memory.byte
      rw [show (4 * p + 1 + 1) / 4 = p by omega, if_pos (by omega), if_neg (by omega)]
    have b3 : m.byte (4 * p + 1 + 1 + 1) = (m p).hi / 256 := by
      unfold Memory.byte
      rw [show (4 * p + 1 + 1 + 1) / 4 = p by omega, if_neg (by omega), if_neg (by omega)]
      omega
    rw [b0, b1, b2, b3]

/-- **C38 (`fptu_field_as_iovec` of a nested tuple).** It describes exactly the nested tuple. -/
theorem C38_iovec_nested {m : Memory} {a : Nat} (hg : cellGenus (m a) = .nested) (hlo : (m a).lo ≠ 0)
    (hok : ∀ i, Cell.ok (m i) = true) :
    iovecBytes m (asIovec m a) = (Nested.read m (a + (m a).lo)).flatMap cellBytes := by
  have e : asIovec m a = some (4 * (a + (m a).lo), Nested.length m (a + (m a).lo)) := by
    unfold asIovec
    rw [hg]
    dsimp only
    rw [if_neg (by decide), if_neg (by decide), if_pos hlo]
    rfl
  rw [e]
  show m.readBytes _ _ = _
  unfold Nested.length units2bytes Nested.read
  rw [Nat.shiftLeft_eq, Nat.mul_comm _ (2 ^ 2)]
  exact bytes_of_cells m _ _ fun i _ => hok _

/-- **C38 (... of a property).** It describes the bytes of the property with a header in front: length and identifier. -/
theorem C38_iovec_property {m : Memory} {a : Nat} (hg : cellGenus (m a) = .property) (hlo : (m a).lo ≠ 0) :
    iovecBytes m (asIovec m a) = (Property.read m (a + (m a).lo)).1.length :: (Property.read m (a + (m a).lo)).2 :: (Property.read m (a + (m a).lo)).1 := by
  have e : asIovec m a = some (4 * (a + (m a).lo), Property.wholeLength m (a + (m a).lo)) := by
    unfold asIovec
    rw [hg]
    dsimp only
    rw [if_neg (by decide), if_neg (by decide), if_pos hlo]
    rfl
  rw [e]
  show m.readBytes _ _ = _
  unfold Property.wholeLength Property.read
  rw [show 2 + m.byte (4 * (a + (m a).lo)) = m.byte (4 * (a + (m a).lo)) + 1 + 1 by omega, readBytes_succ, readBytes_succ]
  dsimp only
  rw [Memory.length_readBytes]

/-- **C38 (... refuted for texts and opaque binaries).** What it describes starts with the header of the encoding, and so many bytes are
cut at the end: for a text of less than 254 bytes the header is one byte, for a longer one three, for a binary four. -/
theorem C38_iovec_stretchy_refuted {m : Memory} {a : Nat} (hlo : (m a).lo ≠ 0) :
    (∀ v, cellGenus (m a) = .text → Str.read m (a + (m a).lo) = some v → v ≠ [] → ∃ hdr : List Nat,
      hdr.length = (if v.length < 254 then 1 else 3) ∧ iovecBytes m (asIovec m a) = hdr ++ v.take (v.length - hdr.length)) ∧
    (cellGenus (m a) = .varbin → 4 ≤ Varbin.length m (a + (m a).lo) → ∃ hdr : List Nat, hdr.length = 4 ∧
      iovecBytes m (asIovec m a) = hdr ++ (Varbin.read m (a + (m a).lo)).take (Varbin.length m (a + (m a).lo) - 4)) := by
  have gen : ∀ k n : Nat, ∀ j p, j ≤ n → (m.readBytes p n) = m.readBytes p j ++ (m.readBytes (p + j) n).take (n - j) := by
    intro k n j p hj
    obtain ⟨r, rfl⟩ : ∃ r, n = j + r := ⟨n - j, by omega⟩
    rw [readBytes_add, show j + r - j = r by omega, show j + r = r + j by omega, readBytes_take2]
  constructor
  · intro v hg hr hv
    have e : asIovec m a = some (4 * (a + (m a).lo), Str.length m (a + (m a).lo)) := by
      unfold asIovec
      rw [hg]
      dsimp only
      rw [if_neg (by decide), if_neg (by decide), if_pos hlo]
      rfl
    rw [e]
    generalize a + (m a).lo = p at *
    unfold Str.read at hr
    split_ifs at hr
    have hv2 : m.readBytes (Str.begin_ m p) (Str.length m p) = v := Option.some.inj hr
    have hlen : v.length = Str.length m p := by rw [← hv2, Memory.length_readBytes]
    have hpos : v.length ≠ 0 := by intro k; exact hv (List.length_eq_zero_iff.1 k)
    show ∃ hdr : List Nat, _ ∧ m.readBytes (4 * p) (Str.length m p) = _
    by_cases ht : Str.isTiny m p = true
    · have hl : Str.length m p < 254 := by
        unfold Str.length; rw [if_pos ht]
        unfold Str.isTiny Str.tinyThreshold at ht
        exact of_decide_eq_true ht
      refine ⟨m.readBytes (4 * p) 1, by rw [Memory.length_readBytes, if_pos (by omega)], ?_⟩
      rw [Memory.length_readBytes, gen 0 (Str.length m p) 1 (4 * p) (by omega), hlen, ← hv2]
      unfold Str.begin_
      rw [if_pos ht]
    · have hl : 254 ≤ Str.length m p := by
        unfold Str.length; rw [if_neg ht]
        unfold Str.isTiny Str.tinyThreshold at ht
        rw [decide_eq_true_eq] at ht
        omega
      refine ⟨m.readBytes (4 * p) 3, by rw [Memory.length_readBytes, if_neg (by omega)], ?_⟩
      rw [Memory.length_readBytes, gen 0 (Str.length m p) 3 (4 * p) (by omega), hlen, ← hv2]
      unfold Str.begin_
      rw [if_neg ht]
  · intro hg h4
    have e : asIovec m a = some (4 * (a + (m a).lo), Varbin.length m (a + (m a).lo)) := by
      unfold asIovec
      rw [hg]
      dsimp only
      rw [if_neg (by decide), if_neg (by decide), if_pos hlo]
      rfl
    rw [e]
    generalize a + (m a).lo = p at *
    refine ⟨m.readBytes (4 * p) 4, Memory.length_readBytes _ _ _, ?_⟩
    show m.readBytes (4 * p) (Varbin.length m p) = _
    rw [gen 0 (Varbin.length m p) 4 (4 * p) h4]
    unfold Varbin.read
    rw [show 4 * (p + 1) = 4 * p + 4 by omega]

/-- **C38 (... refuted for fixed-size fields).** It counts units where bytes are meant: for every field of a fixed-size type fewer bytes are described
than the value has; none at all for the types of one and two bytes. -/
theorem C38_iovec_fixed_refuted {m : Memory} {a : Nat} (hg : (cellGenus (m a)).isFixed = true) (hh : cellGenus (m a) ≠ .hole) :
    (iovecBytes m (asIovec m a)).length < (cellGenus (m a)).preplacedBytes ∧
    ((cellGenus (m a)).isInplaced = true → iovecBytes m (asIovec m a) = []) := by
  unfold asIovec
  generalize cellGenus (m a) = g at *
  dsimp only
  by_cases hi : g.isInplaced = true
  · rw [if_pos hi]
    have h0 : g.looseUnits = 0 := by cases g <;> first | rfl | cases hi
    rw [h0]
    refine ⟨?_, fun _ => rfl⟩
    show 0 < _
    cases g <;> first | decide | cases hi
  · rw [if_neg hi, if_pos hg]
    refine ⟨?_, fun k => absurd k hi⟩
    show (m.readBytes _ _).length < _
    rw [Memory.length_readBytes]
    cases g <;> first | decide | exact absurd rfl hh | cases hg

/-- A field of type `u32` in column 5 with the value 0x01020304, and a text "abc": one byte instead of four, a header and two characters. -/
example : iovecBytes (Memory.writeCells (fun _ => .zero) 0 [⟨1, Genus.code .u32 * 2048 + 5⟩, ⟨0x0304, 0x0102⟩]) (asIovec (Memory.writeCells (fun _ => .zero) 0
      [⟨1, Genus.code .u32 * 2048 + 5⟩, ⟨0x0304, 0x0102⟩]) 0) = [4] ∧
    iovecBytes (Memory.writeCells (fun _ => .zero) 0 [⟨1, 5⟩, ⟨3 + 256 * 97, 98 + 256 * 99⟩]) (asIovec (Memory.writeCells (fun _ => .zero) 0
      [⟨1, 5⟩, ⟨3 + 256 * 97, 98 + 256 * 99⟩]) 0) = [3, 97, 98] := by decide +kernel

/-! ## C48: C strings -/

/-- The entry `a` is a text field with the value `v` (a null offset stands for the empty text), padded with zeros, as every text that was
stored is (`C04_string_roundtrip`). -/
structure TextField (m : Memory) (a : Nat) (v : List Nat) : Prop where
  read : (if (m a).lo = 0 then some [] else Str.read m (a + (m a).lo)) = some v
  padding : (m a).lo ≠ 0 → ∀ k, Str.begin_ m (a + (m a).lo) + v.length ≤ k → k < 4 * (a + (m a).lo + Str.bruttoUnits m (a + (m a).lo)) → m.byte k = 0

/-- What `fptu_field_cstr` returns and the content of the shared holder afterwards. -/
abbrev cstrOf (m : Memory) (a : Nat) (held : List Nat) : CStr := (fieldCstr m a held).1
abbrev heldAfter (m : Memory) (a : Nat) (held : List Nat) : List Nat := (fieldCstr m a held).2

private theorem cString_eq (m : Memory) (p n : Nat) : cString m p n = (m.readBytes p n).takeWhile (· ≠ 0) := by
  induction n generalizing p with
  | zero => rfl
  | succ n ih =>
    rw [readBytes_succ, List.takeWhile_cons]
    unfold cString
    by_cases h : m.byte p = 0
    · rw [if_pos h, if_neg (by simp [h])]
    · rw [if_neg h, if_pos (by simp [h]), ih]

private theorem takeWhile_all (v : List Nat) (h : ∀ c ∈ v, c ≠ 0) : v.takeWhile (· ≠ 0) = v := by
  induction v with
  | nil => rfl
  | cons x v ih =>
    rw [List.takeWhile_cons, if_pos (by simpa using h x (List.mem_cons_self ..)), ih fun c hc => h c (List.mem_cons_of_mem _ hc)]

private theorem takeWhile_zero (v r : List Nat) : (v ++ 0 :: r).takeWhile (· ≠ 0) = v.takeWhile (· ≠ 0) := by
  induction v with
  | nil => rfl
  | cons x v ih => rw [List.cons_append, List.takeWhile_cons, List.takeWhile_cons, ih]

/-- Looking at a result right after the call. -/
theorem cstr_view {m : Memory} {a : Nat} {v held : List Nat} (h : TextField m a v) :
    (cstrOf m a held).view m (heldAfter m a held) = if v = [] then none else some (v.takeWhile (· ≠ 0)) := by
  unfold cstrOf heldAfter fieldCstr
  dsimp only
  rw [h.read]
  dsimp only
  by_cases hv : v = []
  · rw [if_pos hv, if_pos hv]; rfl
  rw [if_neg hv, if_neg hv]
  have hlo : (m a).lo ≠ 0 := by
    intro k
    have := h.read
    rw [if_pos k] at this
    exact hv (Option.some.inj this).symm
  have hr := h.read
  have hp := h.padding hlo
  rw [if_neg hlo] at hr
  generalize a + (m a).lo = p at *
  split_ifs with c
  · show some (cString m _ _) = _
    unfold Str.read at hr
    split_ifs at hr
    have hr : m.readBytes (Str.begin_ m p) (Str.length m p) = v := Option.some.inj hr
    have hl : v.length = Str.length m p := by rw [← hr, Memory.length_readBytes]
    obtain ⟨k, hk⟩ : ∃ k, 4 * (p + Str.bruttoUnits m p) - Str.begin_ m p = Str.length m p + (k + 1) :=
      ⟨4 * (p + Str.bruttoUnits m p) - Str.begin_ m p - Str.length m p - 1, by omega⟩
    rw [cString_eq, hk, readBytes_add, hr, readBytes_succ, hp _ (by omega) (by omega), takeWhile_zero]
  · rfl

/-- **C48 (partial).** The C string of a text field, right after the call, is the text, for every text that is not empty and has no zero
byte. Whatever was asked for before does not matter. -/
theorem C48_cstr_partial {m : Memory} {a : Nat} {v held : List Nat} (h : TextField m a v) (hv : v ≠ []) (hz : ∀ c ∈ v, c ≠ 0) :
    (cstrOf m a held).view m (heldAfter m a held) = some v := by
  rw [cstr_view h, if_neg hv]
  exact congrArg _ (takeWhile_all _ hz)

/-- Texts just stored meet the hypothesis. -/
theorem textField_stored (m : Memory) (a p : Nat) (v : List Nat) (hv : ∀ c ∈ v, c < 256) (hlen : v.length ≤ 131325)
    (ha : a < p) (hlo : a + (m a).lo = p) : TextField (Str.store m p v) a v := by
  obtain ⟨u, _, h2, _, h4, h5, h6⟩ := C04_string_roundtrip m p v hv hlen
  have e : Str.store m p v a = m a := h5 a (Or.inl ha)
  refine ⟨?_, ?_⟩
  · rw [e, hlo, if_neg (by omega), h2]
  · intro _ k h7 h8
    rw [e, hlo] at h7 h8
    rw [h4] at h8
    exact h6 k h7 h8

/-- **C48 (refuted: the empty text).** For every empty text the null pointer is returned, which also stands for "no such field". -/
theorem C48_empty_refuted {m : Memory} {a : Nat} (held : List Nat) (h : TextField m a []) : cstrOf m a held = .null := by
  unfold cstrOf fieldCstr
  dsimp only
  rw [h.read]
  rfl

/-- **C48 (refuted: zero bytes).** Texts may contain zero bytes, and are cut at the first one. -/
theorem C48_nul_refuted {m : Memory} {a : Nat} {v w held : List Nat} (h : TextField m a (v ++ 0 :: w)) (hz : ∀ c ∈ v, c ≠ 0) :
    (cstrOf m a held).view m (heldAfter m a held) = some v := by
  rw [cstr_view h, if_neg (by simp), takeWhile_zero]
  exact congrArg _ (takeWhile_all _ hz)

/-- A text that fills its units to the last byte. -/
def Full (v : List Nat) : Prop := (v.length + if v.length < 254 then 1 else 3) % 4 = 0

/-- When the pointer refers to the tuple, and when to the holder. -/
theorem cstr_place {m : Memory} {a : Nat} {v held : List Nat} (h : TextField m a v) (hv : v ≠ []) :
    (¬ Full v → ∃ p room, cstrOf m a held = .inside p room ∧ heldAfter m a held = held) ∧
    (Full v → cstrOf m a held = .holder ∧ heldAfter m a held = v) := by
  have hlo : (m a).lo ≠ 0 := by
    intro k
    have := h.read
    rw [if_pos k] at this
    exact hv (Option.some.inj this).symm
  have hr := h.read
  unfold cstrOf heldAfter fieldCstr
  dsimp only
  rw [hr]
  dsimp only
  rw [if_neg hv]
  rw [if_neg hlo] at hr
  generalize a + (m a).lo = p at *
  unfold Str.read at hr
  split_ifs at hr
  have hr : m.readBytes (Str.begin_ m p) (Str.length m p) = v := Option.some.inj hr
  have hl : v.length = Str.length m p := by rw [← hr, Memory.length_readBytes]
  have hb : Str.begin_ m p + v.length + (if (v.length + if v.length < 254 then 1 else 3) % 4 = 0 then 0 else
      4 - (v.length + if v.length < 254 then 1 else 3) % 4) = 4 * (p + Str.bruttoUnits m p) := by
    rw [hl]
    unfold Str.begin_ Str.bruttoUnits
    rw [b2u']
    unfold Str.length
    by_cases ht : Str.isTiny m p = true
    · have ht2 := ht
      unfold Str.isTiny Str.tinyThreshold at ht2
      rw [decide_eq_true_eq] at ht2
      rw [if_pos ht, if_pos ht, if_pos ht, if_pos ht2]
      generalize m.byte (4 * p) = y at *
      split_ifs <;> omega
    · have ht2 := ht
      unfold Str.isTiny Str.tinyThreshold at ht2
      rw [decide_eq_true_eq] at ht2
      rw [if_neg ht, if_neg ht, if_neg ht]
      generalize Str.suffix m p = x
      generalize m.byte (4 * p) = y at *
      rw [if_neg (show ¬ y + x * 2 < 254 by omega)]
      split_ifs <;> omega
  unfold Full
  constructor
  · intro hf
    rw [if_neg hf] at hb
    rw [if_pos (by omega)]
    exact ⟨_, _, rfl, rfl⟩
  · intro hf
    rw [if_pos hf] at hb
    rw [if_neg (by omega)]
    exact ⟨rfl, rfl⟩

/-- **C48 (earlier results, partial).** A result keeps showing its text whatever is asked for later, if the text does not fill its units to the last byte;
or if the later text does not. -/
theorem C48_later_partial {m : Memory} {a b : Nat} {v w held : List Nat} (ha : TextField m a v) (hb : TextField m b w) (hv : v ≠ []) (hw : w ≠ [])
    (h : ¬ Full v ∨ ¬ Full w) :
    (cstrOf m a held).view m (heldAfter m b (heldAfter m a held)) = (cstrOf m a held).view m (heldAfter m a held) := by
  by_cases c : Full v
  · have hw2 : ¬ Full w := by rcases h with k | k; exacts [absurd c k, k]
    obtain ⟨_, _, _, e⟩ := (cstr_place (held := heldAfter m a held) hb hw).1 hw2
    rw [e]
  · obtain ⟨p, room, e, _⟩ := (cstr_place (held := held) ha hv).1 c
    rw [e]
    rfl

/-- **C48 (refuted: earlier results).** If both texts fill their units (for example texts of three bytes), the result of the first call shows the
text of the second field after the second call. -/
theorem C48_later_refuted {m : Memory} {a b : Nat} {v w held : List Nat} (ha : TextField m a v) (hb : TextField m b w) (hv : v ≠ []) (hw : w ≠ [])
    (hfv : Full v) (hfw : Full w) (hz : ∀ c ∈ w, c ≠ 0) :
    (cstrOf m a held).view m (heldAfter m b (heldAfter m a held)) = some w := by
  rw [((cstr_place (held := held) ha hv).2 hfv).1, ((cstr_place (held := heldAfter m a held) hb hw).2 hfw).2]
  show some (w.takeWhile _) = _
  exact congrArg _ (takeWhile_all _ hz)

/-- Two fields with the texts "abc" and "xyz" in one memory. -/
example : ∃ m, TextField m 0 [97, 98, 99] ∧ TextField m 1 [120, 121, 122] ∧ Full [97, 98, 99] := by
  refine ⟨Memory.writeCells (fun _ => .zero) 0 [⟨2, 5⟩, ⟨2, 6⟩, ⟨3 + 256 * 97, 98 + 256 * 99⟩, ⟨3 + 256 * 120, 121 + 256 * 122⟩],
    ⟨by decide +kernel, fun _ k h1 h2 => ?_⟩, ⟨by decide +kernel, fun _ k h1 h2 => ?_⟩, rfl⟩
  · have h1 : 9 + 3 ≤ k := h1
    have h2 : k < 4 * 3 := h2
    omega
  · have h1 : 13 + 3 ≤ k := h1
    have h2 : k < 4 * 4 := h2
    omega

/-! ## C47: loading -/

/-- **C47 (`fptu_check_and_get_buffer_size_ex` and `fptu_fetch_ex`, partial).** The serialized form of every tuple any history produces passes the check; in a
buffer of the size the check reports (or a larger one) loading succeeds and gives a valid tuple with the same fields and the same junk, with room for as
many more fields and bytes as was asked for. Missing: what `CopyFits` excludes, and histories in which a defect of `src/gear.cxx` shows. -/
theorem C47_fetch_ex_partial {F : Fix} {s : RW} (h : History F none s) {overhead more moreData extra : Nat} (mem : Memory)
    (f : CopyFits none s overhead more moreData extra) :
    ∃ n cbfs t, checkEx overhead (takeAsis none s) (bruttoSize s) more moreData = .ok (n, cbfs) ∧
      fetchEx overhead mem (takeAsis none s) (n + extra) more cbfs = some t ∧ CopyOf F none s t ∧
      t.head = min 8191 (s.pivot - s.head + more) - (s.pivot - s.head) ∧ (t.lim < 65534 → moreData ≤ tailSpaceBytes t) := by
  obtain ⟨t, e, k⟩ := recreate h mem f
  obtain ⟨⟨st, k1, k2, k3⟩, _, _⟩ := C19_serialized_partial h f.index f.size
  have hb : bruttoSize s = 4 * (s.tail - s.head + 1) := by unfold bruttoSize units2bytes; rw [Nat.shiftLeft_eq, Nat.mul_comm]
  unfold createFromRo at e
  cases he : estimateRo overhead (takeAsis none s 0) more moreData (preBytesOf none) with
  | error x => rw [he] at e; cases e
  | ok n =>
    rw [he] at e
    have e : constructRo overhead mem s.jc s.jv (takeAsis none s) (n + extra) more 0 = .ok t := e
    have he : estimateRo overhead (takeAsis none s 0) more moreData 0 = .ok n := he
    refine ⟨n, ⟨st.hc % 65536, st.hv % 65536⟩, t, ?_, ?_, k⟩
    · unfold checkEx
      rw [hb, k1]
      dsimp only
      rw [he]
    · have hm : constructRo overhead mem (st.hc % 65536) (st.hv % 65536) (takeAsis none s) (n + extra) more 0 =
          constructRo overhead mem s.jc s.jv (takeAsis none s) (n + extra) more 0 := by
        rw [k2, k3]
        unfold constructRo
        rw [Nat.mod_mod, Nat.mod_mod]
      unfold fetchEx
      dsimp only
      rw [hm, e]

/-- **C47 (`fptu_check_and_get_buffer_size` and `fptu_fetch`, partial).** The same for a tuple without holes. -/
theorem C47_fetch_partial {F : Fix} {s : RW} (h : History F none s) (hj : s.jc = 0) {overhead more moreData extra : Nat} (mem : Memory)
    (f : CopyFits none s overhead more moreData extra) :
    ∃ n t, checkSize overhead (takeAsis none s) (bruttoSize s) more moreData = some n ∧
      fetch overhead mem (takeAsis none s) (bruttoSize s) (n + extra) more = some t ∧ CopyOf F none s t ∧
      t.head = min 8191 (s.pivot - s.head + more) - (s.pivot - s.head) ∧ (t.lim < 65534 → moreData ≤ tailSpaceBytes t) := by
  obtain ⟨n, cbfs, t, k1, k2, k⟩ := C47_fetch_ex_partial h mem f
  have hjv := no_holes_no_volume h hj
  obtain ⟨⟨st, a1, a2, a3⟩, _, _⟩ := C19_serialized_partial h f.index f.size
  have hb : bruttoSize s = 4 * (s.tail - s.head + 1) := by unfold bruttoSize units2bytes; rw [Nat.shiftLeft_eq, Nat.mul_comm]
  have hpos : bruttoSize s ≠ 0 := by omega
  have hl : liteCheckup (takeAsis none s) (bruttoSize s) = none := by
    rw [hb]
    cases hl : liteCheckup (takeAsis none s) (4 * (s.tail - s.head + 1)) with
    | none => rfl
    | some x => unfold auditRo at a1; rw [hl] at a1; cases a1
  unfold checkEx at k1
  rw [hb, a1] at k1
  dsimp only at k1
  cases he : estimateRo overhead (takeAsis none s 0) more moreData 0 with
  | error x => rw [he] at k1; cases k1
  | ok n' =>
    rw [he] at k1
    injection k1 with k1
    injection k1 with k1 k1'
    subst k1
    subst k1'
    refine ⟨n', t, ?_, ?_, k⟩
    · unfold checkSize
      rw [hb, a1]
      dsimp only
      rw [he]
    · unfold fetch
      dsimp only
      rw [if_neg hpos, if_neg hpos, hl]
      dsimp only
      unfold fetchEx at k2
      dsimp only at k2
      rw [a2, a3, hj, hjv] at k2
      exact k2

/-- **C47 (refuted).** `fptu_fetch` of a tuple with holes gives a tuple that counts every hole as a field and is rejected by `fptu_check_rw`. -/
theorem C47_fetch_refuted : ∃ s t, History .code none s ∧ s.jc = 1 ∧ looseCount s = 4 ∧
    fetch 44 (fun _ => .zero) (takeAsis none s) (bruttoSize s) 400 0 = some t ∧ looseCount t = 5 ∧ accepted (auditRw none t) = false := by
  obtain ⟨s, hr, hp⟩ := run_decide (F := .code) (s := fresh 8 60) (ops := goodOps) (fun s => decide (s.jc = 1 ∧ looseCount s = 4) &&
    match fetch 44 (fun _ => .zero) (takeAsis none s) (bruttoSize s) 400 0 with
    | some t => decide (looseCount t = 5 ∧ accepted (auditRw none t) = false)
    | none => false) (by decide +kernel)
  rw [Bool.and_eq_true] at hp
  obtain ⟨p1, p2⟩ := of_decide_eq_true hp.1
  have hp := hp.2
  cases e : fetch 44 (fun _ => .zero) (takeAsis none s) (bruttoSize s) 400 0 with
  | none => rw [e] at hp; cases hp
  | some t =>
    rw [e] at hp
    obtain ⟨p3, p4⟩ := of_decide_eq_true hp
    exact ⟨s, t, .of_run (mem := fun _ => .zero) (items := 8) (lim := 60) (image := []) (ops := goodOps)
      (fun S h => (by cases h)) rfl (by decide) (by decide) (fun k g h => (by cases h)) (opOk_of (by decide +kernel))
      (runBenign_of (by decide +kernel)) hr, p1, p2, e, p3, p4⟩

/-- **C47 (an empty buffer).** It is loaded as the empty tuple, exactly if the buffer has room for the items asked for. -/
theorem C47_fetch_empty (overhead : Nat) (mem m : Memory) (size more : Nat) :
    (∀ t, fetch overhead mem m 0 size more = some t → fieldsOf t = 0 ∧ t.jc = 0 ∧ t.jv = 0 ∧ t.head = more ∧ t.pivot = more ∧ t.tail = more) ∧
    ((∃ t, fetch overhead mem m 0 size more = some t) ↔ more ≤ 8191 ∧ overhead + 4 * more ≤ size ∧ size ≤ bufLimit) := by
  have e0 : fetch overhead mem m 0 size more = match constructRo overhead mem 0 0 (fun _ => ⟨1, 0⟩) size more 0 with
      | .ok t => some t | .error _ => none := by
    unfold fetch
    dsimp only
    rw [if_pos rfl, if_pos rfl, show liteCheckup (fun _ => ⟨1, 0⟩) 4 = none by decide +kernel]
    rfl
  rw [e0]
  unfold constructRo
  by_cases c1 : more > Audit.maxFields
  · rw [if_pos c1]
    unfold Audit.maxFields at c1
    refine ⟨fun t k => (by cases k), ?_, fun k => absurd k.1 (by omega)⟩
    rintro ⟨t, k⟩; cases k
  rw [if_neg c1]
  unfold Audit.maxFields at c1
  by_cases c2 : size > bufLimit
  · rw [if_pos c2]
    refine ⟨fun t k => (by cases k), ?_, fun k => absurd k.2.2 (by omega)⟩
    rintro ⟨t, k⟩; cases k
  rw [if_neg c2]
  dsimp only
  have hx : Nested.indexSize (⟨1, 0⟩ : Cell) = 0 := rfl
  have hm : min Audit.maxFields (0 + more) = more := by unfold Audit.maxFields; omega
  have he : estimate overhead more (4 * (1 - 1 - 0)) 0 true = .ok (overhead + more * 4 + (0 + 3) / 4 * 4) := by
    unfold estimate Audit.maxFields maxBytesNetto
    rw [if_neg (by omega), if_neg (by omega)]
    rfl
  rw [hx, hm, he]
  show (∀ t, (match (if size < overhead + more * 4 + (0 + 3) / 4 * 4 then Except.error _ else Except.ok _ : Except Exc RW) with
    | .ok t => some t | .error _ => none) = some t → _) ∧ ((∃ t, (match (if size < overhead + more * 4 + (0 + 3) / 4 * 4 then Except.error _ else Except.ok _ : Except Exc RW) with
    | .ok t => some t | .error _ => none) = some t) ↔ _)
  by_cases c3 : size < overhead + more * 4 + (0 + 3) / 4 * 4
  · rw [if_pos c3]
    refine ⟨fun t k => (by cases k), ?_, fun k => absurd k.2.1 (by omega)⟩
    rintro ⟨t, k⟩; cases k
  · rw [if_neg c3]
    refine ⟨fun t k => ?_, fun _ => ⟨by omega, by omega, by omega⟩, fun _ => ⟨_, rfl⟩⟩
    have k := (Option.some.inj k).symm
    subst k
    refine ⟨?_, rfl, rfl, rfl, rfl, rfl⟩
    unfold fieldsOf
    rw [show liveSet _ = ∅ from Finset.eq_empty_of_forall_notMem fun x hx => ?_]
    · rfl
    · obtain ⟨h1, h2, _⟩ := mem_liveSet.1 hx
      have h1 : more - 0 ≤ x := h1
      have h2 : x < more := h2
      omega

/-- **C47 (refuted).** `fptu_get_buffer_size`, declared not to throw, ends the process for every request above the limits, where the
checking functions report an error. -/
theorem C47_buffer_size_refuted (overhead : Nat) (m : Memory) (more moreData : Nat) :
    getBufferSize overhead m more moreData = none ↔ 8191 < more ∨ 4 * 65534 < moreData := by
  unfold getBufferSize estimateRo estimate Audit.maxFields maxBytesNetto
  by_cases c1 : more > 8191
  · rw [if_pos c1]; exact ⟨fun _ => Or.inl c1, fun _ => rfl⟩
  rw [if_neg c1]
  by_cases c2 : moreData > 4 * 65534
  · rw [if_pos c2]; exact ⟨fun _ => Or.inr c2, fun _ => rfl⟩
  rw [if_neg c2, if_neg (by omega), if_neg (by omega)]
  exact ⟨fun k => (by cases k), fun k => by omega⟩

/-! ## C41: creating through the C API -/

/-- **C41 (`fptu_space`).** It never ends the process, and caps the request. -/
theorem C41_space (overhead items data : Nat) :
    space overhead items data = some (overhead + min items 8191 * 4 + (min data (4 * 65534) + 3) / 4 * 4) := by
  unfold space estimate Audit.maxFields maxBytesNetto
  rw [if_neg (by omega), if_neg (by omega)]
  rfl

/-- **C41 (`fptu_alloc`).** Within the limits it is the creation of a tuple without a schema (`C41_create_partial`); above them it gives the null
pointer. -/
theorem C41_alloc (overhead : Nat) (mem : Memory) (items data : Nat) :
    (items ≤ 8191 ∧ data ≤ 4 * 65534 → ∀ s, alloc overhead mem items data = some s ↔ createNew overhead mem items data 0 0 [] = .ok s) ∧
    (8191 < items ∨ 4 * 65534 < data → alloc overhead mem items data = none) := by
  unfold alloc Audit.maxFields maxBytesNetto
  constructor
  · rintro ⟨h1, h2⟩ s
    rw [if_neg (by omega), C41_space, Nat.min_eq_left h1, Nat.min_eq_left h2]
    unfold createNew init
    have e1 : estimate overhead items data 0 false = .ok (overhead + items * 4 + (data + 3) / 4 * 4) := by
      unfold estimate Audit.maxFields maxBytesNetto
      rw [if_neg (by omega), if_neg (by omega)]
      rfl
    rw [e1]
    show (match construct overhead mem (overhead + items * 4 + (data + 3) / 4 * 4) items 0 [] with | .ok s => some s | .error _ => none) = _ ↔
      construct overhead mem (overhead + items * 4 + (data + 3) / 4 * 4 + 0) items 0 [] = _
    rw [Nat.add_zero]
    cases construct overhead mem (overhead + items * 4 + (data + 3) / 4 * 4) items 0 [] with
    | ok t => exact ⟨fun k => by rw [Option.some.inj k], fun k => by injection k with k; rw [k]⟩
    | error e => exact ⟨fun k => (by cases k), fun k => (by cases k)⟩
  · intro h
    rw [if_pos (by omega)]

/-- **C41 (`fptu_clear`).** Every tuple created for at least one item becomes what it was after creation. -/
theorem C41_clear {F : Fix} {s : RW} (h : History F none s) (h1 : 1 ≤ s.pivot) (h2 : s.pivot ≤ 8191) :
    ∃ mem, clear s = .code .ok (create mem s.pivot s.pre s.lim []) := by
  obtain ⟨mem, e⟩ := C41_reset h h1 h2 []
  refine ⟨mem, ?_⟩
  unfold clear
  rw [e]

/-- **C41 (refuted).** A tuple allocated for no items cannot be cleared. -/
theorem C41_clear_refuted : ∃ s, alloc 44 (fun _ => .zero) 0 100 = some s ∧ clear s = .code .inval s := ⟨_, rfl, rfl⟩

end Fptu.Props
