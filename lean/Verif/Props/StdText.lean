import Verif.Model.StdText
import Verif.Props.StringView
import Mathlib.Data.Nat.Find
/-! # C83: text views and standard strings -/
namespace Fptu.Props
open Fptu Fptu.SV

/-- The content of a standard string. -/
def stdText (M : Nat → Nat) (data size : Nat) : List Nat := (List.range size).map fun i => M (data + i)

theorem textOf_ofString (M : Nat → Nat) (data size : Nat) : textOf M (View.ofString data size) = some (stdText M data size) := by
  unfold textOf View.ofString stdText
  rw [if_neg (by simp only; omega)]
  simp

theorem textOf_toStd {M : Nat → Nat} {v : View} (h : v.len ≥ 0) : textOf M v = some (v.toStd M) := by
  unfold textOf View.toStd View.length bytes
  rw [if_neg (by omega), if_pos h]

/-- A view made from a standard string denotes its content, zero bytes included, and converts back to it. -/
theorem C83_from_std (M : Nat → Nat) (data size : Nat) :
    (View.ofString data size).toStd M = stdText M data size ∧ (View.ofStdView data size).toStd M = stdText M data size ∧
      (View.ofStdView data size).toStdView = (data, size) ∧ (View.ofString data size).length = size := by
  have h : (View.ofString data size).length = size := by
    unfold View.ofString View.length
    rw [if_pos (by simp only; omega)]
    simp
  have h' : (View.ofStdView data size).length = size := h
  refine ⟨?_, ?_, ?_, h⟩
  · unfold View.toStd; rw [h]; rfl
  · unfold View.toStd; rw [h']; rfl
  · unfold View.toStdView; rw [h']; rfl

/-- Looking at a view byte by byte: size, indices, first and last byte, the loop forwards and the loop backwards all agree with the
standard string it converts to. -/
theorem C83_bytes (M : Nat → Nat) (v : View) :
    (v.toStd M).length = v.length ∧ (∀ i, i < v.length → (v.toStd M)[i]? = some (v.index M i)) ∧
      v.front M = (v.toStd M).head? ∧ v.back M = (v.toStd M).getLast? ∧
      (∀ fuel, v.length ≤ fuel → walkUp M v.cend fuel v.cbegin = some (v.toStd M)) ∧
      (∀ fuel, v.length ≤ fuel → walkDown M v.cbegin fuel v.cend = some (v.toStd M).reverse) := by
  have hl : (v.toStd M).length = v.length := by unfold View.toStd bytes; simp
  have hup : ∀ n p fuel, n ≤ fuel → walkUp M (p + n) fuel p = some (bytes M p n) := by
    intro n
    induction n with
    | zero =>
      intro p fuel _
      cases fuel <;> (unfold walkUp; rw [if_pos (by omega)]; rfl)
    | succ n ih =>
      intro p fuel hf
      cases fuel with
      | zero => omega
      | succ fuel =>
        unfold walkUp
        have e : p + (n + 1) = p + 1 + n := by omega
        rw [if_neg (by omega), e, ih (p + 1) fuel (by omega)]
        unfold bytes
        rw [List.range_succ_eq_map]
        simp only [Option.map_some, List.map_cons, List.map_map, Nat.add_zero]
        congr 2
        apply List.map_congr_left
        intro i _
        simp only [Function.comp]
        congr 1
        omega
  have hdown : ∀ n p fuel, n ≤ fuel → walkDown M p fuel (p + n) = some (bytes M p n).reverse := by
    intro n
    induction n with
    | zero =>
      intro p fuel _
      cases fuel <;> (unfold walkDown; rw [if_pos (by omega)]; rfl)
    | succ n ih =>
      intro p fuel hf
      cases fuel with
      | zero => omega
      | succ fuel =>
        unfold walkDown
        have e : p + (n + 1) - 1 = p + n := by omega
        rw [if_neg (by omega), e, ih p fuel (by omega)]
        unfold bytes
        rw [List.range_succ]
        simp
  have hpos : v.len > 0 → v.length = (v.len - 1).toNat + 1 := by
    intro h
    unfold View.length
    rw [if_pos (by omega)]
    omega
  have hneg : ¬ v.len > 0 → v.length = 0 := by
    intro h
    unfold View.length
    split <;> omega
  refine ⟨hl, fun i hi => ?_, ?_, ?_, fun fuel hf => hup v.length v.str fuel hf, fun fuel hf => hdown v.length v.str fuel hf⟩
  · unfold View.toStd bytes View.index
    rw [List.getElem?_map, List.getElem?_range hi]
    rfl
  · unfold View.front View.toStd bytes
    by_cases h : v.len > 0
    · rw [if_pos h, hpos h, List.range_succ_eq_map]
      simp
    · rw [if_neg h, hneg h]
      rfl
  · unfold View.back View.toStd bytes
    by_cases h : v.len > 0
    · rw [if_pos h, hpos h, List.range_succ]
      simp
    · rw [if_neg h, hneg h]
      rfl

/-- A view made from a C string denotes the bytes before the first zero byte; a null pointer gives a nil view. -/
theorem C83_from_cstr {M : Nat → Nat} {p n : Nat} (hp : p ≠ 0) (hz : M (p + n) = 0) (hn : ∀ i, i < n → M (p + i) ≠ 0) (fuel : Nat)
    (hf : n < fuel) :
    ∃ v, View.ofCStr M p fuel = some v ∧ v.nil = false ∧ v.toStd M = stdText M p n ∧ View.ofCStr M 0 fuel = some View.default := by
  have hc : ∀ n p fuel, n < fuel → M (p + n) = 0 → (∀ i, i < n → M (p + i) ≠ 0) → cLength M p fuel = some n := by
    intro n
    induction n with
    | zero =>
      intro p fuel hf hz _
      cases fuel with
      | zero => omega
      | succ fuel => unfold cLength; rw [if_pos (show M p = 0 from hz)]
    | succ n ih =>
      intro p fuel hf hz hn
      cases fuel with
      | zero => omega
      | succ fuel =>
        unfold cLength
        rw [if_neg (show ¬ M p = 0 from hn 0 (by omega)), ih (p + 1) fuel (by omega) (by rw [← hz]; congr 1; omega)
          (fun i hi => by have := hn (i + 1) (by omega); rwa [show p + 1 + i = p + (i + 1) by omega])]
        rfl
  refine ⟨⟨p, n⟩, ?_, ?_, (C83_from_std M p n).1, ?_⟩
  · unfold View.ofCStr
    rw [if_pos hp, hc n p fuel hf hz hn]
    rfl
  · unfold View.nil
    simp only
    exact decide_eq_false (by omega)
  · unfold View.ofCStr
    rw [if_neg (by omega)]
    rfl

/-- A text with a zero byte is cut when it goes through a C string. -/
theorem C83_cstr_refuted {M : Nat → Nat} {p size n : Nat} (hp : p ≠ 0) (hs : n < size) (hz : M (p + n) = 0)
    (hn : ∀ i, i < n → M (p + i) ≠ 0) :
    ∃ v, View.ofCStr M p (n + 1) = some v ∧ v.toStd M ≠ stdText M p size ∧ v.toStd M = (stdText M p size).take n := by
  obtain ⟨v, h1, _, h2, _⟩ := C83_from_cstr hp hz hn (n + 1) (by omega)
  refine ⟨v, h1, ?_, ?_⟩
  · intro h
    have := congrArg List.length h
    rw [h2] at this
    unfold stdText at this
    simp at this
    omega
  · rw [h2]
    unfold stdText
    rw [← List.map_take, List.take_range]
    congr 2
    omega

/-- **C83 (arrays, partial).** An array of characters with a zero byte in it, assigned to a field, gives the text before that byte: a string literal without
zero bytes gives exactly its text. Missing: arrays without a zero byte (`C83_array_refuted`). -/
theorem C83_array_partial {M : Nat → Nat} {p size : Nat} (hp : p ≠ 0) (hz : ∃ i, i < size ∧ M (p + i) = 0) {fuel : Nat} (hf : size ≤ fuel) :
    ∃ v, View.ofArray M p size fuel = some v ∧ v.toStd M = (stdText M p size).takeWhile (· ≠ 0) ∧ v.toStd M <+: stdText M p (size - 1) := by
  classical
  obtain ⟨h1, h2⟩ := Nat.find_spec hz
  have h3 : ∀ i, i < Nat.find hz → M (p + i) ≠ 0 := fun i hi h => Nat.find_min hz hi ⟨by omega, h⟩
  generalize Nat.find hz = n at h1 h2 h3
  obtain ⟨v, e, _, g, _⟩ := C83_from_cstr hp h2 h3 fuel (by omega)
  have tk : ∀ m, n ≤ m → stdText M p n = (stdText M p m).take n := by
    intro m hm
    unfold stdText
    rw [← List.map_take, List.take_range]
    congr 2
    omega
  refine ⟨v, e, ?_, ?_⟩
  · rw [g]
    have hs : stdText M p size = stdText M p n ++ (0 :: (stdText M p size).drop (n + 1)) := by
      refine (List.take_append_drop n (stdText M p size)).symm.trans ?_
      rw [tk size (by omega)]
      congr 1
      have hl : n < (stdText M p size).length := by unfold stdText; simp; omega
      rw [List.drop_eq_getElem_cons hl]
      congr 1
      have : ∀ (l : List Nat) (hl : n < l.length), l = (List.range size).map (fun i => M (p + i)) → l[n] = 0 := by
        intro l hl hh
        subst hh
        simp [h2]
      exact this _ hl rfl
    rw [hs, List.takeWhile_append_of_pos]
    · simp
    · intro a ha
      unfold stdText at ha
      obtain ⟨i, hi, rfl⟩ := List.mem_map.mp ha
      simpa using h3 i (List.mem_range.mp hi)
  · rw [g, tk (size - 1) (by omega)]
    exact List.take_prefix _ _

/-- The literal "ab" of three characters. -/
example : ∃ v, View.ofArray (fun a => if a = 100 then 97 else if a = 101 then 98 else 0) 100 3 3 = some v ∧ v.len = 2 := ⟨_, rfl, rfl⟩

/-- **C83 (refuted).** An array filled up to its end, without a zero byte, is read beyond its end: the text has all bytes of the array and the bytes after it up to the
next zero byte, wherever that is. So for every such array and every memory around it. -/
theorem C83_array_refuted {M : Nat → Nat} {p size n : Nat} (hp : p ≠ 0) (hs : size ≤ n) (hz : M (p + n) = 0)
    (hn : ∀ i, i < n → M (p + i) ≠ 0) {fuel : Nat} (hf : n < fuel) :
    ∃ v, View.ofArray M p size fuel = some v ∧ v.toStd M = stdText M p size ++ stdText M (p + size) (n - size) ∧
      (size < n → v.toStd M ≠ stdText M p size) := by
  obtain ⟨v, e, _, g, _⟩ := C83_from_cstr hp hz hn fuel hf
  refine ⟨v, e, ?_, ?_⟩
  · rw [g]
    unfold stdText
    obtain ⟨d, rfl⟩ := Nat.exists_eq_add_of_le hs
    rw [List.range_add, List.map_append, List.map_map]
    congr 1
    rw [show size + d - size = d by omega]
    apply List.map_congr_left
    intro i _
    show M (p + (size + i)) = _
    rw [show p + (size + i) = p + size + i by omega]
  · intro hlt h
    have := congrArg List.length h
    rw [g] at this
    unfold stdText at this
    simp at this
    omega

/-- Two characters without a zero byte, followed by another object. -/
example : ∃ v, View.ofArray (fun a => if a < 105 then 97 else 0) 100 2 9 = some v ∧ v.len = 5 := ⟨_, rfl, rfl⟩

/-- A view that is not nil is equal to a standard string exactly if it converts to the same content, from both sides; it is equal
to the view of any string with the content it converts to, with equal hash. -/
theorem C83_equal {M : Nat → Nat} {v : View} {data size : Nat} (hv : ViewOk v) (h0 : v.len ≥ 0) (hs : size < 2 ^ 63 - 1) :
    (eqStd M v data size = some true ↔ v.toStd M = stdText M data size) ∧
      (stdEq M data size v = some true ↔ v.toStd M = stdText M data size) ∧
      (stdText M data size = v.toStd M → (View.ofString data size).hash M = v.hash M) := by
  have ho : ViewOk (View.ofString data size) := by unfold ViewOk View.ofString; simp only; omega
  have e1 := (C29_operators M v (.ofString data size) hv ho).1
  have e2 := (C29_operators M (.ofString data size) v ho hv).1
  rw [textOf_ofString, textOf_toStd h0, Option.some.injEq] at e1 e2
  refine ⟨e1, e2.trans eq_comm, fun h => C29_hash M _ _ ho hv (e2.2 h)⟩

/-- A nil view converts to the empty standard string and is equal to no string, not even to the one it converts to; converted to a
standard view and back it is no longer nil. -/
theorem C83_nil_refuted (M : Nat → Nat) (v : View) (hv : ViewOk v) (h0 : v.len < 0) :
    v.toStd M = [] ∧ (∀ data size, size < 2 ^ 63 - 1 → eqStd M v data size = some false ∧ stdEq M data size v = some false ∧
      ltStd M v data size = some true) ∧ (View.ofStdView v.toStdView.1 v.toStdView.2).nil = false := by
  have hl : v.length = 0 := by unfold View.length; rw [if_neg (by omega)]
  have hlen : v.len = -1 := by have := hv.1; omega
  refine ⟨?_, fun data size hs => ?_, ?_⟩
  · unfold View.toStd; rw [hl]; rfl
  · have e1 : compareStd M v data size = some (-1 - (size : Int)) := by
      unfold compareStd SV.compare View.ofString
      simp only [hlen]
      rw [if_neg (by omega), if_pos (by omega)]
    have e2 : stdCompare M data size v = some ((size : Int) + 1) := by
      unfold stdCompare SV.compare View.ofString
      simp only [hlen]
      rw [if_neg (by omega), if_pos (by omega)]
      congr 1
    unfold eqStd stdEq ltStd
    rw [e1, e2]
    refine ⟨?_, ?_, ?_⟩
    · simp only [Option.map_some, Option.some.injEq, beq_eq_false_iff_ne]; omega
    · simp only [Option.map_some, Option.some.injEq, beq_eq_false_iff_ne]; omega
    · simp only [Option.map_some, Option.some.injEq, decide_eq_true_eq]; omega
  · unfold View.nil View.ofStdView View.toStdView
    simp only
    exact decide_eq_false (by omega)

/-- Among texts of the same length the order of views is the order of standard strings. -/
theorem C83_order_partial {M : Nat → Nat} {v : View} {data size : Nat} (hv : ViewOk v) (h0 : v.len ≥ 0) (hs : size < 2 ^ 63 - 1)
    (hl : v.length = size) :
    (ltStd M v data size = some true ↔ LexLt (v.toStd M) (stdText M data size)) ∧
      (gtStd M v data size = some true ↔ LexLt (stdText M data size) (v.toStd M)) ∧
      (stdGt M data size v = some true ↔ LexLt (v.toStd M) (stdText M data size)) ∧
      (stdLt M data size v = some true ↔ LexLt (stdText M data size) (v.toStd M)) := by
  have ho : ViewOk (View.ofString data size) := by unfold ViewOk View.ofString; simp only; omega
  obtain ⟨_, a1, a2, _⟩ := C29_operators M v (.ofString data size) hv ho
  obtain ⟨_, b1, b2, _⟩ := C29_operators M (.ofString data size) v ho hv
  rw [textOf_ofString, textOf_toStd h0] at a1 a2 b1 b2
  have l1 : (v.toStd M).length = (stdText M data size).length := by
    rw [(C83_bytes M v).1, hl]; unfold stdText; simp
  have t1 : TextLt (some (v.toStd M)) (some (stdText M data size)) ↔ LexLt (v.toStd M) (stdText M data size) := by
    unfold TextLt; simp only [l1, Nat.lt_irrefl, false_or, true_and]
  have t2 : TextLt (some (stdText M data size)) (some (v.toStd M)) ↔ LexLt (stdText M data size) (v.toStd M) := by
    unfold TextLt; simp only [l1, Nat.lt_irrefl, false_or, true_and]
  exact ⟨a1.trans t1, a2.trans t2, b2.trans t1, b1.trans t2⟩

/-- A shorter text is always less, whatever the order of standard strings says; `"b" < "aa"`. -/
theorem C83_order_refuted :
    (∀ (M : Nat → Nat) (v : View) (data size : Nat), ViewOk v → v.len ≥ 0 → size < 2 ^ 63 - 1 → v.length < size →
      ltStd M v data size = some true ∧ stdLt M data size v = some false) ∧
    ∃ (M : Nat → Nat) (v : View) (data size : Nat), ViewOk v ∧ v.toStd M = [98] ∧ stdText M data size = [97, 97] ∧
      LexLt (stdText M data size) (v.toStd M) ∧ ltStd M v data size = some true := by
  have key : ∀ (M : Nat → Nat) (v : View) (data size : Nat), ViewOk v → v.len ≥ 0 → size < 2 ^ 63 - 1 → v.length < size →
      ltStd M v data size = some true ∧ stdLt M data size v = some false := by
    intro M v data size hv h0 hs hl
    have hlen : v.len < size := by
      unfold View.length at hl
      rw [if_pos h0] at hl
      omega
    have := hv.2
    constructor
    · unfold ltStd compareStd SV.compare View.ofString
      simp only
      rw [if_neg (by omega), if_pos (by omega)]
      simp only [Option.map_some, Option.some.injEq, decide_eq_true_eq]
      omega
    · unfold stdLt stdCompare SV.compare View.ofString
      simp only
      rw [if_neg (by omega), if_pos (by omega)]
      simp only [Option.map_some, Option.some.injEq, decide_eq_false_iff_not]
      omega
  refine ⟨key, fun p => if p = 10 then 98 else 97, ⟨10, 1⟩, 20, 2, (by decide), (by decide), (by decide), ?_, ?_⟩
  · exact (C37_cmp_binary_lex _ _).1.1 (by decide)
  · exact (key _ _ _ _ (by decide) (by decide) (by decide) (by decide)).1

/-! ## Cases -/

/-- A text with a zero byte inside. -/
example : (View.ofString 100 4).toStd (fun p => if p = 102 then 0 else p) = [100, 101, 0, 103] ∧
    (View.ofCStr (fun p => if p = 102 then 0 else p) 100 3) = some ⟨100, 2⟩ ∧ (⟨100, 4⟩ : View).back (fun p => p) = some 103 ∧
    (⟨100, 0⟩ : View).front (fun p => p) = none ∧ ViewOk View.default ∧ View.default.len < 0 ∧
    walkUp (fun p => p) (View.cend ⟨100, 4⟩) 4 (View.cbegin ⟨100, 4⟩) = some [100, 101, 102, 103] := by
  refine ⟨by decide, by decide, by decide, by decide, by decide, by decide, by decide⟩

end Fptu.Props
