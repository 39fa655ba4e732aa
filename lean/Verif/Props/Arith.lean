import Verif.Lemmas.Arith
/-!
# C23, C24: integer printing and wide-arithmetic helpers

Specifications here do not mention the model's helpers: a text is *the decimal text of n* when it is
the canonical digit string whose positional value is `n`; the arithmetic helpers are compared with
unbounded integer arithmetic.
-/
namespace Fptu.Props
open Fptu.Arith

/-- Positional value of a list of character codes. -/
def textValue (l : List Nat) : Nat := l.foldl (fun acc c => acc * 10 + (c - 48)) 0

/-- `l` is the canonical decimal text of `n`: digits only, value `n`, no superfluous leading zero. -/
structure IsDecimalText (l : List Nat) (n : Nat) : Prop where
  digits : ∀ c ∈ l, 48 ≤ c ∧ c ≤ 57
  value : textValue l = n
  nonempty : l ≠ []
  canonical : l.head? = some 48 → l = [48]

private theorem textValue_snoc (l : List Nat) (c : Nat) :
    textValue (l ++ [c]) = textValue l * 10 + (c - 48) := by
  simp [textValue, List.foldl_append]

private theorem head?_decimal_pos (n : Nat) (h : 0 < n) : ∃ c, (decimal n).head? = some c ∧ c ≠ 48 := by
  induction n using Nat.strongRecOn with
  | _ n ih =>
    by_cases h10 : n < 10
    · rw [decimal_lt h10]; exact ⟨48 + n, rfl, by omega⟩
    · rw [decimal_ge (by omega)]
      obtain ⟨c, hc, hne⟩ := ih (n / 10) (by omega) (by omega)
      exact ⟨c, by simp [List.head?_append, hc], hne⟩

theorem decimal_isDecimalText (n : Nat) : IsDecimalText (decimal n) n := by
  refine ⟨?_, ?_, ?_, ?_⟩
  · induction n using Nat.strongRecOn with
    | _ n ih =>
      by_cases h10 : n < 10
      · rw [decimal_lt h10]; intro c hc; simp at hc; omega
      · rw [decimal_ge (by omega)]
        intro c hc
        rcases List.mem_append.1 hc with h | h
        · exact ih _ (by omega) c h
        · simp at h; omega
  · induction n using Nat.strongRecOn with
    | _ n ih =>
      by_cases h10 : n < 10
      · rw [decimal_lt h10]; simp [textValue]
      · rw [decimal_ge (by omega), textValue_snoc, ih _ (by omega)]; omega
  · by_cases h10 : n < 10
    · rw [decimal_lt h10]; simp
    · rw [decimal_ge (by omega)]; simp
  · intro h
    rcases Nat.eq_zero_or_pos n with rfl | hp
    · exact decimal_lt (by omega)
    · obtain ⟨c, hc, hne⟩ := head?_decimal_pos n hp
      rw [hc] at h; simp at h; omega

/-- The canonical text is unique, so the specification pins down the output completely. -/
theorem isDecimalText_unique {l m : List Nat} {n : Nat} (hl : IsDecimalText l n)
    (hm : IsDecimalText m n) : l = m := by
  suffices H : ∀ (l : List Nat) n, IsDecimalText l n → l = decimal n by
    rw [H l n hl, H m n hm]
  clear hl hm l m n
  intro l
  induction hk : l.length using Nat.strongRecOn generalizing l with
  | _ k ih =>
    intro n h
    obtain ⟨l', c, rfl⟩ : ∃ l' c, l = l' ++ [c] :=
      ⟨l.dropLast, l.getLast h.nonempty, (List.dropLast_concat_getLast h.nonempty).symm⟩
    have hc := h.digits c (by simp)
    have hv := h.value
    rw [textValue_snoc] at hv
    cases l' with
    | nil =>
      simp [textValue] at hv
      rw [decimal_lt (by omega)]; simp; omega
    | cons d t =>
      have hd := h.digits d (by simp)
      have hd48 : d ≠ 48 := by
        intro e; subst e
        have := h.canonical (by simp)
        simp at this
      have h' : IsDecimalText (d :: t) (textValue (d :: t)) :=
        ⟨fun x hx => h.digits x (List.mem_append_left _ hx), rfl, by simp,
          fun e => by simp at e; omega⟩
      have e := ih (d :: t).length (by rw [← hk]; simp) (d :: t) rfl _ h'
      have hpos : 0 < textValue (d :: t) := by
        rcases Nat.eq_zero_or_pos (textValue (d :: t)) with z | p
        · rw [z, decimal_lt (by omega)] at e
          simp at e; omega
        · exact p
      rw [decimal_ge (by omega)]
      have : n / 10 = textValue (d :: t) := by omega
      rw [this, ← e]
      congr 2; omega

/-- **C23 (unsigned 32-bit).** `u2a` appends exactly the canonical decimal text. -/
theorem C23_u2a32 (u : Nat) (h : u < 2 ^ 32) (out : List Nat) :
    ∃ t, u2a32 u out = out ++ t ∧ IsDecimalText t u :=
  ⟨_, u2a32_eq h out, decimal_isDecimalText u⟩

example : u2a32 4294967295 [] = "4294967295".toList.map Char.toNat := by decide +kernel

/-- **C23 (digit groups).** The group printers print the shortest decimal text of their argument, or,
when forced, exactly three or four digits with leading zeros. -/
theorem C23_digit_groups (v : Nat) (out : List Nat) :
    (v < 100 → ∃ t, dec2 v out false = out ++ t ∧ IsDecimalText t v) ∧
    (v < 1000 → ∃ t, dec3 v out false = out ++ t ∧ IsDecimalText t v) ∧
    (v < 10000 → ∃ t, dec4 v out false = out ++ t ∧ IsDecimalText t v) ∧
    (v < 1000 → dec3 v out true = out ++ [48 + v / 100, 48 + v / 10 % 10, 48 + v % 10]) :=
  ⟨fun h => ⟨_, dec2_free h out, decimal_isDecimalText v⟩,
   fun h => ⟨_, dec3_free h out, decimal_isDecimalText v⟩,
   fun h => ⟨_, dec4_free h out, decimal_isDecimalText v⟩,
   fun h => dec3_force h out⟩

example : dec3 107 [] false = [49, 48, 55] ∧ dec3 7 [] true = [48, 48, 55] := by decide +kernel

/-- **C23 (unsigned 64-bit).** -/
theorem C23_u2a64 (u : Nat) (h : u < 2 ^ 64) (out : List Nat) :
    ∃ t, u2a64 u out = out ++ t ∧ IsDecimalText t u :=
  ⟨_, u2a64_eq h out, decimal_isDecimalText u⟩

example : u2a64 18446744073709551615 [] = "18446744073709551615".toList.map Char.toNat := by
  decide +kernel
example : u2a64 1000000000001 [] = "1000000000001".toList.map Char.toNat := by decide +kernel

/-- Signed text: optional minus sign, then the canonical text of the absolute value. -/
def IsSignedText (l : List Nat) (v : Int) : Prop :=
  ∃ t, l = (if v < 0 then 45 :: t else t) ∧ IsDecimalText t v.natAbs

/-- **C23 (signed 32-bit), partial.** Every value but `INT32_MIN`, for which the code relies on signed
overflow (see `C23_i2a_min_undefined`). -/
theorem C23_i2a32_partial (v : Int) (h1 : -2147483648 < v) (h2 : v < 2147483648) :
    ∃ l, i2a32 v = some l ∧ IsSignedText l v := by
  have e := branchlessAbs_eq (bits := 32) (v := v) (by omega) (by simpa using h1) (by simpa using h2)
  unfold i2a32
  rw [e]
  refine ⟨_, rfl, decimal v.natAbs, ?_, decimal_isDecimalText _⟩
  simp only
  rw [u2a32_eq (by omega)]
  by_cases hv : v < 0 <;> simp [hv, put]

/-- **C23 (signed 64-bit), partial.** -/
theorem C23_i2a64_partial (v : Int) (h1 : -9223372036854775808 < v) (h2 : v < 9223372036854775808) :
    ∃ l, i2a64 v = some l ∧ IsSignedText l v := by
  have e := branchlessAbs_eq (bits := 64) (v := v) (by omega) (by simpa using h1) (by simpa using h2)
  unfold i2a64
  rw [e]
  refine ⟨_, rfl, decimal v.natAbs, ?_, decimal_isDecimalText _⟩
  simp only
  rw [u2a64_eq (by omega)]
  by_cases hv : v < 0 <;> simp [hv, put]

example : i2a64 (-1234567890123) = some ("-1234567890123".toList.map Char.toNat) := by decide +kernel

/-- **C23, refuted at the minimum.** For the most negative value `branchless_abs` evaluates
`INT_MIN + -1` in signed arithmetic: undefined behaviour. -/
theorem C23_i2a_min_undefined :
    i2a32 (-2147483648) = none ∧ i2a64 (-9223372036854775808) = none := by decide +kernel

/-- **C23 under wrapping signed arithmetic** (`-fwrapv`, the usual machine code): the absolute value is
right for every signed value including the minimum, so the printed text is right as well. -/
theorem C23_i2a_wrapping (v : Int) (h1 : -9223372036854775808 ≤ v) (h2 : v < 9223372036854775808) :
    IsSignedText (u2a64 (branchlessAbsWrap 64 v).2
      (put [] 45 ((branchlessAbsWrap 64 v).1 = -1))) v := by
  rw [branchlessAbsWrap_eq (by omega) (by simpa using h1) (by simpa using h2)]
  refine ⟨decimal v.natAbs, ?_, decimal_isDecimalText _⟩
  simp only
  rw [u2a64_eq (by omega)]
  by_cases hv : v < 0 <;> simp [hv, put]

/-! ## C24 -/

/-- **C24 (multiply).** The 64×64→128 product is exact. -/
theorem C24_mul128 (a b : Nat) (ha : a < 2 ^ 64) (hb : b < 2 ^ 64) :
    (mul64x64_128 a b).1 < 2 ^ 64 ∧ (mul64x64_128 a b).2 < 2 ^ 64 ∧
    (mul64x64_128 a b).2 * 2 ^ 64 + (mul64x64_128 a b).1 = a * b := by
  have hs := mul128_split a b
  have ha' : a / 2 ^ 32 < 2 ^ 32 := by omega
  have hb' : b / 2 ^ 32 < 2 ^ 32 := by omega
  have ha2 : a % 2 ^ 32 < 2 ^ 32 := by omega
  have hb2 : b % 2 ^ 32 < 2 ^ 32 := by omega
  have bnd : ∀ x y : Nat, x < 2 ^ 32 → y < 2 ^ 32 → x * y ≤ (2 ^ 32 - 1) * (2 ^ 32 - 1) :=
    fun x y hx hy => Nat.mul_le_mul (by omega) (by omega)
  have b1 := bnd _ _ ha' hb'
  have b2 := bnd _ _ ha' hb2
  have b3 := bnd _ _ ha2 hb'
  have b4 := bnd _ _ ha2 hb2
  unfold mul64x64_128 mul32x32_64 add64carryFirst add64carryLast
  simp only [Nat.shiftRight_eq_div_pow, Nat.shiftLeft_eq, Nat.mod_eq_of_lt ha', Nat.mod_eq_of_lt hb']
  rw [hs]
  generalize (a / 2 ^ 32) * (b / 2 ^ 32) = hh at *
  generalize (a / 2 ^ 32) * (b % 2 ^ 32) = lh at *
  generalize (a % 2 ^ 32) * (b / 2 ^ 32) = hl at *
  generalize (a % 2 ^ 32) * (b % 2 ^ 32) = ll at *
  have tot : a * b ≤ (2 ^ 64 - 1) * (2 ^ 64 - 1) := Nat.mul_le_mul (by omega) (by omega)
  rw [hs] at tot
  simp only [Nat.reducePow, Nat.reduceMul, Nat.reduceSub] at *
  refine ⟨by omega, by omega, ?_⟩
  split <;> split <;> omega

example : mul64x64_128 18446744073709551615 18446744073709551615 = (1, 18446744073709551614) := by
  decide +kernel

/-- **C24 (carry addition).** A `first`/`next` pair produces the sum modulo 2^64 and the exact carry. -/
theorem C24_carry_exact (carry base addend : Nat) (hc : carry ≤ 1) (hb : base < 2 ^ 64)
    (ha : addend < 2 ^ 64) :
    (add64carryFirst base addend).1 * 2 ^ 64 + (add64carryFirst base addend).2 = base + addend ∧
    (add64carryNext carry base addend).1 * 2 ^ 64 + (add64carryNext carry base addend).2 =
      base + addend + carry ∧
    add64carryLast carry base addend = (base + addend + carry) % 2 ^ 64 := by
  unfold add64carryFirst add64carryNext add64carryLast
  refine ⟨?_, ?_, rfl⟩
  · simp only; split <;> omega
  · simp only; split <;> omega

/-- Value of a little-endian list of 64-bit limbs. -/
def limbs : List Nat → Nat
  | [] => 0
  | x :: xs => x + 2 ^ 64 * limbs xs

/-- Chained multi-limb addition as callers do it: `first` for limb 0 (carry 0), `next` afterwards. -/
def addLimbs : Nat → List Nat → List Nat → List Nat × Nat
  | c, x :: xs, y :: ys =>
    let (c', s) := add64carryNext c x y
    let (r, cf) := addLimbs c' xs ys
    (s :: r, cf)
  | c, _, _ => ([], c)

/-- **C24 (carry chains).** For any number of limbs a chain of carry additions is exact. -/
theorem C24_carry_chain (xs ys : List Nat) (hl : xs.length = ys.length)
    (hx : ∀ x ∈ xs, x < 2 ^ 64) (hy : ∀ y ∈ ys, y < 2 ^ 64) (c : Nat) (hc : c ≤ 1) :
    (addLimbs c xs ys).2 ≤ 1 ∧
    limbs (addLimbs c xs ys).1 + (2 ^ 64) ^ xs.length * (addLimbs c xs ys).2 =
      limbs xs + limbs ys + c := by
  induction xs generalizing ys c with
  | nil =>
    cases ys with
    | nil => simp [addLimbs, limbs, hc]
    | cons _ _ => simp at hl
  | cons x xs ih =>
    cases ys with
    | nil => simp at hl
    | cons y ys =>
      have hx0 := hx x (by simp)
      have hy0 := hy y (by simp)
      have hc' : (add64carryNext c x y).1 ≤ 1 := by unfold add64carryNext; simp only; split <;> omega
      have h := (C24_carry_exact c x y hc hx0 hy0).2.1
      obtain ⟨i1, i2⟩ := ih ys (by simpa using hl) (fun z hz => hx z (by simp [hz]))
        (fun z hz => hy z (by simp [hz])) (add64carryNext c x y).1 hc'
      simp only [addLimbs, limbs, List.length_cons]
      refine ⟨i1, ?_⟩
      rw [show (2 ^ 64) ^ (xs.length + 1) * (addLimbs (add64carryNext c x y).fst xs ys).2 =
        2 ^ 64 * ((2 ^ 64) ^ xs.length * (addLimbs (add64carryNext c x y).fst xs ys).2) by
          rw [Nat.pow_succ (n := 2 ^ 64), Nat.mul_assoc, Nat.mul_left_comm]]
      generalize (addLimbs (add64carryNext c x y).fst xs ys) = r at *
      generalize (2 ^ 64) ^ xs.length * r.2 = q at *
      omega

example : addLimbs 0 [2 ^ 64 - 1, 2 ^ 64 - 1] [1, 0] = ([0, 0], 1) := by decide +kernel

/-- **C24 (count leading zeros).** All three variants return the number of zero bits above the most
significant set bit, for every nonzero argument. -/
theorem C24_clz (v : Nat) (hv : 0 < v) :
    (v < 2 ^ 32 → clz32 v < 32 ∧ 2 ^ (31 - clz32 v) ≤ v ∧ v < 2 ^ (32 - clz32 v)) ∧
    (v < 2 ^ 64 → clz64 v < 64 ∧ 2 ^ (63 - clz64 v) ≤ v ∧ v < 2 ^ (64 - clz64 v)) ∧
    (v < 2 ^ 64 → clz64on32 v = clz64 v) := by
  have hl := Nat.log2_self_le (n := v) (by omega)
  have hu := Nat.lt_log2_self (n := v)
  refine ⟨fun h => ?_, fun h => ?_, fun h => ?_⟩
  · have hlt := (Nat.log2_lt (n := v) (k := 32) (by omega)).2 h
    rw [clz32_log2 hv h]
    refine ⟨by omega, ?_, ?_⟩
    · rw [show 31 - (31 - v.log2) = v.log2 by omega]; exact hl
    · rw [show 32 - (31 - v.log2) = v.log2 + 1 by omega]; exact hu
  · have hlt := (Nat.log2_lt (n := v) (k := 64) (by omega)).2 h
    rw [clz64_log2 hv h]
    refine ⟨by omega, ?_, ?_⟩
    · rw [show 63 - (63 - v.log2) = v.log2 by omega]; exact hl
    · rw [show 64 - (63 - v.log2) = v.log2 + 1 by omega]; exact hu
  · rw [clz64_log2 hv h, clz64on32_log2 hv h]

example : clz32 1 = 31 ∧ clz32 0x80000000 = 0 ∧ clz64 0x100000000 = 31 := by decide +kernel

/-- Byte `i` of a word. -/
def byteAt (v i : Nat) : Nat := v / 2 ^ (8 * i) % 256

/-- **C24 (byte swap).** Byte `i` of the result is byte `n-1-i` of the argument. -/
theorem C24_bswap (v : Nat) :
    (v < 2 ^ 64 → bswap64 v < 2 ^ 64 ∧ ∀ i, i < 8 → byteAt (bswap64 v) i = byteAt v (7 - i)) ∧
    (v < 2 ^ 32 → bswap32 v < 2 ^ 32 ∧ ∀ i, i < 4 → byteAt (bswap32 v) i = byteAt v (3 - i)) := by
  have key : ∀ w x n : Nat, w < 2 ^ (8 * n) → x < 2 ^ (8 * n) →
      (∀ k, k < 8 * n → w.testBit k = x.testBit (8 * (n - 1 - k / 8) + k % 8)) →
      ∀ i, i < n → byteAt w i = byteAt x (n - 1 - i) := by
    intro w x n _ _ h i hi
    unfold byteAt
    apply Nat.eq_of_testBit_eq
    intro j
    rw [show (256 : Nat) = 2 ^ 8 from rfl, Nat.testBit_mod_two_pow, Nat.testBit_mod_two_pow,
      Nat.testBit_div_two_pow, Nat.testBit_div_two_pow]
    by_cases hj : j < 8
    · simp only [hj, decide_true, Bool.true_and]
      rw [h _ (by omega)]
      congr 1; omega
    · simp [hj]
  constructor
  · intro h
    have hb : bswap64 v < 2 ^ 64 := bswap64_lt h
    exact ⟨hb, key _ v 8 hb h (bswap64_bit h)⟩
  · intro h
    have hb : bswap32 v < 2 ^ 32 := bswap32_lt h
    exact ⟨hb, key _ v 4 hb h (bswap32_bit h)⟩

example : bswap64 0x0102030405060708 = 0x0807060504030201 ∧ bswap32 0x01020304 = 0x04030201 := by
  decide +kernel

/-- **C24 (absolute value).** Away from the minimum the absolute value is exact; with wrapping
arithmetic it is exact everywhere. -/
theorem C24_abs (bits : Nat) (hb : 0 < bits) (v : Int) (h1 : -(2 ^ (bits - 1) : Int) ≤ v)
    (h2 : v < 2 ^ (bits - 1)) :
    (branchlessAbsWrap bits v).2 = v.natAbs ∧
    (v ≠ -(2 ^ (bits - 1) : Int) → (branchlessAbs bits v).map (·.2) = some v.natAbs) ∧
    (v = -(2 ^ (bits - 1) : Int) → branchlessAbs bits v = none) := by
  refine ⟨?_, ?_, ?_⟩
  · rw [branchlessAbsWrap_eq hb h1 h2]
  · intro hne
    rw [branchlessAbs_eq hb (by omega) h2]; rfl
  · rintro rfl; exact branchlessAbs_min hb

end Fptu.Props
