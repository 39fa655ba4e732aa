import Verif.Lemmas.D2aRound
/-!
# C49, C52: the text of a floating-point number reads back as the same number

A text denotes a rational number by its own grammar; the number of a double comes from its bits by IEEE 754. Both are independent of the
printer. "Reads back" is expressed without a reader: the number of the text is strictly closer to the printed double than to any other
double, and closer than to `±2 ^ 1024`, the number that infinity stands for when it is rounded to. So a reader that rounds to nearest gives the printed double,
whatever its rule for ties.
-/
namespace Fptu.Props
open Fptu.Arith Fptu.D2a Fptu.Num

/-- `t` is `-`? digits (`e` sign digits)?: a number without superfluous zeros and, after `e`, a non-zero exponent. -/
structure ScientificText (t : List Nat) (negative : Bool) (n : Nat) (x : Int) : Prop where
  shape : ∃ D E, t = (if negative then [45] else []) ++ D ++ E ∧ IsDecimalText D n ∧
    ((x = 0 ∧ E = []) ∨ (x ≠ 0 ∧ ∃ X, E = 101 :: (if x < 0 then 45 else 43) :: X ∧ IsDecimalText X x.natAbs))

/-- `q` is read as `v` by any reader that rounds to the nearest double; it is closer to `v` than half of the way to any other double. -/
structure ReadsAs (q v : ℚ) : Prop where
  closest : ∀ b w, ieeeValue 52 11 b = some w → w ≠ v → |q - v| < |q - w|
  finite : |q - v| < |q - 2 ^ 1024| ∧ |q - v| < |q + 2 ^ 1024|
  half : ∀ b w, ieeeValue 52 11 b = some w → w ≠ v → 2 * |q - v| < |v - w|

theorem decimal_short {n k : Nat} (h : n < 10 ^ (k + 1)) : (decimal n).length ≤ k + 1 := by
  induction k generalizing n with
  | zero => rw [decimal_lt (by omega)]; simp
  | succ k ih =>
    by_cases c : n < 10
    · rw [decimal_lt c]; simp
    · rw [decimal_ge (by omega), List.length_append]
      have := ih (n := n / 10) (by rw [pow_succ] at h; omega)
      simp
      omega

theorem not_huge {m : Nat} {e : Int} (h : Fin64 m e) : (m : ℚ) * 2 ^ e < 2 ^ 1024 := by
  have h1 : (m : ℚ) < 2 ^ 53 := by exact_mod_cast h.lt
  have h2 : (2 : ℚ) ^ e ≤ 2 ^ (971 : Int) := zpow_le_zpow_right₀ (by norm_num) h.hi
  have h3 : (0 : ℚ) < 2 ^ e := by positivity
  calc (m : ℚ) * 2 ^ e < 2 ^ 53 * 2 ^ e := mul_lt_mul_of_pos_right h1 h3
    _ ≤ 2 ^ 53 * 2 ^ (971 : Int) := mul_le_mul_of_nonneg_left h2 (by positivity)
    _ = 2 ^ 1024 := by
      rw [show (971 : Int) = ((971 : Nat) : Int) from rfl, zpow_natCast, ← pow_add]

theorem readsAs_of {m : Nat} {e : Int} (h : Fin64 m e) {R : ℚ} (hR : |R - m * 2 ^ e| < radius m e) (s : Bool) :
    ReadsAs ((if s then -1 else 1) * R) ((if s then -1 else 1) * m * 2 ^ e) := by
  have flip : ∀ w : ℚ, |(if s then -1 else 1) * R - w| = |R - (if s then -1 else 1) * w| := fun w => by
    cases s
    · simp
    · simp only [if_true]
      rw [← abs_neg]
      congr 1
      ring
  have self : |(if s then -1 else 1) * R - (if s then -1 else 1) * m * 2 ^ e| = |R - m * 2 ^ e| := by
    rw [flip]
    congr 2
    cases s <;> simp
  have hp : (0 : ℚ) < m * 2 ^ e := lt_of_lt_of_le (by positivity) h.ge
  have hb := not_huge h
  refine ⟨fun b w hw hne => ?_, ⟨?_, ?_⟩, fun b w hw hne => ?_⟩
  · rw [self, flip]
    refine nearest h.weak hR ?_ ?_
    · cases s
      · simpa using grid_of_bits hw
      · simpa using (grid_of_bits hw).opp
    · intro k
      apply hne
      rw [mul_assoc, ← k]
      cases s <;> simp
  · rw [self, flip]
    refine nearest h.weak hR ?_ ?_
    · cases s
      · simpa using grid_huge
      · simpa using grid_huge.opp
    · generalize (2 : ℚ) ^ 1024 = B at *
      cases s
      · simpa using hb.ne'
      · simp only [if_true]; intro k; linarith
  · rw [self, ← sub_neg_eq_add, flip]
    refine nearest h.weak hR ?_ ?_
    · cases s
      · simpa using grid_huge.opp
      · simpa using grid_huge
    · generalize (2 : ℚ) ^ 1024 = B at *
      cases s
      · simp only [Bool.false_eq_true, if_false]; intro k; linarith
      · simpa using hb.ne'
  · rw [self]
    have key : |(if s then -1 else 1) * m * 2 ^ e - w| = |m * 2 ^ e - (if s then -1 else 1) * w| := by
      cases s
      · simp
      · simp only [if_true]
        rw [← abs_neg]
        congr 1
        ring
    rw [key]
    have hw' : Grid ((if s then -1 else 1) * w) := by
      cases s
      · simpa using grid_of_bits hw
      · simpa using (grid_of_bits hw).opp
    have := far h.weak hw' (by
      intro k
      apply hne
      rw [mul_assoc, ← k]
      cases s <;> simp)
    linarith

theorem readsAs_zero : ReadsAs 0 0 := by
  refine ⟨fun b w _ hw => ?_, ⟨?_, ?_⟩, fun b w _ hw => ?_⟩
  · rw [sub_zero, abs_zero, zero_sub, abs_neg]; exact abs_pos.2 hw
  · rw [sub_zero, abs_zero, zero_sub, abs_neg]; exact abs_pos.2 (by positivity)
  · rw [sub_zero, abs_zero, zero_add]; exact abs_pos.2 (by positivity)
  · rw [sub_zero, abs_zero, mul_zero, zero_sub, abs_neg]; exact abs_pos.2 hw

/-- The integers of the fast mode are printed as they are. -/
theorem convert_integer {m : Nat} {e : Int} (h : Fin64 m e) {n : Nat} (hn : convert false true ⟨m, e⟩ = some (.integer n)) :
    n < 2 ^ 64 ∧ (n : ℚ) = m * 2 ^ e := by
  unfold convert at hn
  dsimp only at hn
  have := h.hi
  have := h.pos
  rw [if_neg (by omega), if_neg (by omega)] at hn
  split at hn
  · rename_i c
    obtain ⟨-, -, c1, c2, c3⟩ := c
    have hn := Parts.integer.inj (Option.some.inj hn)
    by_cases c4 : e < 0
    · rw [if_pos c4] at hn
      rcases c3 with c3 | c3
      · omega
      obtain ⟨k, hk⟩ : ∃ k : Nat, e = -k := ⟨(-e).toNat, by omega⟩
      have hk52 : k ≤ 52 := by omega
      rw [hk, neg_neg, Int.toNat_natCast] at hn
      rw [hk, show (64 + -(k : Int)).toNat = 64 - k by omega] at c3
      have hd : 2 ^ k ∣ m := by
        have : 2 ^ 64 ∣ m * 2 ^ (64 - k) := Nat.dvd_of_mod_eq_zero c3
        rw [show 64 = k + (64 - k) by omega, pow_add, show k + (64 - k) - k = 64 - k by omega] at this
        exact Nat.dvd_of_mul_dvd_mul_right (by positivity) this
      obtain ⟨j, hj⟩ := hd
      have hp : 0 < 2 ^ k := by positivity
      rw [hj, Nat.mul_div_cancel_left _ hp] at hn
      have hm := h.lt
      refine ⟨?_, ?_⟩
      · have : m / 2 ^ k ≤ m := Nat.div_le_self _ _
        rw [hj, Nat.mul_div_cancel_left _ hp, ← hj] at this
        omega
      · rw [hj, hk, ← hn, zpow_neg, zpow_natCast]
        push_cast
        field_simp
    · rw [if_neg c4] at hn
      obtain ⟨k, hk⟩ : ∃ k : Nat, e = k := ⟨e.toNat, by omega⟩
      rw [hk, Int.toNat_natCast] at hn
      have hlz := clz64_log2 h.pos (show m < 2 ^ 64 by have := h.lt; omega)
      have hl := Nat.lt_log2_self (n := m)
      have hl3 : Nat.log2 m < 53 := (Nat.log2_lt (by omega)).2 h.lt
      have hlt : m * 2 ^ k < 2 ^ 64 := by
        have h1 : m * 2 ^ k < 2 ^ (Nat.log2 m + 1) * 2 ^ k := Nat.mul_lt_mul_of_pos_right hl (by positivity)
        rw [← pow_add] at h1
        have h2 : 2 ^ (Nat.log2 m + 1 + k) ≤ 2 ^ 64 := Nat.pow_le_pow_right (by norm_num) (by rw [hlz] at c2; omega)
        omega
      rw [Nat.mod_eq_of_lt hlt] at hn
      refine ⟨by omega, ?_⟩
      rw [← hn, hk, zpow_natCast]
      push_cast
      rfl
  · exfalso
    revert hn
    cases generate false ⟨m, e⟩ <;> simp

/-- **C49.** For every finite double, in both modes of the printer: a text of at most 23 characters is made, it has the sign of the double
(zero included), at most 17 digits unless it is the exact integer, an exponent unless that is zero, and it reads back as the same double. -/
theorem C49_roundtrip (accurate : Bool) (bits : Nat) (v : ℚ) (hv : ieeeValue 52 11 bits = some v) :
    ∃ t n x, d2a accurate bits = some t ∧ t.length ≤ 23 ∧ ScientificText t (isNegative bits) n x ∧
      (n < 10 ^ 17 ∨ (x = 0 ∧ |v| = n)) ∧ ReadsAs ((if isNegative bits then -1 else 1) * n * 10 ^ x) v := by
  obtain ⟨h1, h2⟩ := ofBits_value hv
  unfold d2a
  generalize isNegative bits = s at *
  have hsign : put [] 45 s = if s then [45] else [] := by cases s <;> rfl
  have hslen : (if s then [45] else [] : List Nat).length ≤ 1 := by cases s <;> simp
  rcases hd : Diy.ofBits bits with ⟨m, e⟩
  rw [hd] at h1 h2
  dsimp only at h1 h2
  rcases h2 with ⟨h2, h3⟩ | h2
  · -- zero
    subst h2 h3
    refine ⟨(if s then [45] else []) ++ [48], 0, 0, ?_, ?_, ⟨[48], [], by simp, ?_, .inl ⟨rfl, rfl⟩⟩, .inl (by norm_num), ?_⟩
    · cases s <;> rfl
    · rw [List.length_append, List.length_singleton]; omega
    · rw [← decimal_lt (show 0 < 10 by omega)]; exact decimal_isDecimalText 0
    · rw [h1]; simpa using readsAs_zero
  · have hpos := h2.pos
    have hhi := h2.hi
    obtain ⟨ds, x, g1, g2, g3, g4, g5, g6, g7⟩ := generate_spec h2 accurate
    have main : ∀ p, convert accurate true ⟨m, e⟩ = some p → (p = .digits ds x ∨ ∃ n, p = .integer n ∧ accurate = false) := by
      intro p hp
      unfold convert at hp
      dsimp only at hp
      rw [if_neg (by omega), if_neg (by omega)] at hp
      split at hp
      · rename_i c
        exact .inr ⟨_, (Option.some.inj hp).symm, c.1⟩
      · rw [g1] at hp
        exact .inl (Option.some.inj hp).symm
    have ex : ∃ p, convert accurate true ⟨m, e⟩ = some p := by
      unfold convert
      dsimp only
      rw [if_neg (by omega), if_neg (by omega)]
      split
      · exact ⟨_, rfl⟩
      · rw [g1]; exact ⟨_, rfl⟩
    obtain ⟨p, hp⟩ := ex
    rw [hp, Option.bind_some]
    rcases main p hp with k | ⟨n, k, ka⟩
    · subst k
      have hD := decimal_isDecimalText (val ds)
      have hlen : (decimal (val ds)).length ≤ 17 := by rw [← chars_decimal g2 g3, chars_length]; exact g4
      have hx : x.natAbs < 1000 := by omega
      have hn17 : val ds < 10 ^ 17 := lt_of_lt_of_le (Nat.ofDigits_lt_base_pow_length (by norm_num) g2.lt) (Nat.pow_le_pow_right (by norm_num) g4)
      have hR := readsAs_of h2 g7 s
      rw [← h1, ← mul_assoc] at hR
      unfold defaultText
      dsimp only
      rw [hsign, chars_decimal g2 g3]
      unfold exponenta
      by_cases c0 : x = 0
      · refine ⟨(if s then [45] else []) ++ decimal (val ds), val ds, x, ?_, ?_, ⟨decimal (val ds), [], by simp, hD, .inl ⟨c0, rfl⟩⟩, .inl hn17, hR⟩
        · rw [if_pos c0, Option.bind_some, if_pos]
          refine ⟨by intro k; exact hD.nonempty (List.append_eq_nil_iff.1 k).2, ?_⟩
          rw [List.length_append]; omega
        · rw [List.length_append]; omega
      · have hX := decimal_isDecimalText x.natAbs
        have hXl : (decimal x.natAbs).length ≤ 3 := decimal_short (k := 2) (by omega)
        have hlen' : ((if s then [45] else [] : List Nat) ++ decimal (val ds) ++ (101 :: (if x < 0 then 45 else 43) :: decimal x.natAbs)).length ≤ 23 := by
          rw [List.length_append, List.length_append, List.length_cons, List.length_cons]
          omega
        refine ⟨_, val ds, x, ?_, hlen', ⟨decimal (val ds), _, rfl, hD, .inr ⟨c0, _, rfl, hX⟩⟩, .inl hn17, hR⟩
        rw [if_neg c0, if_neg (by omega), dec3_free hx, Option.bind_some]
        rw [show (if s then [45] else []) ++ decimal (val ds) ++ [101, if x < 0 then 45 else 43] ++ decimal x.natAbs =
          (if s then [45] else [] : List Nat) ++ decimal (val ds) ++ (101 :: (if x < 0 then 45 else 43) :: decimal x.natAbs) by simp]
        rw [if_pos ⟨by intro k; have := (List.append_eq_nil_iff.1 k).2; simp at this, hlen'⟩]
    · subst k ka
      obtain ⟨i1, i2⟩ := convert_integer h2 hp
      have hD := decimal_isDecimalText n
      have hl : (decimal n).length ≤ 20 := decimal_short (k := 19) (by omega)
      have hlen : ((if s then [45] else [] : List Nat) ++ decimal n).length ≤ 23 := by rw [List.length_append]; omega
      have hR := readsAs_of h2 (R := m * 2 ^ e) (by rw [sub_self, abs_zero]; exact radius_pos) s
      have hpos' : (0 : ℚ) ≤ m * 2 ^ e := le_trans (by positivity) h2.ge
      refine ⟨_, n, 0, ?_, hlen, ⟨decimal n, [], by simp, hD, .inl ⟨rfl, rfl⟩⟩, .inr ⟨rfl, ?_⟩, ?_⟩
      · unfold defaultText
        dsimp only
        rw [hsign, u2a64_eq i1, Option.bind_some, if_pos ⟨by intro k; exact hD.nonempty (List.append_eq_nil_iff.1 k).2, hlen⟩]
      · rw [h1, i2, mul_assoc, abs_mul, abs_of_nonneg hpos']
        cases s <;> simp
      · rw [zpow_zero, mul_one, h1, i2, mul_assoc _ (m : ℚ)]
        rw [mul_assoc] at hR
        exact hR

/-- 0.1, -2 and the largest double, in both modes. -/
example : d2a true 0x3fb999999999999a = some ("1e-1".toList.map Char.toNat) ∧ d2a false 0xc000000000000000 = some ("-2".toList.map Char.toNat) ∧
    d2a true 0x7fefffffffffffff = some ("17976931348623157e+292".toList.map Char.toNat) := by decide +kernel

/-- A reader of the grammar of `ScientificText`: the sign, the digits, the exponent. -/
def readScientific (t : List Nat) : Bool × Nat × Int :=
  let s := decide (t.head? = some 45)
  let r := if s then t.drop 1 else t
  let digit := fun c : Nat => decide (48 ≤ c ∧ c ≤ 57)
  (s, textValue (r.takeWhile digit),
    match r.dropWhile digit with
    | _ :: 45 :: X => -(textValue X : Int)
    | _ :: _ :: X => textValue X
    | _ => 0)

/-- The grammar is unambiguous: the reader finds what the text was made of. -/
theorem ScientificText.read {t : List Nat} {s : Bool} {n : Nat} {x : Int} (h : ScientificText t s n x) : readScientific t = (s, n, x) := by
  obtain ⟨D, E, rfl, hD, hE⟩ := h.shape
  obtain ⟨d, D', rfl⟩ : ∃ d D', D = d :: D' := by
    cases hc : D with
    | nil => exact absurd hc hD.nonempty
    | cons d D' => exact ⟨d, D', rfl⟩
  have hd := hD.digits d (List.mem_cons_self ..)
  have hs : decide (((if s then [45] else []) ++ d :: D' ++ E : List Nat).head? = some 45) = s := by
    cases s
    · simp only [Bool.false_eq_true, if_false, List.nil_append, List.cons_append, List.head?_cons, decide_eq_false_iff_not]
      intro k
      have := Option.some.inj k
      omega
    · simp
  unfold readScientific
  dsimp only
  rw [hs]
  have hr : (if s then ((if s then [45] else []) ++ d :: D' ++ E : List Nat).drop 1 else (if s then [45] else []) ++ d :: D' ++ E) = d :: D' ++ E := by
    cases s <;> simp
  rw [hr]
  have ht : ∀ c ∈ d :: D', decide (48 ≤ c ∧ c ≤ 57) = true := fun c hc => decide_eq_true (hD.digits c hc)
  have hE0 : E.takeWhile (fun c : Nat => decide (48 ≤ c ∧ c ≤ 57)) = [] ∧ E.dropWhile (fun c : Nat => decide (48 ≤ c ∧ c ≤ 57)) = E := by
    rcases hE with ⟨-, rfl⟩ | ⟨-, X, rfl, -⟩
    · exact ⟨rfl, rfl⟩
    · exact ⟨rfl, rfl⟩
  rw [List.takeWhile_append_of_pos ht, List.dropWhile_append_of_pos ht, hE0.1, hE0.2, List.append_nil, hD.value]
  rcases hE with ⟨rfl, rfl⟩ | ⟨hx, X, rfl, hX⟩
  · rfl
  · have hv := hX.value
    by_cases c : x < 0
    · rw [if_pos c]
      show (s, n, -(textValue X : Int)) = _
      rw [hv, show -(x.natAbs : Int) = x by omega]
    · rw [if_neg c]
      show (s, n, (textValue X : Int)) = _
      rw [hv, show (x.natAbs : Int) = x by omega]

/-- **C49.** Different doubles have different texts, even if one is printed in the fast mode and the other one in the accurate mode. -/
theorem C49_distinct (a1 a2 : Bool) (b1 b2 : Nat) (v1 v2 : ℚ) (h1 : ieeeValue 52 11 b1 = some v1) (h2 : ieeeValue 52 11 b2 = some v2)
    (ht : d2a a1 b1 = d2a a2 b2) : v1 = v2 ∧ isNegative b1 = isNegative b2 := by
  obtain ⟨t1, n1, x1, p1, -, q1, -, r1⟩ := C49_roundtrip a1 b1 v1 h1
  obtain ⟨t2, n2, x2, p2, -, q2, -, r2⟩ := C49_roundtrip a2 b2 v2 h2
  rw [p1, p2] at ht
  have ht := Option.some.inj ht
  subst ht
  have e := q1.read.symm.trans q2.read
  simp only [Prod.mk.injEq] at e
  obtain ⟨e1, rfl, rfl⟩ := e
  refine ⟨?_, e1⟩
  rw [e1] at r1
  by_contra c
  have k1 := r1.closest b2 v2 h2 (Ne.symm c)
  have k2 := r2.closest b1 v1 h1 c
  exact absurd k1 (not_lt.2 k2.le)

example : ieeeValue 52 11 0x3fb999999999999a = some (3602879701896397 / 36028797018963968) := by
  unfold ieeeValue; norm_num

/-- **C49.** In the fast mode an integer below `2 ^ 64` in magnitude is printed exactly, with no exponent. -/
theorem C49_fast_integers (bits n : Nat) (v : ℚ) (hv : ieeeValue 52 11 bits = some v) (hn : |v| = n) (h64 : n < 2 ^ 64) :
    ∃ D, d2a false bits = some ((if isNegative bits then [45] else []) ++ D) ∧ IsDecimalText D n := by
  obtain ⟨h1, h2⟩ := ofBits_value hv
  refine ⟨decimal n, ?_, decimal_isDecimalText n⟩
  unfold d2a
  generalize isNegative bits = s at *
  have hsign : put [] 45 s = if s then [45] else [] := by cases s <;> rfl
  have hslen : (if s then [45] else [] : List Nat).length ≤ 1 := by cases s <;> simp
  rcases hd : Diy.ofBits bits with ⟨m, e⟩
  rw [hd] at h1 h2
  dsimp only at h1 h2
  have habs : (m : ℚ) * 2 ^ e = n := by
    have hp : (0 : ℚ) ≤ m * 2 ^ e := by positivity
    rw [← hn, h1, mul_assoc, abs_mul, abs_of_nonneg hp]
    cases s <;> simp
  rcases h2 with ⟨h2, h3⟩ | h2
  · subst h2 h3
    have : n = 0 := by
      have : (n : ℚ) = 0 := by rw [← habs]; simp
      exact_mod_cast this
    subst this
    rw [decimal_lt (by norm_num)]
    cases s <;> rfl
  · have hpos := h2.pos
    have hhi := h2.hi
    have hlz := clz64_log2 h2.pos (show m < 2 ^ 64 by have := h2.lt; omega)
    have hl := Nat.log2_self_le (n := m) (by omega)
    have hl3 : Nat.log2 m < 53 := (Nat.log2_lt (by omega)).2 h2.lt
    have cond : -52 ≤ e ∧ e ≤ clz64 m ∧ (e ≥ 0 ∨ m * 2 ^ (64 + e).toNat % 2 ^ 64 = 0) := by
      rcases Int.le_total 0 e with k | k
      · obtain ⟨j, rfl⟩ := Int.eq_ofNat_of_zero_le k
        refine ⟨by omega, ?_, .inl k⟩
        rw [zpow_natCast] at habs
        have habs : m * 2 ^ j = n := by exact_mod_cast habs
        by_contra c
        have : 2 ^ Nat.log2 m * 2 ^ j ≤ m * 2 ^ j := Nat.mul_le_mul_right _ hl
        rw [← pow_add] at this
        have : 2 ^ 64 ≤ 2 ^ (Nat.log2 m + j) := Nat.pow_le_pow_right (by norm_num) (by rw [hlz] at c; omega)
        omega
      · obtain ⟨j, rfl⟩ : ∃ j : Nat, e = -j := ⟨(-e).toNat, by omega⟩
        rw [zpow_neg, zpow_natCast, ← div_eq_mul_inv, div_eq_iff (by positivity)] at habs
        have habs : m = n * 2 ^ j := by exact_mod_cast habs
        have hn0 : 0 < n := by
          rcases Nat.eq_zero_or_pos n with z | z
          · rw [z, Nat.zero_mul] at habs; omega
          · exact z
        have hj : j ≤ 52 := by
          by_contra c
          have : 2 ^ 53 ≤ 2 ^ j := Nat.pow_le_pow_right (by norm_num) (by omega)
          have : 2 ^ j ≤ n * 2 ^ j := Nat.le_mul_of_pos_left _ hn0
          have := h2.lt
          omega
        refine ⟨by omega, by omega, .inr ?_⟩
        rw [show (64 + -(j : Int)).toNat = 64 - j by omega, habs, Nat.mul_assoc, ← pow_add, Nat.add_sub_cancel' (by omega), Nat.mul_mod_left]
    have ⟨i, hc⟩ : ∃ i, convert false true ⟨m, e⟩ = some (.integer i) := by
      unfold convert
      dsimp only
      rw [if_neg (by omega), if_neg (by omega), if_pos ⟨rfl, rfl, cond⟩]
      exact ⟨_, rfl⟩
    obtain ⟨i1, i2⟩ := convert_integer h2 hc
    rw [habs] at i2
    have i2 : i = n := by exact_mod_cast i2
    subst i2
    have hl : (decimal i).length ≤ 20 := decimal_short (k := 19) (by omega)
    rw [hc, Option.bind_some]
    unfold defaultText
    dsimp only
    rw [hsign, u2a64_eq i1, Option.bind_some, if_pos]
    refine ⟨by intro k; exact (decimal_isDecimalText i).nonempty (List.append_eq_nil_iff.1 k).2, ?_⟩
    rw [List.length_append]; omega

example : d2a false 0x43e0000000000001 = some ("9223372036854777856".toList.map Char.toNat) ∧
    d2a true 0x43e0000000000001 = some ("9223372036854778e+3".toList.map Char.toNat) := by decide +kernel

/-- **C49.** Infinities are printed as `inf` and `-inf`, every other value that is not finite as `nan` or `-nan`. -/
theorem C49_special (accurate : Bool) (bits : Nat) (hv : ieeeValue 52 11 bits = none) :
    d2a accurate bits = some ((if isNegative bits then [45] else []) ++
      if bits % 2 ^ 52 = 0 then [105, 110, 102] else [110, 97, 110]) := by
  have hx : bits / 2 ^ 52 % 2 ^ 11 = 2047 := by
    unfold ieeeValue at hv
    dsimp only at hv
    by_contra c
    rw [if_neg (by simpa using c)] at hv
    split at hv <;> exact absurd hv (by simp)
  have hf : bits % 2 ^ 52 < 2 ^ 52 := Nat.mod_lt _ (by norm_num)
  have hc : convert accurate true (Diy.ofBits bits) = some (if bits % 2 ^ 52 = 0 then .inf else .nan) := by
    have hd : Diy.ofBits bits = ⟨bits % 2 ^ 52 + 0x10000000000000, 0x7ff - 1075⟩ := by
      unfold Diy.ofBits
      dsimp only
      rw [hx]
      rfl
    rw [hd]
    generalize bits % 2 ^ 52 = f at *
    unfold convert
    dsimp only
    rw [if_pos rfl]
    by_cases c : f = 0
    · rw [if_pos c, if_neg (by omega)]
    · rw [if_neg c, if_pos (by omega)]
  unfold d2a
  rw [hc]
  by_cases c : bits % 2 ^ 52 = 0
  · rw [if_pos c, if_pos c]; cases isNegative bits <;> rfl
  · rw [if_neg c, if_neg c]; cases isNegative bits <;> rfl

example : d2a true 0xfff0000000000000 = some [45, 105, 110, 102] ∧ d2a false 0x7ff8000000000000 = some [110, 97, 110] := by decide +kernel

/-- **C52.** What is true of the accuracy: the number of the text has at most 17 digits, unless it is exact, and is closer to the double than half of the way to
any other double. Missing: nearest among the texts of that length, and no shorter text (both refuted below). -/
theorem C52_half_partial (accurate : Bool) (bits : Nat) (v : ℚ) (hv : ieeeValue 52 11 bits = some v) :
    ∃ t n x, d2a accurate bits = some t ∧ readScientific t = (isNegative bits, n, x) ∧ (n < 10 ^ 17 ∨ (x = 0 ∧ |v| = n)) ∧
      ∀ b w, ieeeValue 52 11 b = some w → w ≠ v → 2 * |(if isNegative bits then -1 else 1) * n * 10 ^ x - v| < |v - w| := by
  obtain ⟨t, n, x, p1, -, p2, p3, p4⟩ := C49_roundtrip accurate bits v hv
  exact ⟨t, n, x, p1, p2.read, p3, p4.half⟩

set_option exponentiation.threshold 400 in
/-- **C52, refuted part.** "Accurate: impeccable string representation, which will be a nearest to the actual binary value" (erthink_d2a.h:729)
is false: for this double the next text with the same digits count and the same exponent is nearer. -/
theorem C52_nearest_refuted :
    ∃ bits v n x, ieeeValue 52 11 bits = some v ∧ 0 < v ∧
      d2a true bits = some ("36282152733170464e-91".toList.map Char.toNat) ∧
      ScientificText ("36282152733170464e-91".toList.map Char.toNat) false n x ∧ |((n + 1 : Nat) : ℚ) * 10 ^ x - v| < |(n : ℚ) * 10 ^ x - v| := by
  have hD : IsDecimalText ("36282152733170464".toList.map Char.toNat) 36282152733170464 :=
    ⟨by decide +kernel, by decide +kernel, by decide +kernel, by decide +kernel⟩
  have hX : IsDecimalText ("91".toList.map Char.toNat) 91 := ⟨by decide +kernel, by decide +kernel, by decide +kernel, by decide +kernel⟩
  refine ⟨0x307a41e5e51c573c, 7390805041633084 / 2 ^ 300, 36282152733170464, -91, ?_, by positivity, by decide +kernel,
    ⟨_, _, by decide +kernel, hD, .inr ⟨by decide, _, rfl, hX⟩⟩, ?_⟩
  · have : ((0x307a41e5e51c573c / 2 ^ 52 % 2 ^ 11 : Nat) : Int) - (2 ^ (11 - 1) - 1) - (52 : Nat) = -300 := by decide
    unfold ieeeValue
    dsimp only
    rw [this, if_neg (by decide), if_neg (by decide), if_neg (by decide), one_mul, zpow_neg, ← div_eq_mul_inv]
    norm_num
  · norm_num

/-- **C52, refuted part.** Nor is the accurate text free of superfluous digits: 0.001 is printed as `10e-4`, although `1e-3` is the same number. The last digit
before the point of the scaled number is printed without the check that stops all others (erthink_d2a.h:443-445). -/
theorem C52_shortest_refuted :
    ∃ v, ieeeValue 52 11 0x3f50624dd2f1a9fc = some v ∧ ReadsAs (1 * 10 ^ (-3 : Int)) v ∧
      d2a true 0x3f50624dd2f1a9fc = some ("10e-4".toList.map Char.toNat) ∧
      ScientificText ("10e-4".toList.map Char.toNat) false 10 (-4) ∧ ScientificText ("1e-3".toList.map Char.toNat) false 1 (-3) := by
  have mk : ∀ l n, l ≠ [] → (∀ c ∈ l, 48 ≤ c ∧ c ≤ 57) → textValue l = n → l.head? ≠ some 48 → IsDecimalText l n :=
    fun l n h1 h2 h3 h4 => ⟨h2, h3, h1, fun h => absurd h h4⟩
  have h10 : ScientificText ("10e-4".toList.map Char.toNat) false 10 (-4) :=
    ⟨[49, 48], _, rfl, mk _ _ (by decide) (by decide) (by decide) (by decide),
      .inr ⟨by decide, [52], rfl, mk _ _ (by decide) (by decide) (by decide) (by decide)⟩⟩
  have ht : d2a true 0x3f50624dd2f1a9fc = some ("10e-4".toList.map Char.toNat) := by decide +kernel
  obtain ⟨t, n, x, p1, -, p2, -, p3⟩ := C49_roundtrip true 0x3f50624dd2f1a9fc _ rfl
  rw [ht] at p1
  rw [← Option.some.inj p1] at p2
  have e := p2.read.symm.trans h10.read
  simp only [Prod.mk.injEq] at e
  obtain ⟨e1, rfl, rfl⟩ := e
  refine ⟨_, rfl, ?_, ht, h10, [49], _, rfl, mk _ _ (by decide) (by decide) (by decide) (by decide),
      .inr ⟨by decide, [51], rfl, mk _ _ (by decide) (by decide) (by decide) (by decide)⟩⟩
  rw [e1] at p3
  have : (1 : ℚ) * 10 ^ (-3 : Int) = (if false = true then -1 else 1) * (10 : Nat) * 10 ^ (-4 : Int) := by norm_num
  rw [this]
  exact p3

end Fptu.Props
