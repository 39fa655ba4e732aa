import Verif.Props.Shodan
import Mathlib.Algebra.Order.Field.Basic
/-!
# C51: printing of the fractional part of a fixed-point number
-/
namespace Fptu.D2a
open Fptu.Arith

/-- The digits of a mantissa of 61 bits that is not a power of two and has at least eight zero bits at its end. -/
theorem generate_wide {m : Nat} {e : Int} (h1 : 2 ^ 60 < m) (h2 : m < 2 ^ 61) (h8 : m % 2 ^ 8 = 0) (he1 : -1000 ≤ e) (he2 : e ≤ 963) :
    ∃ ds x, generate true ⟨m, e⟩ = some (ds, x) ∧ Good ds ∧ ds ≠ [] ∧ ds.length ≤ 21 ∧ |(val ds : ℚ) * 10 ^ x - m * 2 ^ e| < 1 / 2 * 2 ^ e := by
  have hlz : clz64 m = 3 := by
    rw [clz64_log2 (by omega) (by omega), (Nat.log2_eq_iff (by omega)).2 (show 2 ^ 60 ≤ m ∧ m < 2 ^ (60 + 1) by omega)]
  obtain ⟨c, ce, x0, E⟩ := entry (e := e - (3 : Nat)) (by omega) (by omega)
  have hz : zerosOf (e - (3 : Nat)) = 11 := by unfold zerosOf; rw [if_pos (by omega)]
  have hfm : m * 2 ^ e = ((m * 2 ^ 3 : Nat) : ℚ) * 2 ^ (e - (3 : Nat)) := by
    push_cast
    rw [zpow_sub₀ (by norm_num)]
    norm_num
    ring
  have hhalf : ((4 : Nat) : ℚ) * 2 ^ (e - (3 : Nat)) = 1 / 2 * 2 ^ e := by
    rw [zpow_sub₀ (by norm_num)]
    norm_num
    ring
  obtain ⟨f, hfdef⟩ : ∃ f, m * 2 ^ 3 = f := ⟨_, rfl⟩
  have hf1 : 2 ^ 63 + 2 ^ 11 ≤ f := by omega
  have hf2 : f + 2 ^ 3 ≤ 2 ^ 64 := by omega
  rw [hfdef] at hfm
  have hE1 := E.lo
  have hE2 := E.hi
  have hE3 := E.shift
  obtain ⟨p1, p2, p3⟩ := Props.C24_mul128 f c (by omega) (by omega)
  generalize hlo : (mul64x64_128 f c).1 = lo at *
  generalize hhi : (mul64x64_128 f c).2 = hi at *
  obtain ⟨delta, hdelta⟩ : ∃ d, d = c / 2 ^ 61 := ⟨_, rfl⟩
  have hd3 : 4 ≤ delta ∧ delta ≤ 7 := by omega
  have hd1 : delta * 2 ^ 64 ≤ c * (2 * 4) := by omega
  have hfc1 : 2 ^ 63 * 2 ^ 63 ≤ f * c := Nat.mul_le_mul (by omega) hE1
  have hfc2 : f * c ≤ 2 ^ 64 * c := Nat.mul_le_mul_right _ (by omega)
  have hhi2 : hi ≤ c := by omega
  have hhi1 : 2 ^ 61 ≤ hi := by omega
  have hhi3 : hi < 2 ^ 64 - 1 - (2 ^ 31 - 1) := Nat.lt_of_le_of_lt hhi2 (Nat.lt_of_lt_of_le hE2 (by decide))
  obtain ⟨lsb, hlsb⟩ : ∃ l, l = lo / 2 ^ 63 := ⟨_, rfl⟩
  have hl4 : lsb ≤ 1 := by omega
  obtain ⟨top, htop⟩ : ∃ t, t = hi + (delta + lsb - 1) / 2 := ⟨_, rfl⟩
  have htop64 : top * 2 ^ 64 ≤ f * c + 4 * c := top_bound p3 (by linarith) hlsb htop (Nat.le_trans (by decide) hd3.1)
  have hfhc : (f + 4) * c < 2 ^ 64 * c := Nat.mul_lt_mul_of_pos_right (by omega) (by omega)
  have e3 : (f + 4) * c = f * c + 4 * c := by ring
  have htopc : top < c := by omega
  have g1 : lsb * 2 ^ 63 ≤ lo := by rw [hlsb]; exact Nat.div_mul_le_self _ _
  have g2 : lo < (lsb + 1) * 2 ^ 63 := by rw [hlsb, Nat.mul_comm]; exact Nat.lt_mul_div_succ _ (by decide)
  have hshift : (2 : Nat) ^ (-(e - ((3 : Nat) : Int) + ce + 64)).toNat ≤ 2 ^ 60 := Nat.pow_le_pow_right (by norm_num) (by omega)
  have hshift' : (2 : Nat) ^ 34 ≤ 2 ^ (-(e - ((3 : Nat) : Int) + ce + 64)).toNat := Nat.pow_le_pow_right (by norm_num) (by omega)
  clear hfc1 hfc2 hfhc e3 htop64
  obtain ⟨ds, x, M1, M2⟩ := makeDigits_spec (accurate := true) (top := top) (d0 := delta - 2) (value := (hi + lsb) % 2 ^ 64)
    (shift := (-(e - ((3 : Nat) : Int) + ce + 64)).toNat) (exp10 := x0) (by omega) (by omega) (by omega) (by omega)
    (Nat.le_trans (Nat.div_le_div_right (by omega)) E.body) (by omega) (by omega) (by omega)
  refine ⟨ds, x, ?_, M2.good, M2.ne, ?_, ?_⟩
  · unfold generate
    dsimp only
    rw [hlz, if_neg (by omega), hfdef, Nat.mod_eq_of_lt (show f < 2 ^ 64 by omega), E.eq]
    dsimp only
    rw [if_pos (show f > 0x80000000000007ff by omega), if_neg (by decide), show 64 - 3 = 61 from rfl, ← hdelta, if_neg (show ¬delta < 2 by omega), hlo, hhi,
      if_neg (not_not.2 hhi3), if_neg (by omega), ← hlsb, ← htop, Nat.mod_eq_of_lt (show top < 2 ^ 64 by omega), if_pos rfl]
    exact M1
  · by_contra k
    rcases M2.length with l | l
    · omega
    · have h1 : 10 ^ 20 * 1 ≤ 10 ^ (ds.length - 2) * (delta - 2) :=
        Nat.mul_le_mul (Nat.pow_le_pow_right (by norm_num) (by omega)) (by omega)
      omega
  · obtain ⟨k1, k2⟩ := core (R := val ds * 10 ^ (x - x0) * 2 ^ (-(e - ((3 : Nat) : Int) + ce + 64)).toNat) p3 g1 g2 hd1 (by omega) (by omega) (show f + 4 < 2 ^ 64 by omega) (by omega)
      E.below E.above (by
        have := M2.lower
        have h2 : ((delta - 2 : Nat) : ℚ) = delta - 2 := by rw [Nat.cast_sub (by omega)]; norm_num
        rw [h2] at this
        linarith) M2.upper
    rw [← hhalf, hfm]
    exact unscale (by omega) k1 k2

end Fptu.D2a

namespace Fptu.Props
open Fptu.Arith Fptu.D2a

/-- `t` is a point and `k` digits that make the number `n`; it denotes `n / 10 ^ k`. -/
structure FractionText (t : List Nat) (n k : Nat) : Prop where
  shape : ∃ F, t = 46 :: F ∧ (∀ c ∈ F, 48 ≤ c ∧ c ≤ 57) ∧ F.length = k ∧ textValue F = n
  some_digit : 0 < k

theorem fixedpoint_lazy {value : Nat} (h0 : 0 < value) (h32 : value < 2 ^ 32) :
    ∃ s : Nat, 29 ≤ s ∧ s ≤ 60 ∧ 2 ^ 60 ≤ value * 2 ^ s ∧ value * 2 ^ s < 2 ^ 61 ∧ (value * 2 ^ s = 2 ^ 60 → value = 2 ^ (60 - s)) ∧
      fixedpointWith true value (-32) = some ⟨value * 2 ^ s, -32 - s⟩ := by
  have hl : Nat.log2 value < 32 := (Nat.log2_lt (by omega)).2 h32
  have hlz := clz64_log2 h0 (show value < 2 ^ 64 by omega)
  have l1 := Nat.log2_self_le (n := value) (by omega)
  have l2 := Nat.lt_log2_self (n := value)
  obtain ⟨s, hs⟩ : ∃ s, s = 60 - Nat.log2 value := ⟨_, rfl⟩
  have hp : 2 ^ Nat.log2 value * 2 ^ s = 2 ^ 60 := by rw [← pow_add]; congr 1; omega
  have b1 : 2 ^ 60 ≤ value * 2 ^ s := by rw [← hp]; exact Nat.mul_le_mul_right _ l1
  have b2 : value * 2 ^ s < 2 ^ 61 := by
    have : value * 2 ^ s < 2 ^ (Nat.log2 value + 1) * 2 ^ s := Nat.mul_lt_mul_of_pos_right l2 (by positivity)
    rw [pow_succ, Nat.mul_right_comm, hp] at this
    exact this
  refine ⟨s, by omega, by omega, b1, b2, fun k => ?_, ?_⟩
  · rw [← hp] at k
    have := Nat.eq_of_mul_eq_mul_right (by positivity) k
    exact this.trans (by congr 1; omega)
  · unfold fixedpointWith
    rw [if_neg (by omega), if_neg (by omega), hlz]
    dsimp only
    have hsh : ((63 - Nat.log2 value : Nat) : Int) - 3 = (s : Nat) := by omega
    rw [hsh, if_neg (by simp), if_pos (show ((s : Nat) : Int) ≥ 0 by omega), Int.toNat_natCast,
      if_pos (show (2 ^ 64 - 1) / 2 ^ 3 ≥ value * 2 ^ s ∧ value * 2 ^ s > 0 from ⟨by omega, by omega⟩)]

/-- Dropping zeros at the end of the digits. -/
theorem trim_spec (ds : List Nat) : ∃ j, ds.length = (ds.dropWhile (· = 0)).length + j ∧ val ds = val (ds.dropWhile (· = 0)) * 10 ^ j := by
  induction ds with
  | nil => exact ⟨0, by simp⟩
  | cons d ds ih =>
    by_cases c : d = 0
    · subst c
      obtain ⟨j, h1, h2⟩ := ih
      refine ⟨j + 1, ?_, ?_⟩
      · rw [List.dropWhile_cons_of_pos (by simp), List.length_cons]; omega
      · rw [List.dropWhile_cons_of_pos (by simp), val_cons, h2, pow_succ]; ring
    · exact ⟨0, by rw [List.dropWhile_cons_of_neg (by simpa using c)]; simp⟩

theorem textValue_chars {ds : List Nat} (h : ∀ d ∈ ds, d < 10) : textValue (chars ds) = val ds ∧ ∀ c ∈ chars ds, 48 ≤ c ∧ c ≤ 57 := by
  constructor
  · induction ds with
    | nil => rfl
    | cons d ds ih =>
      unfold chars at ih ⊢
      rw [List.reverse_cons, List.map_append, textValue_append, ih (fun x hx => h x (List.mem_cons_of_mem _ hx)), val_cons]
      simp [textValue]
      ring
  · intro c hc
    unfold chars at hc
    obtain ⟨d, hd, rfl⟩ := List.mem_map.1 hc
    have := h d (List.mem_reverse.1 hd)
    omega

/-- Checks a text of a power of two. -/
def powerOk (i : Nat) : Bool :=
  match fractional true (2 ^ i) (-32) with
  | some (46 :: F) => F.all (fun c => decide (48 ≤ c ∧ c ≤ 57)) && decide (0 < F.length) && decide (F.length ≤ 30) &&
      decide (2 ^ 60 * (textValue F * 2 ^ 32) < (2 ^ 60 + 1) * (2 ^ i * 10 ^ F.length)) &&
      decide ((2 ^ 60 - 1) * (2 ^ i * 10 ^ F.length) < 2 ^ 60 * (textValue F * 2 ^ 32))
  | _ => false

theorem powers_ok : ∀ i ∈ List.range 32, powerOk i = true := by decide +kernel

/-- **C51.** If the rounding term of the conversion is computed only where it is used, then for every 32-bit fraction other than zero a text
of a point and at most thirty digits is made, whose number differs from the fraction by less than its `2 ^ -60`th part, so that reading it gives the
fraction back. Missing: the code computes the term always, see `C51_fixedpoint_refuted`. -/
theorem C51_fraction_partial (value : Nat) (h0 : 0 < value) (h32 : value < 2 ^ 32) :
    ∃ t n k, fractional true value (-32) = some t ∧ FractionText t n k ∧ k ≤ 30 ∧
      |(n : ℚ) / 10 ^ k - value / 2 ^ 32| < (value : ℚ) / 2 ^ 32 / 2 ^ 60 ∧ ∀ other : Nat, other ≠ value → |(n : ℚ) / 10 ^ k - value / 2 ^ 32| < |(n : ℚ) / 10 ^ k - other / 2 ^ 32| := by
  suffices H : ∃ t n k, fractional true value (-32) = some t ∧ FractionText t n k ∧ k ≤ 30 ∧ |(n : ℚ) / 10 ^ k - value / 2 ^ 32| < (value : ℚ) / 2 ^ 32 / 2 ^ 60 by
    obtain ⟨t, n, k, a1, a2, a3, a4⟩ := H
    refine ⟨t, n, k, a1, a2, a3, a4, fun other hne => ?_⟩
    have hv : (value : ℚ) < 2 ^ 32 := by exact_mod_cast h32
    have hsmall : (value : ℚ) / 2 ^ 32 / 2 ^ 60 < 1 / 2 ^ 60 := by
      rw [div_lt_div_iff_of_pos_right (by positivity), div_lt_one (by positivity)]; exact hv
    have hfar : (1 : ℚ) / 2 ^ 32 ≤ |(value : ℚ) / 2 ^ 32 - other / 2 ^ 32| := by
      rw [← sub_div, abs_div, abs_of_pos (show (0 : ℚ) < 2 ^ 32 by positivity), div_le_div_iff_of_pos_right (by positivity)]
      have : (1 : Int) ≤ |(value : Int) - other| := Int.one_le_abs (by omega)
      exact_mod_cast this
    have tri : |(value : ℚ) / 2 ^ 32 - other / 2 ^ 32| ≤ |(n : ℚ) / 10 ^ k - value / 2 ^ 32| + |(n : ℚ) / 10 ^ k - other / 2 ^ 32| := by
      rw [abs_sub_comm ((n : ℚ) / 10 ^ k) (value / 2 ^ 32)]
      exact abs_sub_le _ _ _
    have : (1 : ℚ) / 2 ^ 60 * 2 ≤ 1 / 2 ^ 32 := by norm_num
    linarith
  obtain ⟨s, s1, s2, b1, b2, b3, hfx⟩ := fixedpoint_lazy h0 h32
  have hval : (value : ℚ) / 2 ^ 32 = ((value * 2 ^ s : Nat) : ℚ) * 2 ^ (-32 - (s : Int)) := by
    push_cast
    rw [zpow_sub₀ (by norm_num), zpow_natCast, zpow_neg]
    field_simp
  by_cases hpow : value * 2 ^ s = 2 ^ 60
  · have hv := b3 hpow
    have ok := powers_ok (60 - s) (List.mem_range.2 (by omega))
    rw [hv]
    unfold powerOk at ok
    split at ok
    · rename_i F hF
      simp only [Bool.and_eq_true, List.all_eq_true, decide_eq_true_eq] at ok
      obtain ⟨⟨⟨⟨o1, o2⟩, o3⟩, o4⟩, o5⟩ := ok
      refine ⟨_, textValue F, F.length, hF, ⟨⟨F, rfl, o1, rfl, rfl⟩, o2⟩, o3, ?_⟩
      generalize 2 ^ (60 - s) = w at *
      have q4 : (2 : ℚ) ^ 60 * (textValue F * 2 ^ 32) < (2 ^ 60 + 1) * (w * 10 ^ F.length) := by exact_mod_cast o4
      have q5 : ((2 : ℚ) ^ 60 - 1) * (w * 10 ^ F.length) < 2 ^ 60 * (textValue F * 2 ^ 32) := by
        have : (((2 ^ 60 - 1) * (w * 10 ^ F.length) : Nat) : ℚ) < ((2 ^ 60 * (textValue F * 2 ^ 32) : Nat) : ℚ) := by exact_mod_cast o5
        push_cast at this
        norm_num at this ⊢
        exact this
      have hp : (0 : ℚ) < 10 ^ F.length := by positivity
      have e1 : (textValue F : ℚ) / 10 ^ F.length - w / 2 ^ 32 = (textValue F * 2 ^ 32 - w * 10 ^ F.length) / (10 ^ F.length * 2 ^ 32) := by field_simp
      have e2 : (w : ℚ) / 2 ^ 32 / 2 ^ 60 = w * 10 ^ F.length / 2 ^ 60 / (10 ^ F.length * 2 ^ 32) := by field_simp
      rw [e1, e2, abs_div, abs_of_pos (show (0 : ℚ) < 10 ^ F.length * 2 ^ 32 by positivity), div_lt_div_iff_of_pos_right (by positivity), abs_lt]
      constructor
      · rw [neg_lt_iff_pos_add, ← mul_lt_mul_iff_right₀ (show (0 : ℚ) < 2 ^ 60 by positivity)]
        field_simp
        linarith
      · rw [lt_div_iff₀ (by positivity)]
        linarith
    · exact absurd ok (by simp)
  · have hm8 : value * 2 ^ s % 2 ^ 8 = 0 := by
      rw [show s = 8 + (s - 8) by omega, pow_add, ← Nat.mul_assoc, Nat.mul_right_comm]
      exact Nat.mul_mod_left _ _
    obtain ⟨ds, x, g1, g2, g3, g4, g5⟩ := generate_wide (m := value * 2 ^ s) (e := -32 - s) (by omega) b2 hm8 (by omega) (by omega)
    have hconv : convert true true ⟨value * 2 ^ s, -32 - s⟩ = some (.digits ds x) := by
      unfold convert
      dsimp only
      rw [if_neg (by omega), if_neg (by omega), if_neg (by simp), g1]
      rfl
    rw [← hval] at g5
    have herr : (1 : ℚ) / 2 * 2 ^ (-32 - (s : Int)) < value / 2 ^ 32 / 2 ^ 60 := by
      rw [hval, lt_div_iff₀ (by positivity)]
      have : (2 : ℚ) ^ 60 ≤ ((value * 2 ^ s : Nat) : ℚ) := by exact_mod_cast b1
      have hp : (0 : ℚ) < 2 ^ (-32 - (s : Int)) := by positivity
      nlinarith
    have hbnd : |(val ds : ℚ) * 10 ^ x - value / 2 ^ 32| < (value : ℚ) / 2 ^ 32 / 2 ^ 60 := lt_trans g5 herr
    have hv0 : (1 : ℚ) ≤ value := by exact_mod_cast h0
    have hv1 : (value : ℚ) ≤ 2 ^ 32 - 1 := by
      have : value + 1 ≤ 2 ^ 32 := h32
      have : (value : ℚ) + 1 ≤ 2 ^ 32 := by exact_mod_cast this
      linarith
    obtain ⟨q1, q2⟩ := abs_lt.1 hbnd
    have hlow : (10 : ℚ) ^ (-10 : Int) < val ds * 10 ^ x := by
      norm_num at q1 q2 ⊢
      linarith
    have hhigh : (val ds : ℚ) * 10 ^ x < 10 ^ (0 : Int) := by
      norm_num at q1 q2 ⊢
      linarith
    have hds : 1 ≤ ds.length := List.length_pos_iff.2 g3
    have hN1 : ((10 : ℚ)) ^ (ds.length - 1) ≤ val ds := by exact_mod_cast good_ge g2 g3
    have hN2 : (val ds : ℚ) < 10 ^ ds.length := by exact_mod_cast Nat.ofDigits_lt_base_pow_length (b := 10) (by norm_num) g2.lt
    have hx : (0 : ℚ) < 10 ^ x := by positivity
    have r1 : (10 : ℚ) ^ ((ds.length : Int) - 1 + x) ≤ val ds * 10 ^ x := by
      rw [zpow_add₀ (by norm_num), show (ds.length : Int) - 1 = ((ds.length - 1 : Nat) : Int) by omega, zpow_natCast]
      exact mul_le_mul_of_nonneg_right hN1 hx.le
    have r2 : (val ds : ℚ) * 10 ^ x < 10 ^ ((ds.length : Int) + x) := by
      rw [zpow_add₀ (by norm_num), zpow_natCast]
      exact mul_lt_mul_of_pos_right hN2 hx
    have z1 := (zpow_lt_zpow_iff_right₀ (show (1 : ℚ) < 10 by norm_num)).1 (lt_trans hlow r2)
    have z2 := (zpow_lt_zpow_iff_right₀ (show (1 : ℚ) < 10 by norm_num)).1 (lt_of_le_of_lt r1 hhigh)
    obtain ⟨v1, v2⟩ := textValue_chars g2.lt
    obtain ⟨X, hX⟩ : ∃ X : Nat, x = -X := ⟨(-x).toNat, by omega⟩
    have hfrac : ∀ (n k j : Nat), val ds = n * 10 ^ j → X = k + j → (n : ℚ) / 10 ^ k = val ds * 10 ^ x := by
      intro n k j e1 e2
      rw [hX, zpow_neg, zpow_natCast, e1, e2, pow_add]
      push_cast
      field_simp
    unfold fractional
    rw [hfx, Option.bind_some, hconv, Option.bind_some]
    dsimp only
    rw [if_neg (by
      push_neg
      exact ⟨g3, by omega, by omega⟩)]
    by_cases cz : -x - (ds.length : Int) > 0
    · rw [if_pos cz]
      refine ⟨_, val ds, X, rfl, ⟨⟨List.replicate (-x - (ds.length : Int)).toNat 48 ++ chars ds, rfl, ?_, ?_, ?_⟩, by omega⟩, by omega, ?_⟩
      · intro c hc
        rcases List.mem_append.1 hc with hc | hc
        · rw [(List.mem_replicate.1 hc).2]; omega
        · exact v2 c hc
      · rw [List.length_append, List.length_replicate, chars_length]; omega
      · rw [textValue_append, textValue_zeros, v1]; simp
      · rw [hfrac (val ds) X 0 (by simp) (by simp)]; exact hbnd
    · rw [if_neg cz]
      obtain ⟨j, j1, j2⟩ := trim_spec ds
      have hsub : ∀ d ∈ ds.dropWhile (· = 0), d < 10 := fun d hd => g2.lt d (List.dropWhile_subset _ hd)
      obtain ⟨w1, w2⟩ := textValue_chars hsub
      have hpos : 0 < (ds.dropWhile (· = 0)).length := by
        rcases Nat.eq_zero_or_pos (ds.dropWhile (· = 0)).length with z | z
        · rw [List.length_eq_zero_iff.1 z] at j2
          have := g2.pos g3
          rw [show val [] = 0 from rfl, Nat.zero_mul] at j2
          omega
        · exact z
      refine ⟨_, val (ds.dropWhile (· = 0)), (ds.dropWhile (· = 0)).length, rfl, ⟨⟨_, rfl, w2, chars_length _, w1⟩, hpos⟩, by omega, ?_⟩
      rw [hfrac _ _ j j2 (by omega)]
      exact hbnd

/-- One third, nearly, and zero. -/
example : fractional true 0x55555555 (-32) = some (".3333333332557231188".toList.map Char.toNat) ∧
    fractional true 0 (-32) = some (".0".toList.map Char.toNat) := by decide +kernel

/-- **C51, refuted part.** In the code as it is, the conversion of every 32-bit fraction other than zero shifts by a negative amount, which is undefined
(erthink_d2a.h:179: the term is computed although the shift is positive). -/
theorem C51_fixedpoint_refuted (value : Nat) (h0 : 0 < value) (h32 : value < 2 ^ 32) : fractional false value (-32) = none := by
  have hl : Nat.log2 value < 32 := (Nat.log2_lt (by omega)).2 h32
  have hlz := clz64_log2 h0 (show value < 2 ^ 64 by omega)
  unfold fractional fixedpointWith
  rw [if_neg (by omega), if_neg (by omega), hlz]
  dsimp only
  rw [if_pos ⟨by simp, by omega⟩]
  rfl

example : fractional false 0x80000000 (-32) = none := by decide +kernel

end Fptu.Props
