import Verif.Model.Datetime
import Verif.Lemmas.Bits
/-! # C25: datetime conversions -/
namespace Fptu.Props
open Fptu.Datetime

private theorem or_add {a b : Nat} (hb : b < 2 ^ 32) : (a * 2 ^ 32) ||| b = a * 2 ^ 32 + b := by
  rw [Nat.mul_comm, ← Nat.two_pow_add_eq_or_of_lt hb]

private theorem u2f {v f : Nat} (hv : v < f) (hf : f ≤ 2 ^ 32) : units2fractional v f = v * 2 ^ 32 / f := by
  unfold units2fractional
  rw [Nat.shiftLeft_eq, Nat.mod_eq_of_lt (by omega)]

private theorem frac_lt {v f : Nat} (hv : v < f) : v * 2 ^ 32 / f < 2 ^ 32 := by
  apply Nat.div_lt_of_lt_mul
  omega

private theorem scaleIn_eq {v f : Nat} (hf0 : 0 < f) (hf : f ≤ 2 ^ 32) (hs : v / f < 2 ^ 32) :
    scaleIn v f = (v / f) * 2 ^ 32 + (v % f) * 2 ^ 32 / f := by
  have hm := Nat.mod_lt v hf0
  unfold scaleIn
  rw [u2f hm hf, Nat.shiftLeft_eq, Nat.mod_eq_of_lt (by omega), or_add (frac_lt hm)]

/-- What a caller gets back when reading the sub-second part in units of `1/f` second. -/
private theorem read_units {m f : Nat} (hf0 : 0 < f) (hf : f ≤ 2 ^ 32) (hm : m < f) :
    fractional2units (m * 2 ^ 32 / f) f = if (m * 2 ^ 32) % f = 0 then m else m - 1 := by
  have hq := frac_lt hm
  unfold fractional2units
  have hle : m * 2 ^ 32 / f * f ≤ m * 2 ^ 32 := Nat.div_mul_le_self ..
  rw [Nat.mod_eq_of_lt (by omega), Nat.shiftRight_eq_div_pow]
  have hdm := Nat.div_add_mod (m * 2 ^ 32) f
  have hr := Nat.mod_lt (m * 2 ^ 32) hf0
  rw [Nat.mul_comm] at hdm
  generalize m * 2 ^ 32 / f * f = q at *
  generalize m * 2 ^ 32 % f = r at *
  split
  · omega
  · have : m ≠ 0 := by omega
    omega

/-- **C25, partial: exact characterisation of the round trip.** For every unit count whose seconds fit
in 32 bits (and any resolution up to 2^32 units per second): the seconds are exact and the sub-second
part read back is the one given when it is a dyadic fraction, and otherwise exactly one unit less.
The full claim ("reads back the same number") is refuted by `C25_roundtrip_refuted`. -/
theorem C25_roundtrip_partial (v f : Nat) (hf0 : 0 < f) (hf : f ≤ 2 ^ 32) (hs : v / f < 2 ^ 32) :
    utcSeconds (scaleIn v f) = v / f ∧
    fractional2units (fractional (scaleIn v f)) f =
      if f ∣ (v % f) * 2 ^ 32 then v % f else v % f - 1 := by
  have hm := Nat.mod_lt v hf0
  have hq := frac_lt hm
  rw [scaleIn_eq hf0 hf hs]
  unfold utcSeconds fractional
  have e : ∀ a b : Nat, b < 2 ^ 32 → (a * 2 ^ 32 + b) / 2 ^ 32 = a ∧ (a * 2 ^ 32 + b) % 2 ^ 32 = b := by
    intro a b hb; omega
  obtain ⟨e1, e2⟩ := e (v / f) _ hq
  refine ⟨e1, ?_⟩
  rw [e2, read_units hf0 hf hm]
  simp only [Nat.dvd_iff_mod_eq_zero]

/-- The hypotheses are met by all four public units. -/
example : fromMilliseconds 1554080461500 / 2 ^ 32 = 1554080461 ∧
    fractional2units (fractional (fromMilliseconds 1554080461500)) 1000 = 500 := by decide +kernel

/-- **C25, refuted.** One millisecond is stored as a fraction that reads back as zero milliseconds
(likewise micro- and nanoseconds), and unit counts of 2^32 seconds or more wrap around silently. -/
theorem C25_roundtrip_refuted :
    fractional2units (fractional (fromMilliseconds 1)) 1000 = 0 ∧
    fractional2units (fractional (fromUsec 1)) 1000000 = 0 ∧
    fractional2units (fractional (fromNsec 1)) 1000000000 = 0 ∧
    utcSeconds (fromMilliseconds (1000 * 2 ^ 32)) = 0 := by decide +kernel

/-- **C25 (seconds).** Whole seconds round-trip exactly. -/
theorem C25_seconds (s : Nat) (h : s < 2 ^ 32) :
    utcSeconds (fromSeconds s) = s ∧ fractional (fromSeconds s) = 0 := by
  unfold utcSeconds fractional fromSeconds
  rw [Nat.shiftLeft_eq]
  omega

/-- **C25 (timespec).** The seconds are exact and the nanoseconds read back are at most one short. -/
theorem C25_timespec (s ns : Nat) (hs : s < 2 ^ 32) (hn : ns < 1000000000) :
    utcSeconds (fromTimespec s ns) = s ∧
    (fractional2units (fractional (fromTimespec s ns)) 1000000000 = ns ∨
     fractional2units (fractional (fromTimespec s ns)) 1000000000 + 1 = ns) := by
  have hq := frac_lt hn
  unfold fromTimespec nsPerSecond
  rw [u2f hn (by decide), Nat.shiftLeft_eq, Nat.mod_eq_of_lt (by omega), or_add hq]
  unfold utcSeconds fractional
  refine ⟨by omega, ?_⟩
  rw [show (s * 2 ^ 32 + ns * 2 ^ 32 / 1000000000) % 2 ^ 32 = ns * 2 ^ 32 / 1000000000 by omega,
    read_units (by decide) (by decide) hn]
  split
  · exact Or.inl rfl
  · right
    have : ns ≠ 0 := by rintro rfl; simp at *
    omega

/-- **C25 (ordering).** The comparison operators order datetimes by seconds and then by fraction, and
are the six operators of one total order. -/
theorem C25_order_chronological (a b : Nat) :
    (lt a b = true ↔ utcSeconds a < utcSeconds b ∨
      (utcSeconds a = utcSeconds b ∧ fractional a < fractional b)) ∧
    (eq a b = true ↔ utcSeconds a = utcSeconds b ∧ fractional a = fractional b) ∧
    (gt a b = lt b a) ∧ (le a b = (lt a b || eq a b)) ∧ (ge a b = (gt a b || eq a b)) := by
  unfold ge le gt lt eq utcSeconds fractional
  refine ⟨?_, ?_, rfl, ?_, ?_⟩
  · simp only [decide_eq_true_eq]; omega
  · simp only [beq_iff_eq]; omega
  · rw [Bool.eq_iff_iff]; simp only [Bool.not_eq_true', decide_eq_false_iff_not, Bool.or_eq_true,
      decide_eq_true_eq, beq_iff_eq]; omega
  · rw [Bool.eq_iff_iff]; simp only [Bool.not_eq_true', decide_eq_false_iff_not, Bool.or_eq_true,
      decide_eq_true_eq, beq_iff_eq]; omega

/-- **C25 (conversion preserves order).** Later instants convert to later datetimes, strictly. -/
theorem C25_conversion_monotone (v w f : Nat) (hf0 : 0 < f) (hf : f ≤ 2 ^ 32)
    (hw : w / f < 2 ^ 32) (h : v < w) : lt (scaleIn v f) (scaleIn w f) = true := by
  have hvw : v / f ≤ w / f := Nat.div_le_div_right (by omega)
  rw [scaleIn_eq hf0 hf (by omega), scaleIn_eq hf0 hf hw]
  unfold lt
  rw [decide_eq_true_eq]
  have hq := frac_lt (Nat.mod_lt v hf0)
  rcases Nat.lt_or_eq_of_le hvw with hlt | heq
  · have H : ∀ a b x y : Nat, a < b → x < 2 ^ 32 → a * 2 ^ 32 + x < b * 2 ^ 32 + y := by
      intro a b x y h1 h2; omega
    exact H _ _ _ _ hlt hq
  · rw [heq]
    have e1 := Nat.div_add_mod v f
    have e2 := Nat.div_add_mod w f
    rw [heq] at e1
    have hm : v % f < w % f := by omega
    have : v % f * 2 ^ 32 / f < w % f * 2 ^ 32 / f := by
      have hmul : v % f * 2 ^ 32 + f ≤ w % f * 2 ^ 32 := by omega
      have h1 : (v % f * 2 ^ 32 + f) / f ≤ w % f * 2 ^ 32 / f := Nat.div_le_div_right hmul
      rw [Nat.add_div_right _ hf0] at h1
      omega
    omega

example : lt (fromNsec 999999999) (fromNsec 1000000000) = true := by decide +kernel

/-- **C25 (rounded clock).** `fptu_now(-k)` rounds the clock down to a multiple of 2^k fraction units
(whole seconds from `k = 32` on): never later than the clock, less than one grain earlier. -/
theorem C25_now_rounding (raw : Nat) (k : Nat) (hk : 0 < k) :
    let g := min k 32
    nowRounded (-(k : Int)) raw ≤ raw ∧ raw < nowRounded (-(k : Int)) raw + 2 ^ g ∧
    2 ^ g ∣ nowRounded (-(k : Int)) raw := by
  intro g
  have hmask : (fractional raw &&& nowMask (-(k : Int))) % 2 ^ 32 = fractional raw / 2 ^ g * 2 ^ g := by
    unfold nowMask
    rw [if_pos (by omega)]
    have hfr : fractional raw < 2 ^ 32 := Nat.mod_lt _ (by decide)
    by_cases hk32 : k < 32
    · rw [if_pos (by omega)]
      have hg : g = k := by simp only [g]; omega
      rw [hg]
      have e : (-(-(k : Int))).toNat = k := by omega
      rw [e]
      apply Nat.eq_of_testBit_eq
      intro i
      rw [Nat.testBit_mod_two_pow, Nat.testBit_and, Nat.testBit_mod_two_pow, Nat.testBit_shiftLeft,
        show (0xffffFFFF : Nat) = 2 ^ 32 - 1 from rfl, Nat.testBit_two_pow_sub_one, Nat.mul_comm,
        Nat.testBit_two_pow_mul, Nat.testBit_div_two_pow]
      by_cases hi : k ≤ i
      · rw [show i - k + k = i by omega]
        by_cases hi2 : i < 32
        · simp [hi, hi2, show i < 64 by omega, show i - k < 32 by omega]
        · have : (fractional raw).testBit i = false :=
            Nat.testBit_lt_two_pow (Nat.lt_of_lt_of_le hfr (Nat.pow_le_pow_right (by omega) (by omega)))
          simp [this]
      · simp [hi]
    · rw [if_neg (by omega)]
      have hg : g = 32 := by simp only [g]; omega
      rw [hg, Nat.and_zero, Nat.div_eq_of_lt hfr, Nat.zero_mul, Nat.zero_mod]
  unfold nowRounded
  rw [hmask]
  have hd : utcSeconds raw * 2 ^ 32 + fractional raw = raw := by
    unfold utcSeconds fractional; omega
  have h1 := Nat.div_mul_le_self (fractional raw) (2 ^ g)
  have h2 := Nat.lt_div_mul_add (a := fractional raw) (b := 2 ^ g) (Nat.two_pow_pos g)
  refine ⟨by omega, by omega, ?_⟩
  apply Nat.dvd_add
  · exact Nat.dvd_trans (Nat.pow_dvd_pow 2 (by simp only [g]; omega)) (Nat.dvd_mul_left ..)
  · exact Nat.dvd_mul_left ..

example : nowRounded (-16) 0x5CA0F00D12345678 = 0x5CA0F00D12340000 := by decide +kernel

end Fptu.Props
