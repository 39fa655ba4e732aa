import Verif.Model.Seconds
import Verif.Lemmas.Real
import Verif.Props.Datetime
/-! # C89: moments as floating-point seconds -/
namespace Fptu.Props
open Fptu.Datetime Fptu.Real Fptu.Num

private theorem parts_value {x : Nat} (hx : x < 2 ^ 63) {v : ℚ} (hv : ieeeValue 52 11 x = some v) :
    v = ((parts x).1 : ℚ) * 2 ^ (parts x).2 := by
  unfold ieeeValue at hv
  dsimp only at hv
  rw [show x / 2 ^ (52 + 11) = 0 from Nat.div_eq_of_lt hx, if_neg (show ¬ 0 % 2 = 1 by decide)] at hv
  split at hv
  · exact absurd hv (by simp)
  · split at hv
    · rename_i c
      rw [← Option.some.inj hv]
      unfold parts
      rw [if_pos c]
      norm_num
    · rename_i c
      rw [← Option.some.inj hv]
      unfold parts
      rw [if_neg c]
      dsimp only
      rw [one_mul]
      congr 2
      push_cast
      ring

private theorem parts_small (x : Nat) : (parts x).1 < 2 ^ 53 ∧ -1074 ≤ (parts x).2 := by
  unfold parts
  have := Nat.mod_lt x (show 0 < 2 ^ 52 by decide)
  split <;> constructor <;> dsimp only <;> omega

/-- What is below 2^64 is far from the infinity. -/
private theorem finite {m : Nat} {e : Int} (h : (m : ℚ) * 2 ^ e < 2 ^ 64) : toDouble m e < (2 ^ 11 - 1) * 2 ^ 52 := by
  unfold toDouble
  by_cases h0 : m = 0
  · unfold roundBits; rw [if_pos h0]; norm_num
  obtain ⟨n, t, hr, ht, _, _⟩ := rounded (p := 52) (tmin := -1074) h0 e
  have h64 : t < 64 := by
    by_contra c
    have h1 := (hr.norm (by omega)).2
    have h2 : (2 : ℚ) ^ (64 : Int) ≤ 2 ^ t := zpow_le_zpow_right₀ (by norm_num) (by omega)
    have h3 : (2 : ℚ) ^ (64 : Int) = 2 ^ 64 := by norm_cast
    rw [h3] at h2
    norm_num at h h1 h2
    linarith
  rw [hr.bits]
  have htop := hr.top
  norm_num at htop ⊢
  omega

private theorem toDouble_spec {m : Nat} {e : Int} (h : (m : ℚ) * 2 ^ e < 2 ^ 64) :
    toDouble m e < 2 ^ 63 ∧ ∃ r, ieeeValue 52 11 (toDouble m e) = some r ∧ NearestTo 52 11 ((m : ℚ) * 2 ^ e) r (toDouble m e) ∧
      (m < 2 ^ 53 → -1074 ≤ e → r = (m : ℚ) * 2 ^ e) := by
  have hb := finite h
  refine ⟨by omega, ?_⟩
  obtain ⟨r, h1, h2, h3⟩ := round_value (p := 52) (E := 11) (s := 0) (m := m) (e := e) (tmin := -1074) (by decide) (by decide) (by norm_num)
    (by decide) hb
  rw [Nat.zero_mul, Nat.zero_add] at h1
  rw [if_neg (by decide), one_mul] at h2 h3
  exact ⟨r, h1, h2, fun a b => h3 (log2_lt_of a) b⟩

/-- A number with at most 53 significant bits is a `double`. -/
private theorem representable {m : Nat} {e : Int} (h : (m : ℚ) * 2 ^ e < 2 ^ 64) (hm : m < 2 ^ 53) (he : -1074 ≤ e) :
    ∃ x, ieeeValue 52 11 x = some ((m : ℚ) * 2 ^ e) := by
  obtain ⟨_, r, h1, _, h3⟩ := toDouble_spec h
  exact ⟨_, by rw [h1, h3 hm he]⟩

private theorem zpow_split (a e : Int) (h : e ≤ a) : ((2 ^ (a - e).toNat : Nat) : ℚ) * 2 ^ e = 2 ^ a := by
  rw [zpow_toNat h]

private theorem fractionalSeconds_spec (d : Nat) :
    fractionalSeconds d < 2 ^ 63 ∧ ieeeValue 52 11 (fractionalSeconds d) = some ((fractional d : ℚ) / 2 ^ 32) := by
  have hf : fractional d < 2 ^ 32 := Nat.mod_lt _ (by decide)
  have hq : ((fractional d : ℕ) : ℚ) < 2 ^ 32 := by exact_mod_cast hf
  unfold fractionalSeconds ldexp
  generalize fractional d = f at *
  obtain ⟨a1, r, a2, _, a4⟩ := toDouble_spec (m := f) (e := 0) (by norm_num at hq ⊢; linarith)
  have hr := a4 (by omega) (by decide)
  rw [zpow_zero, mul_one] at hr
  rw [hr] at a2
  have hv := parts_value a1 a2
  obtain ⟨s1, s2⟩ := parts_small (toDouble f 0)
  have e32 : ((parts (toDouble f 0)).1 : ℚ) * 2 ^ ((parts (toDouble f 0)).2 + -32) = (f : ℚ) / 2 ^ 32 := by
    rw [zpow_add₀ (by norm_num), ← mul_assoc, ← hv, div_eq_mul_inv]
    norm_num
  obtain ⟨b1, r', b2, _, b4⟩ := toDouble_spec (m := (parts (toDouble f 0)).1) (e := (parts (toDouble f 0)).2 + -32) (by
    rw [e32, div_lt_iff₀ (by norm_num)]; norm_num at hq ⊢; linarith)
  refine ⟨b1, ?_⟩
  by_cases h0 : f = 0
  · subst h0
    simp only [Nat.cast_zero, zero_div]
    decide +kernel
  · rw [b2, b4 s1 ?_, e32]
    -- at least one, so the exponent is not that small
    by_contra c
    have h1 : (1 : ℚ) ≤ f := by exact_mod_cast Nat.one_le_iff_ne_zero.2 h0
    have h2 : (2 : ℚ) ^ (parts (toDouble f 0)).2 ≤ 2 ^ (-100 : Int) := zpow_le_zpow_right₀ (by norm_num) (by omega)
    have h3 : ((parts (toDouble f 0)).1 : ℚ) ≤ 2 ^ 53 := by exact_mod_cast s1.le
    have h4 : ((parts (toDouble f 0)).1 : ℚ) * 2 ^ (parts (toDouble f 0)).2 ≤ 2 ^ 53 * 2 ^ (-100 : Int) :=
      mul_le_mul h3 h2 (by positivity) (by positivity)
    rw [← hv] at h4
    have h5 : (2 : ℚ) ^ 53 * 2 ^ (-100 : Int) < 1 := by norm_num
    linarith

private theorem seconds_spec {d : Nat} (hd : d < 2 ^ 64) :
    seconds d < 2 ^ 63 ∧ ∃ r, ieeeValue 52 11 (seconds d) = some r ∧ NearestTo 52 11 ((d : ℚ) / 2 ^ 32) r (seconds d) := by
  obtain ⟨a1, a2⟩ := fractionalSeconds_spec d
  have hv := parts_value a1 a2
  have hu : utcSeconds d < 2 ^ 32 := by unfold utcSeconds; omega
  have huq : ((utcSeconds d : ℕ) : ℚ) < 2 ^ 32 := by exact_mod_cast hu
  have hdq : ((d : ℕ) : ℚ) < 2 ^ 64 := by exact_mod_cast hd
  obtain ⟨b1, r, b2, _, b4⟩ := toDouble_spec (m := utcSeconds d) (e := 0) (by norm_num at huq ⊢; linarith)
  have hr := b4 (by omega) (by decide)
  rw [zpow_zero, mul_one] at hr
  rw [hr] at b2
  have hw := parts_value b1 b2
  have hsum : (fractional d : ℚ) / 2 ^ 32 + (utcSeconds d : ℚ) = (d : ℚ) / 2 ^ 32 := by
    have : ((utcSeconds d * 2 ^ 32 + fractional d : ℕ) : ℚ) = (d : ℚ) := by
      congr 1; unfold utcSeconds fractional; omega
    rw [← this]
    push_cast
    field_simp
    ring
  unfold seconds addDouble
  dsimp only
  generalize fractionalSeconds d = x at *
  generalize toDouble (utcSeconds d) 0 = y at *
  have hE : (((parts x).1 * 2 ^ ((parts x).2 - min (parts x).2 (parts y).2).toNat +
      (parts y).1 * 2 ^ ((parts y).2 - min (parts x).2 (parts y).2).toNat : ℕ) : ℚ) * 2 ^ (min (parts x).2 (parts y).2) = (d : ℚ) / 2 ^ 32 := by
    rw [← hsum, hv, hw, Nat.cast_add, Nat.cast_mul, Nat.cast_mul, add_mul, mul_assoc, mul_assoc,
      zpow_split _ _ (min_le_left _ _), zpow_split _ _ (min_le_right _ _)]
  obtain ⟨c1, r', c2, c3, _⟩ := toDouble_spec (m := (parts x).1 * 2 ^ ((parts x).2 - min (parts x).2 (parts y).2).toNat +
      (parts y).1 * 2 ^ ((parts y).2 - min (parts x).2 (parts y).2).toNat) (e := min (parts x).2 (parts y).2) (by
    rw [hE, div_lt_iff₀ (by norm_num)]; norm_num at hdq ⊢; linarith)
  rw [hE] at c3
  exact ⟨c1, r', c2, c3⟩

/-- **C89 (nearest).** For every moment, `seconds()` is a finite number, differs from the moment by at most 2^-22 s (a quarter of a
microsecond), and no other `double` is closer; of two equally close ones it is the even one. -/
theorem C89_nearest {d : Nat} (hd : d < 2 ^ 64) : ∃ r : ℚ, ieeeValue 52 11 (seconds d) = some r ∧
    |(d : ℚ) / 2 ^ 32 - r| ≤ 1 / 2 ^ 22 ∧
    ∀ x v, ieeeValue 52 11 x = some v → |(d : ℚ) / 2 ^ 32 - r| ≤ |(d : ℚ) / 2 ^ 32 - v| ∧
      (|(d : ℚ) / 2 ^ 32 - r| = |(d : ℚ) / 2 ^ 32 - v| → v = r ∨ seconds d % 2 = 0) := by
  obtain ⟨_, r, h1, h2⟩ := seconds_spec hd
  refine ⟨r, h1, ?_, h2⟩
  -- the nearest multiple of 2^-21 is representable
  obtain ⟨k, hk⟩ : ∃ k, k = (d + 1024) / 2048 := ⟨_, rfl⟩
  have k1 : 2048 * k ≤ d + 1024 := by omega
  have k2 : d + 1024 < 2048 * k + 2048 := by omega
  have q1 : 2048 * (k : ℚ) ≤ d + 1024 := by exact_mod_cast k1
  have q2 : (d : ℚ) + 1024 ≤ 2048 * k + 2048 := by exact_mod_cast k2.le
  have hv : ∃ x, ieeeValue 52 11 x = some ((k : ℚ) / 2 ^ 21) := by
    have e21 : ∀ j : ℚ, j * 2 ^ (-21 : Int) = j / 2 ^ 21 := fun j => by rw [div_eq_mul_inv]; norm_num
    rcases Nat.lt_or_ge k (2 ^ 53) with c | c
    · obtain ⟨x, hx⟩ := representable (m := k) (e := -21) (by
        have : (k : ℚ) < 2 ^ 53 := by exact_mod_cast c
        rw [e21, div_lt_iff₀ (by norm_num)]; norm_num at this ⊢; linarith) c (by decide)
      exact ⟨x, by rw [hx, e21]⟩
    · have : k = 2 ^ 53 := by omega
      obtain ⟨x, hx⟩ := representable (m := 1) (e := 32) (by norm_num) (by decide) (by decide)
      refine ⟨x, ?_⟩
      rw [hx, this]
      norm_num
  obtain ⟨x, hx⟩ := hv
  refine le_trans (h2 x _ hx).1 ?_
  rw [abs_le]
  constructor
  · norm_num; linarith
  · norm_num; linarith

/-- **C89 (exact).** `seconds()` is the very moment exactly when the fixed-point number of the moment has at most 53 significant bits. -/
theorem C89_exact {d : Nat} (hd : d < 2 ^ 64) :
    ieeeValue 52 11 (seconds d) = some ((d : ℚ) / 2 ^ 32) ↔ ∃ j l, d = j * 2 ^ l ∧ j < 2 ^ 53 := by
  have hdq : ((d : ℕ) : ℚ) < 2 ^ 64 := by exact_mod_cast hd
  constructor
  · intro h
    obtain ⟨j, l, g1, g2, -⟩ := value_grid h
    have hz : (2 : ℚ) ^ 32 = 2 ^ (32 : Int) := by norm_cast
    have e : (d : ℚ) = j * 2 ^ (l + 32) := by
      rw [div_eq_iff (by norm_num), mul_assoc, hz, ← zpow_add₀ (by norm_num)] at g1
      exact g1
    have hj0 : 0 ≤ j := by
      by_contra c
      have : (j : ℚ) < 0 := by exact_mod_cast not_le.1 c
      have : (j : ℚ) * 2 ^ (l + 32) < 0 := mul_neg_of_neg_of_pos this (by positivity)
      rw [← e] at this
      exact absurd this (not_lt.2 (Nat.cast_nonneg d))
    rw [abs_of_nonneg hj0] at g2
    obtain ⟨J, rfl⟩ := Int.eq_ofNat_of_zero_le hj0
    have hJ : J < 2 ^ 53 := by exact_mod_cast g2
    rcases le_or_gt 0 (l + 32) with c | c
    · obtain ⟨L, hL⟩ := Int.eq_ofNat_of_zero_le c
      refine ⟨J, L, ?_, hJ⟩
      rw [hL] at e
      have : ((d : ℕ) : ℚ) = ((J * 2 ^ L : ℕ) : ℚ) := by
        rw [e, zpow_natCast, Nat.cast_mul, Nat.cast_pow, Int.cast_natCast, Nat.cast_ofNat]
      exact_mod_cast this
    · refine ⟨d, 0, by simp, lt_of_le_of_lt ?_ hJ⟩
      have h1 : (2 : ℚ) ^ (l + 32) ≤ 1 := zpow_le_one_of_nonpos₀ (by norm_num) (by omega)
      have h2 : (d : ℚ) ≤ J := by
        rw [e]
        exact mul_le_of_le_one_right (Nat.cast_nonneg J) h1
      exact_mod_cast h2
  · rintro ⟨j, l, e, hj⟩
    obtain ⟨_, r, h1, h2⟩ := seconds_spec hd
    have hz : (2 : ℚ) ^ 32 = 2 ^ (32 : Int) := by norm_cast
    have e2 : (j : ℚ) * 2 ^ ((l : Int) - 32) = (d : ℚ) / 2 ^ 32 := by
      rw [e, zpow_sub₀ (by norm_num), hz]
      push_cast
      rw [zpow_natCast, mul_div_assoc]
    obtain ⟨x, hx⟩ := representable (m := j) (e := (l : Int) - 32) (by
      rw [e2, div_lt_iff₀ (by norm_num)]; norm_num at hdq ⊢; linarith) hj (by omega)
    rw [e2] at hx
    have := (h2 x _ hx).1
    rw [sub_self, abs_zero, abs_nonpos_iff, sub_eq_zero] at this
    rw [h1, ← this]

/-- Three seconds and a half; a moment of 2019 rounded to 2^-16 s; the same moment in full is not exact. -/
example : ieeeValue 52 11 (seconds 0x380000000) = some (7 / 2) := by decide +kernel
example : ∃ j l, 0x5CA0F00D12340000 = j * 2 ^ l ∧ j < 2 ^ 53 := ⟨0x5CA0F00D1234, 16, by norm_num, by norm_num⟩
example : ieeeValue 52 11 (seconds 0x5CA0F00D12345678) ≠ some ((0x5CA0F00D12345678 : ℚ) / 2 ^ 32) := by decide +kernel

/-- **C89 (clock).** A moment from `fptu_now(-k)` with `k` at least 11, as with the default 16, is exact. -/
theorem C89_clock {raw k : Nat} (hr : raw < 2 ^ 64) (hk : 11 ≤ k) :
    ieeeValue 52 11 (seconds (nowRounded (-(k : Int)) raw)) = some ((nowRounded (-(k : Int)) raw : ℚ) / 2 ^ 32) := by
  obtain ⟨h1, -, h3⟩ := C25_now_rounding raw k (by omega)
  refine (C89_exact (by omega)).2 ?_
  obtain ⟨c, hc⟩ := Nat.dvd_trans (Nat.pow_dvd_pow 2 (show 11 ≤ min k 32 by omega)) h3
  exact ⟨c, 11, by rw [hc, Nat.mul_comm], by omega⟩

/-- **C89 (monotone).** A later moment is never a smaller number. -/
theorem C89_monotone {a b : Nat} (hb : b < 2 ^ 64) (h : a ≤ b) {ra rb : ℚ} (ha : ieeeValue 52 11 (seconds a) = some ra)
    (hb' : ieeeValue 52 11 (seconds b) = some rb) : ra ≤ rb := by
  rcases Nat.lt_or_eq_of_le h with c | c
  · obtain ⟨_, r, h1, h2⟩ := seconds_spec (d := a) (by omega)
    obtain ⟨_, r', h1', h2'⟩ := seconds_spec hb
    rw [ha] at h1
    rw [hb'] at h1'
    obtain rfl := Option.some.inj h1
    obtain rfl := Option.some.inj h1'
    have n1 := (h2 _ _ hb').1
    have n2 := (h2' _ _ ha).1
    have hq : (a : ℚ) / 2 ^ 32 < (b : ℚ) / 2 ^ 32 := div_lt_div_of_pos_right (by exact_mod_cast c) (by norm_num)
    generalize (a : ℚ) / 2 ^ 32 = u at *
    generalize (b : ℚ) / 2 ^ 32 = v at *
    by_contra k
    rw [not_le] at k
    have m1 : (u - ra) ^ 2 ≤ (u - rb) ^ 2 := sq_le_sq.2 n1
    have m2 : (v - rb) ^ 2 ≤ (v - ra) ^ 2 := sq_le_sq.2 n2
    nlinarith
  · subst c
    rw [ha] at hb'
    exact le_of_eq (Option.some.inj hb')

/-- **C89 (fraction).** `fractional_seconds()` is the very fraction, for every moment; it is below one. -/
theorem C89_fractional (d : Nat) : ieeeValue 52 11 (fractionalSeconds d) = some ((fractional d : ℚ) / 2 ^ 32) ∧
    (0 : ℚ) ≤ (fractional d : ℚ) / 2 ^ 32 ∧ (fractional d : ℚ) / 2 ^ 32 < 1 := by
  refine ⟨(fractionalSeconds_spec d).2, by positivity, ?_⟩
  have hf : fractional d < 2 ^ 32 := Nat.mod_lt _ (by decide)
  rw [div_lt_one (by norm_num)]
  exact_mod_cast hf

/-- **C89, refuted for moments in full.** Two moments are the same number of seconds, and the last moments of a second are the
next second. -/
theorem C89_exact_refuted : seconds 0x5CA0F00D12345600 = seconds 0x5CA0F00D12345601 ∧
    utcSeconds 0x5CA0F00DFFFFFFFF = 0x5CA0F00D ∧ ieeeValue 52 11 (seconds 0x5CA0F00DFFFFFFFF) = some (0x5CA0F00D + 1) := by decide +kernel

/-- **C89, partial (whole seconds).** The number of seconds is never below `utc_seconds()` and never above the next second; it is below
the next second unless the moment is in the last quarter of a microsecond before it.

Missing: the last moments of a second, for which it is false (`C89_exact_refuted`). -/
theorem C89_whole_partial {d : Nat} (hd : d < 2 ^ 64) {r : ℚ} (hr : ieeeValue 52 11 (seconds d) = some r) :
    (utcSeconds d : ℚ) ≤ r ∧ r ≤ utcSeconds d + 1 ∧ (fractional d < 2 ^ 32 - 2 ^ 10 → r < utcSeconds d + 1) := by
  have hu : utcSeconds d < 2 ^ 32 := by unfold utcSeconds; omega
  have hf : fractional d < 2 ^ 32 := Nat.mod_lt _ (by decide)
  have hsum : (d : ℚ) = utcSeconds d * 2 ^ 32 + fractional d := by
    have : ((utcSeconds d * 2 ^ 32 + fractional d : ℕ) : ℚ) = (d : ℚ) := by
      congr 1; unfold utcSeconds fractional; omega
    rw [← this]
    push_cast
    ring
  obtain ⟨_, r', h1, h2⟩ := seconds_spec hd
  obtain ⟨r'', h3, h4, _⟩ := C89_nearest hd
  rw [hr] at h1 h3
  obtain rfl := Option.some.inj h1
  obtain rfl := Option.some.inj h3
  generalize utcSeconds d = u at *
  generalize fractional d = f at *
  have hfq : (f : ℚ) < 2 ^ 32 := by exact_mod_cast hf
  have hf0 : (0 : ℚ) ≤ f := Nat.cast_nonneg f
  have huq : (u : ℚ) + 1 ≤ 2 ^ 32 := by exact_mod_cast hu
  have hq : (d : ℚ) / 2 ^ 32 = u + f / 2 ^ 32 := by rw [hsum]; field_simp
  have hq1 : (f : ℚ) / 2 ^ 32 < 1 := by rw [div_lt_one (by norm_num)]; exact hfq
  have hq0 : (0 : ℚ) ≤ (f : ℚ) / 2 ^ 32 := by positivity
  rw [hq] at h2 h4
  obtain ⟨x, hx⟩ := representable (m := u) (e := 0) (by norm_num at huq ⊢; linarith) (by omega) (by decide)
  obtain ⟨y, hy⟩ := representable (m := u + 1) (e := 0) (by push_cast; norm_num at huq ⊢; linarith) (by omega) (by decide)
  rw [zpow_zero, mul_one] at hx hy
  push_cast at hy
  have n1 := sq_le_sq.2 (h2 _ _ hx).1
  have n2 := sq_le_sq.2 (h2 _ _ hy).1
  have n3 : f < 2 ^ 32 - 2 ^ 10 → (f : ℚ) / 2 ^ 32 < 1 - 1 / 2 ^ 22 := fun c => by
    have : (f : ℚ) < 2 ^ 32 - 2 ^ 10 := by
      have : ((f + 2 ^ 10 : ℕ) : ℚ) < ((2 ^ 32 : ℕ) : ℚ) := by exact_mod_cast (by omega : f + 2 ^ 10 < 2 ^ 32)
      push_cast at this
      linarith
    rw [div_lt_iff₀ (by norm_num)]
    norm_num at this ⊢
    linarith
  generalize (f : ℚ) / 2 ^ 32 = q at *
  refine ⟨?_, ?_, fun c => ?_⟩
  · by_contra k
    rw [not_le] at k
    nlinarith
  · by_contra k
    rw [not_le] at k
    nlinarith
  · have := n3 c
    have := (abs_le.1 h4).1
    linarith

example : ieeeValue 52 11 (seconds 0x5CA0F00D80000001) = some (0x5CA0F00D + 1 / 2) := by decide +kernel

end Fptu.Props
