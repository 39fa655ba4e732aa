import Verif.Model.Real
import Verif.Lemmas.Numeric
import Mathlib.Algebra.Order.Field.Power
/-!
# Lemmas about rounding to floating-point formats
-/
namespace Fptu.Real
open Fptu Fptu.Gear Fptu.Rw Fptu.Num

theorem roundHalfEven_spec {m d : Nat} (hd : 0 < d) :
    2 * m ≤ 2 * (roundHalfEven m d * d) + d ∧ 2 * (roundHalfEven m d * d) ≤ 2 * m + d ∧
      ((2 * m = 2 * (roundHalfEven m d * d) + d ∨ 2 * (roundHalfEven m d * d) = 2 * m + d) → roundHalfEven m d % 2 = 0) := by
  have e := Nat.div_add_mod m d
  have hr := Nat.mod_lt m hd
  unfold roundHalfEven
  rw [Nat.mul_comm d] at e
  split_ifs with c
  · omega
  · have h1 : (m / d + 1) * d = m / d * d + d := by ring
    rw [h1]
    generalize m / d * d = A at *
    omega

theorem roundHalfEven_le {m d N : Nat} (hd : 0 < d) (h : m ≤ N * d) : roundHalfEven m d ≤ N := by
  have e := Nat.div_add_mod m d
  have hr := Nat.mod_lt m hd
  unfold roundHalfEven
  have h1 : m / d ≤ N := by
    have := Nat.div_le_div_right (c := d) h
    rwa [Nat.mul_div_cancel _ hd] at this
  split_ifs with c
  · exact h1
  · rcases Nat.lt_or_eq_of_le h1 with k | k
    · omega
    · rw [k, Nat.mul_comm] at e
      omega

theorem roundHalfEven_ge {m d N : Nat} (hd : 0 < d) (h : N * d ≤ m) : N ≤ roundHalfEven m d := by
  have : N ≤ m / d := (Nat.le_div_iff_mul_le hd).2 h
  unfold roundHalfEven
  split_ifs <;> omega

theorem zpow_toNat {a b : Int} (h : b ≤ a) : (2 : ℚ) ^ a = ((2 ^ (a - b).toNat : Nat) : ℚ) * 2 ^ b := by
  push_cast
  rw [← zpow_natCast, Int.toNat_of_nonneg (by omega), ← zpow_add₀ (by norm_num)]
  congr 1; omega

/-- The result of rounding `m * 2 ^ e` is `n` steps of `2 ^ t`. -/
structure Rounded (p : Nat) (tmin : Int) (m : Nat) (e : Int) (b n : Nat) (t : Int) : Prop where
  tmin_le : tmin ≤ t
  bits : b = (t - tmin).toNat * 2 ^ p + n
  top : n ≤ 2 ^ (p + 1)
  norm : tmin < t → 2 ^ p ≤ n ∧ (2 ^ p : ℚ) * 2 ^ t ≤ m * 2 ^ e
  near : |(m : ℚ) * 2 ^ e - n * 2 ^ t| ≤ 2 ^ t / 2
  tie : |(m : ℚ) * 2 ^ e - n * 2 ^ t| = 2 ^ t / 2 → n % 2 = 0

theorem rounded {p : Nat} {tmin : Int} {m : Nat} (hm : m ≠ 0) (e : Int) :
    ∃ n t, Rounded p tmin m e (roundBits p tmin m e) n t ∧ t = max tmin (e + Nat.log2 m - p) ∧
      (t ≤ e → (n : ℚ) * 2 ^ t = m * 2 ^ e) ∧ (∀ N : Nat, (m : ℚ) * 2 ^ e ≤ N * 2 ^ t → n ≤ N) := by
  obtain ⟨t, ht⟩ : ∃ t, t = max tmin (e + (Nat.log2 m : Int) - p) := ⟨_, rfl⟩
  have hb : roundBits p tmin m e =
      (t - tmin).toNat * 2 ^ p + (if t ≤ e then m * 2 ^ (e - t).toNat else roundHalfEven m (2 ^ (t - e).toNat)) := by
    unfold roundBits
    rw [if_neg hm, ht]
  have l1 : 2 ^ Nat.log2 m ≤ m := Nat.log2_self_le hm
  have l2 : m < 2 ^ (Nat.log2 m + 1) := Nat.lt_log2_self
  have t1 : tmin ≤ t := by omega
  have t2 : e + (Nat.log2 m : Int) - p ≤ t := by omega
  have hpos : (0 : ℚ) < 2 ^ t := by positivity
  have hlow : tmin < t → (2 ^ p : ℚ) * 2 ^ t ≤ m * 2 ^ e := by
    intro h
    have h3 : t = e + (Nat.log2 m : Int) - p := by omega
    have h4 : (2 ^ p : ℚ) * 2 ^ t = ((2 ^ Nat.log2 m : Nat) : ℚ) * 2 ^ e := by
      push_cast
      rw [← zpow_natCast, ← zpow_natCast, ← zpow_add₀ (by norm_num), ← zpow_add₀ (by norm_num)]
      congr 1; omega
    rw [h4]
    exact mul_le_mul_of_nonneg_right (by exact_mod_cast l1) (by positivity)
  have hup : (m : ℚ) * 2 ^ e ≤ ((2 ^ (p + 1) : Nat) : ℚ) * 2 ^ t := by
    have h4 : (2 : ℚ) ^ (e + (Nat.log2 m : Int) - p) ≤ 2 ^ t := zpow_le_zpow_right₀ (by norm_num) t2
    have h5 : ((2 ^ (Nat.log2 m + 1) : Nat) : ℚ) * 2 ^ e = ((2 ^ (p + 1) : Nat) : ℚ) * 2 ^ (e + (Nat.log2 m : Int) - p) := by
      push_cast
      rw [← zpow_natCast, ← zpow_natCast, ← zpow_add₀ (by norm_num), ← zpow_add₀ (by norm_num)]
      congr 1; push_cast; omega
    calc (m : ℚ) * 2 ^ e ≤ ((2 ^ (Nat.log2 m + 1) : Nat) : ℚ) * 2 ^ e :=
          mul_le_mul_of_nonneg_right (by exact_mod_cast l2.le) (by positivity)
      _ = _ := h5
      _ ≤ _ := mul_le_mul_of_nonneg_left h4 (by positivity)
  by_cases c : t ≤ e
  · rw [if_pos c] at hb
    have he : ((m * 2 ^ (e - t).toNat : Nat) : ℚ) * 2 ^ t = m * 2 ^ e := by
      rw [zpow_toNat c]; push_cast; ring
    have hle : ∀ N : Nat, (m : ℚ) * 2 ^ e ≤ N * 2 ^ t → m * 2 ^ (e - t).toNat ≤ N := by
      intro N h
      rw [← he] at h
      exact_mod_cast le_of_mul_le_mul_right h hpos
    refine ⟨m * 2 ^ (e - t).toNat, t, ⟨t1, hb, hle _ hup, fun h => ⟨?_, hlow h⟩, ?_, ?_⟩, ht, fun _ => he, hle⟩
    · have := hlow h
      rw [← he] at this
      exact_mod_cast le_of_mul_le_mul_right this hpos
    · rw [he, sub_self, abs_zero]; positivity
    · rw [he, sub_self, abs_zero]
      intro k
      exact absurd k (by positivity)
  · rw [if_neg c] at hb
    obtain ⟨d, hd⟩ : ∃ d, d = 2 ^ (t - e).toNat := ⟨_, rfl⟩
    have hd0 : 0 < d := by rw [hd]; positivity
    have hte : (2 : ℚ) ^ t = (d : ℚ) * 2 ^ e := by rw [hd]; exact zpow_toNat (by omega)
    rw [← hd] at hb
    obtain ⟨r1, r2, r3⟩ := roundHalfEven_spec (m := m) hd0
    have hle : ∀ N : Nat, (m : ℚ) * 2 ^ e ≤ N * 2 ^ t → roundHalfEven m d ≤ N := by
      intro N h
      rw [hte, ← mul_assoc] at h
      exact roundHalfEven_le hd0 (by exact_mod_cast le_of_mul_le_mul_right h (by positivity))
    obtain ⟨n, hn⟩ : ∃ n, n = roundHalfEven m d := ⟨_, rfl⟩
    rw [← hn] at hb r1 r2 r3
    have hge : tmin < t → 2 ^ p ≤ n := by
      intro h
      have := hlow h
      rw [hte, ← mul_assoc] at this
      rw [hn]
      exact roundHalfEven_ge hd0 (by exact_mod_cast le_of_mul_le_mul_right this (by positivity))
    have hdiff : (m : ℚ) * 2 ^ e - n * 2 ^ t = ((m : ℚ) - n * d) * 2 ^ e := by rw [hte]; ring
    have q1 : 2 * (m : ℚ) ≤ 2 * (n * d) + d := by exact_mod_cast r1
    have q2 : 2 * ((n : ℚ) * d) ≤ 2 * m + d := by exact_mod_cast r2
    have hpe : (0 : ℚ) < 2 ^ e := by positivity
    refine ⟨n, t, ⟨t1, hb, by rw [hn]; exact hle _ hup, fun h => ⟨hge h, hlow h⟩, ?_, ?_⟩, ht, fun k => absurd k c, fun N h => by rw [hn]; exact hle N h⟩
    · rw [hdiff, abs_mul, abs_of_pos hpe, hte, mul_div_right_comm]
      refine mul_le_mul_of_nonneg_right ?_ hpe.le
      rw [abs_le]
      constructor <;> linarith
    · rw [hdiff, abs_mul, abs_of_pos hpe, hte, mul_div_right_comm]
      intro k
      have k := mul_right_cancel₀ hpe.ne' k
      apply r3
      rcases abs_choice ((m : ℚ) - n * d) with a | a <;> rw [a] at k
      · left
        have : 2 * (m : ℚ) = 2 * (n * d) + d := by linarith
        exact_mod_cast this
      · right
        have : 2 * ((n : ℚ) * d) = 2 * m + d := by linarith
        exact_mod_cast this

/-- A pattern below the infinity: `n` steps of `2 ^ (k + tmin)`. -/
theorem bits_value {p E k n s : Nat} {tmin : Int} (hE : 1 ≤ E) (ht : tmin = 2 - 2 ^ (E - 1) - (p : Int)) (hs : s < 2) (hn : n ≤ 2 ^ (p + 1))
    (hk : 0 < k → 2 ^ p ≤ n) (hb : k * 2 ^ p + n < (2 ^ E - 1) * 2 ^ p) :
    ieeeValue p E (s * 2 ^ (p + E) + (k * 2 ^ p + n)) = some ((if s = 1 then -1 else 1) * (n : ℚ) * 2 ^ ((k : Int) + tmin)) := by
  have hp : 0 < 2 ^ p := by positivity
  have hE2 : 1 ≤ 2 ^ E := Nat.one_le_two_pow
  obtain ⟨x, f, hf, hx, hxE, hval⟩ : ∃ x f, f < 2 ^ p ∧ k * 2 ^ p + n = x * 2 ^ p + f ∧ x < 2 ^ E - 1 ∧
      ((x = 0 ∧ k = 0 ∧ f = n) ∨ (0 < x ∧ ((2 ^ p + f : Nat) : ℚ) * 2 ^ (x : Int) = n * 2 ^ ((k : Int) + 1))) := by
    have lim : ∀ x f, k * 2 ^ p + n = x * 2 ^ p + f → x < 2 ^ E - 1 := by
      intro x f h
      rw [h] at hb
      exact lt_of_mul_lt_mul_right (lt_of_le_of_lt (Nat.le_add_right _ _) hb) (Nat.zero_le _)
    by_cases c1 : n < 2 ^ p
    · have hk0 : k = 0 := by
        by_contra h
        exact absurd (hk (by omega)) (by omega)
      exact ⟨0, n, c1, by rw [hk0], lim 0 n (by rw [hk0]), Or.inl ⟨rfl, hk0, rfl⟩⟩
    · by_cases c2 : n < 2 ^ (p + 1)
      · have e : k * 2 ^ p + n = (k + 1) * 2 ^ p + (n - 2 ^ p) := by
          have : (k + 1) * 2 ^ p = k * 2 ^ p + 2 ^ p := by ring
          omega
        refine ⟨k + 1, n - 2 ^ p, by rw [pow_succ] at c2; omega, e, lim _ _ e, Or.inr ⟨by omega, ?_⟩⟩
        rw [show 2 ^ p + (n - 2 ^ p) = n by omega]
        push_cast; rfl
      · have hn' : n = 2 ^ (p + 1) := by omega
        have e : k * 2 ^ p + n = (k + 2) * 2 ^ p + 0 := by rw [hn', pow_succ]; ring
        refine ⟨k + 2, 0, hp, e, lim _ _ e, Or.inr ⟨by omega, ?_⟩⟩
        rw [hn', pow_succ]
        push_cast
        rw [show (k : Int) + 2 = (k + 1) + 1 by ring, zpow_add_one₀ (by norm_num)]
        ring
  rw [hx]
  obtain ⟨a1, a2, a3⟩ := ieee_parts (p := p) (E := E) (e := x) (f := f) (s := s) (by omega) hf
  unfold ieeeValue
  dsimp only
  rw [a1, a2, a3, if_neg (by omega), Nat.mod_eq_of_lt hs]
  rcases hval with ⟨h1, h2, h3⟩ | ⟨h1, h2⟩
  · rw [if_pos h1, h3, h2, ht]
    congr 3
    push_cast; ring
  · rw [if_neg (by omega), show (x : Int) - (2 ^ (E - 1) - 1) - (p : Int) = x + (tmin - 1) by rw [ht]; ring,
      show (k : Int) + tmin = (k + 1) + (tmin - 1) by ring, zpow_add₀ (by norm_num), zpow_add₀ (by norm_num) ((k : Int) + 1),
      mul_assoc, mul_assoc, ← mul_assoc _ ((2 : ℚ) ^ (x : Int)), h2]
    ring

/-- Less than `2 ^ (p + 1)` steps of some `2 ^ l`, as every number of the format. -/
def Grid (p E : Nat) (v : ℚ) : Prop := ∃ (j : Int) (l : Int), v = j * 2 ^ l ∧ |j| < 2 ^ (p + 1) ∧ 2 - 2 ^ (E - 1) - (p : Int) ≤ l

theorem Grid.neg {p E : Nat} {v : ℚ} : Grid p E v → Grid p E (-v)
  | ⟨j, l, h1, h2, h3⟩ => ⟨-j, l, by rw [h1]; push_cast; ring, by rwa [abs_neg], h3⟩

theorem value_grid {p E x : Nat} {v : ℚ} (hv : ieeeValue p E x = some v) : Grid p E v := by
  unfold ieeeValue at hv
  dsimp only at hv
  have hf : x % 2 ^ p < 2 ^ p := Nat.mod_lt _ (by positivity)
  generalize x % 2 ^ p = f at *
  generalize x / 2 ^ p % 2 ^ E = y at *
  have hsgn : ∀ n : Nat, n < 2 ^ (p + 1) → ∃ j : Int, |j| < 2 ^ (p + 1) ∧
      (if x / 2 ^ (p + E) % 2 = 1 then (-1 : ℚ) else 1) * (n : ℚ) = j := by
    intro n hn
    have : (n : Int) < 2 ^ (p + 1) := by exact_mod_cast hn
    split_ifs
    · exact ⟨-n, by rw [abs_neg, Nat.abs_cast]; exact this, by push_cast; ring⟩
    · exact ⟨n, by rw [Nat.abs_cast]; exact this, by push_cast; ring⟩
  have h2 : 2 ^ (p + 1) = 2 ^ p + 2 ^ p := by rw [pow_succ]; ring
  by_cases c1 : y = 2 ^ E - 1
  · rw [if_pos c1] at hv; cases hv
  rw [if_neg c1] at hv
  by_cases c2 : y = 0
  · rw [if_pos c2] at hv
    obtain ⟨j, j1, j2⟩ := hsgn f (by omega)
    refine ⟨j, 1 - (2 ^ (E - 1) - 1) - (p : Int), ?_, j1, by omega⟩
    rw [← j2, ← Option.some.inj hv]
  · rw [if_neg c2] at hv
    obtain ⟨j, j1, j2⟩ := hsgn (2 ^ p + f) (by omega)
    refine ⟨j, (y : Int) - (2 ^ (E - 1) - 1) - (p : Int), ?_, j1, by omega⟩
    rw [← j2, ← Option.some.inj hv]

/-- The rounded number is a nearest one of the format, and the other nearest one, if there is any, is odd. -/
theorem nearest_of {p E m n b : Nat} {e t tmin : Int} (ht : tmin = 2 - 2 ^ (E - 1) - (p : Int)) (h : Rounded p tmin m e b n t)
    {v : ℚ} (hv : Grid p E v) :
    |(m : ℚ) * 2 ^ e - n * 2 ^ t| ≤ |(m : ℚ) * 2 ^ e - v| ∧
      (|(m : ℚ) * 2 ^ e - n * 2 ^ t| = |(m : ℚ) * 2 ^ e - v| → v = n * 2 ^ t ∨ n % 2 = 0) := by
  have hpt : (0 : ℚ) < 2 ^ t := by positivity
  -- multiples of the step
  have mult : ∀ i : Int, i ≠ n → 2 ^ t / 2 ≤ |(m : ℚ) * 2 ^ e - i * 2 ^ t| := by
    intro i hi
    have h1 : (1 : ℚ) ≤ |(i : ℚ) - n| := by
      have : (1 : Int) ≤ |i - n| := Int.one_le_abs (by omega)
      exact_mod_cast this
    have h2 : (2 : ℚ) ^ t ≤ |(i : ℚ) * 2 ^ t - n * 2 ^ t| := by
      rw [← sub_mul, abs_mul, abs_of_pos hpt]
      nlinarith
    have h3 := abs_sub_abs_le_abs_sub ((i : ℚ) * 2 ^ t - n * 2 ^ t) ((m : ℚ) * 2 ^ e - n * 2 ^ t)
    have h4 : |(i : ℚ) * 2 ^ t - n * 2 ^ t - ((m : ℚ) * 2 ^ e - n * 2 ^ t)| = |(m : ℚ) * 2 ^ e - i * 2 ^ t| := by
      rw [abs_sub_comm]; congr 1; ring
    rw [h4] at h3
    have := h.near
    linarith
  have both : ∀ i : Int, |(m : ℚ) * 2 ^ e - n * 2 ^ t| ≤ |(m : ℚ) * 2 ^ e - i * 2 ^ t| ∧
      (|(m : ℚ) * 2 ^ e - n * 2 ^ t| = |(m : ℚ) * 2 ^ e - i * 2 ^ t| → i = n ∨ n % 2 = 0) := by
    intro i
    by_cases c : i = n
    · rw [c]; exact ⟨le_of_eq (by push_cast; rfl), fun _ => Or.inl rfl⟩
    · have := mult i c
      refine ⟨le_trans h.near this, fun k => Or.inr (h.tie (le_antisymm h.near ?_))⟩
      rw [k]; exact this
  obtain ⟨j, l, hvj, hj, hl⟩ := hv
  by_cases c : t ≤ l
  · obtain ⟨i, hi⟩ : ∃ i : Int, v = i * 2 ^ t := by
      refine ⟨j * ((2 ^ (l - t).toNat : Nat) : Int), ?_⟩
      rw [hvj, zpow_toNat c]; push_cast; ring
    obtain ⟨b1, b2⟩ := both i
    rw [hi]
    refine ⟨b1, fun k => (b2 k).imp (fun k => by rw [k]; push_cast; rfl) id⟩
  · have htl : tmin < t := by rw [ht]; omega
    obtain ⟨_, hlow⟩ := h.norm htl
    have hw : v < 2 ^ p * 2 ^ t := by
      have h1 : (2 : ℚ) ^ (p + 1) * 2 ^ l ≤ 2 ^ p * 2 ^ t := by
        rw [pow_succ, mul_assoc]
        refine mul_le_mul_of_nonneg_left ?_ (by positivity)
        rw [← zpow_one_add₀ (by norm_num)]
        exact zpow_le_zpow_right₀ (by norm_num) (by omega)
      have h2 : (j : ℚ) < 2 ^ (p + 1) := by exact_mod_cast lt_of_le_of_lt (le_abs_self j) hj
      rw [hvj]
      exact lt_of_lt_of_le (mul_lt_mul_of_pos_right h2 (by positivity)) h1
    have hlt : |(m : ℚ) * 2 ^ e - ((2 ^ p : Int) : ℚ) * 2 ^ t| < |(m : ℚ) * 2 ^ e - v| := by
      push_cast
      rw [abs_of_nonneg (by linarith), abs_of_pos (by linarith)]
      linarith
    have := (both (2 ^ p)).1
    refine ⟨le_trans this hlt.le, fun k => ?_⟩
    rw [k] at this
    exact absurd this (not_le.2 hlt)

/-- `r` is a nearest number of the format to `q`; when it is not the only one, `y` is even. -/
def NearestTo (p E : Nat) (q r : ℚ) (y : Nat) : Prop :=
  ∀ z v, ieeeValue p E z = some v → |q - r| ≤ |q - v| ∧ (|q - r| = |q - v| → v = r ∨ y % 2 = 0)

theorem round_value {p E s m : Nat} {e tmin : Int} (hp : 1 ≤ p) (hE : 1 ≤ E) (ht : tmin = 2 - 2 ^ (E - 1) - (p : Int)) (hs : s < 2)
    (hb : roundBits p tmin m e < (2 ^ E - 1) * 2 ^ p) :
    ∃ r, ieeeValue p E (s * 2 ^ (p + E) + roundBits p tmin m e) = some r ∧
      NearestTo p E ((if s = 1 then -1 else 1) * (m : ℚ) * 2 ^ e) r (roundBits p tmin m e) ∧
      (Nat.log2 m ≤ p → tmin ≤ e → r = (if s = 1 then -1 else 1) * (m : ℚ) * 2 ^ e) := by
  by_cases hm : m = 0
  · have h0 : roundBits p tmin m e = 0 := by unfold roundBits; rw [if_pos hm]
    have hv := bits_value (p := p) (E := E) (k := 0) (n := 0) hE ht hs (Nat.zero_le _) (fun h => absurd h (lt_irrefl _)) (by
      rw [h0] at hb; rwa [Nat.zero_mul])
    rw [Nat.zero_mul] at hv
    refine ⟨0, ?_, ?_, fun _ _ => ?_⟩
    · rw [h0, hv]; simp
    · intro z v _
      rw [h0, hm]
      simp
    · rw [hm]; simp
  obtain ⟨n, t, h, hteq, hex, _⟩ := rounded (p := p) (tmin := tmin) hm e
  have hk : 0 < (t - tmin).toNat → 2 ^ p ≤ n := fun k => (h.norm (by omega)).1
  rw [h.bits] at hb
  have hv := bits_value (s := s) hE ht hs h.top hk hb
  rw [← h.bits, show (((t - tmin).toNat : Nat) : Int) + tmin = t by have := h.tmin_le; omega] at hv
  refine ⟨_, hv, ?_, ?_⟩
  · intro z v hz
    have hpar : roundBits p tmin m e % 2 = n % 2 := by
      rw [h.bits]
      obtain ⟨p', rfl⟩ : ∃ p', p = p' + 1 := ⟨p - 1, by omega⟩
      rw [pow_succ, ← mul_assoc, Nat.add_mod, Nat.mul_mod_left, Nat.zero_add, Nat.mod_mod]
    rw [hpar]
    by_cases c : s = 1
    · rw [if_pos c]
      obtain ⟨a, b⟩ := nearest_of ht h (value_grid hz).neg
      have e1 : -1 * (m : ℚ) * 2 ^ e - -1 * (n : ℚ) * 2 ^ t = -((m : ℚ) * 2 ^ e - n * 2 ^ t) := by ring
      have e2 : -1 * (m : ℚ) * 2 ^ e - v = -((m : ℚ) * 2 ^ e - -v) := by ring
      rw [e1, e2, abs_neg, abs_neg]
      exact ⟨a, fun k => (b k).imp (fun k => by linarith) id⟩
    · rw [if_neg c, one_mul, one_mul]
      exact nearest_of ht h (value_grid hz)
  · intro h1 h2
    rw [mul_assoc, mul_assoc, hex (by rw [hteq]; omega)]

/-- A number up to `FLT_MAX` does not round to the infinity. -/
theorem round_small {m : Nat} {e : Int} (h : (m : ℚ) * 2 ^ e ≤ fltMax) : roundBits 23 (-149) m e < 255 * 2 ^ 23 := by
  by_cases hm : m = 0
  · unfold roundBits; rw [if_pos hm]; norm_num
  obtain ⟨n, t, hr, _, _, hN⟩ := rounded (p := 23) (tmin := -149) hm e
  rw [hr.bits]
  have ht := hr.tmin_le
  have h104 : t ≤ 104 := by
    by_contra c
    have h1 := (hr.norm (by omega)).2
    have h2 : (2 : ℚ) ^ (105 : Int) ≤ 2 ^ t := zpow_le_zpow_right₀ (by norm_num) (by omega)
    unfold fltMax at h
    have h3 : (2 : ℚ) ^ (105 : Int) = 2 ^ 105 := by norm_cast
    rw [h3] at h2
    norm_num at h h1 h2
    linarith
  have htop := hr.top
  rcases Int.lt_or_eq_of_le h104 with c | c
  · norm_num at htop ⊢
    omega
  · have := hN (2 ^ 24 - 1) (by
      rw [c]
      unfold fltMax at h
      refine le_trans h (le_of_eq ?_)
      norm_num)
    rw [c]
    norm_num at this ⊢
    omega

/-- A pattern of infinity or NaN. -/
theorem special_value {p E s f : Nat} (hE : 1 ≤ E) (hf : f < 2 ^ p) :
    ieeeValue p E (s * 2 ^ (p + E) + ((2 ^ E - 1) * 2 ^ p + f)) = none ∧
      fltOf p E (s * 2 ^ (p + E) + ((2 ^ E - 1) * 2 ^ p + f)) = if f = 0 then .inf (decide (s % 2 = 1)) else .nan := by
  have hE2 : 2 ≤ 2 ^ E := by
    calc 2 = 2 ^ 1 := rfl
      _ ≤ _ := Nat.pow_le_pow_right (by norm_num) hE
  obtain ⟨a1, a2, a3⟩ := ieee_parts (p := p) (E := E) (e := 2 ^ E - 1) (f := f) (s := s) (by omega) hf
  have h1 : ieeeValue p E (s * 2 ^ (p + E) + ((2 ^ E - 1) * 2 ^ p + f)) = none := by
    unfold ieeeValue
    dsimp only
    rw [a2, if_pos rfl]
  refine ⟨h1, ?_⟩
  unfold fltOf
  rw [h1]
  dsimp only
  rw [a3, a1]

/-- The parts of a pattern. -/
theorem split_bits {p E x : Nat} (hx : x < 2 ^ (p + E + 1)) :
    x = x / 2 ^ (p + E) % 2 * 2 ^ (p + E) + (x / 2 ^ p % 2 ^ E * 2 ^ p + x % 2 ^ p) := by
  have h1 := Nat.div_add_mod x (2 ^ p)
  have h2 := Nat.div_add_mod (x / 2 ^ p) (2 ^ E)
  have h3 : x / 2 ^ p / 2 ^ E = x / 2 ^ (p + E) := by rw [Nat.div_div_eq_div_mul, pow_add]
  have h4 : x / 2 ^ (p + E) < 2 := Nat.div_lt_of_lt_mul (by rwa [pow_succ] at hx)
  rw [h3] at h2
  rw [Nat.mod_eq_of_lt h4]
  calc x = 2 ^ p * (x / 2 ^ p) + x % 2 ^ p := h1.symm
    _ = 2 ^ p * (2 ^ E * (x / 2 ^ (p + E)) + x / 2 ^ p % 2 ^ E) + x % 2 ^ p := by rw [h2]
    _ = _ := by rw [pow_add]; ring

/-- Significand and exponent of a pattern. -/
theorem value_parts {p E S e f : Nat} (hE : 1 ≤ E) (hS : S < 2) (he : e < 2 ^ E - 1) (hf : f < 2 ^ p) :
    ieeeValue p E (S * 2 ^ (p + E) + (e * 2 ^ p + f)) =
      some ((if S = 1 then -1 else 1) * ((if e = 0 then f else 2 ^ p + f : Nat) : ℚ) * 2 ^ ((max e 1 : Nat) + (1 - 2 ^ (E - 1) - (p : Int)))) := by
  obtain ⟨a1, a2, a3⟩ := ieee_parts (p := p) (E := E) (e := e) (f := f) (s := S) (by omega) hf
  unfold ieeeValue
  dsimp only
  rw [a1, a2, a3, if_neg (by omega), Nat.mod_eq_of_lt hS]
  by_cases c : e = 0
  · rw [if_pos c, if_pos c, c]
    congr 3
    rw [show max 0 1 = 1 from rfl]
    push_cast
    ring
  · rw [if_neg c, if_neg c, Nat.max_eq_left (by omega)]
    congr 3
    ring

theorem fltOf_fin {p E x : Nat} {q : ℚ} (h : ieeeValue p E x = some q) : fltOf p E x = .fin q := by
  unfold fltOf; rw [h]

theorem f32to64_parts {S e f : Nat} (hS : S < 2) (he : e < 2 ^ 8) (hf : f < 2 ^ 23) :
    f32to64 (S * 2 ^ (23 + 8) + (e * 2 ^ 23 + f)) = S * 2 ^ (52 + 11) +
      (if e = 255 then 2047 * 2 ^ 52 + (if f = 0 then 0 else 2 ^ 51 + f % 2 ^ 22 * 2 ^ 29)
        else roundBits 52 (-1074) (if e = 0 then f else 2 ^ 23 + f) ((max e 1 : Nat) - 150)) := by
  obtain ⟨a1, a2, a3⟩ := ieee_parts (p := 23) (E := 8) (e := e) (f := f) (s := S) he hf
  unfold f32to64
  rw [show (31 : Nat) = 23 + 8 from rfl, a1, a2, a3, Nat.mod_eq_of_lt hS]
  dsimp only
  by_cases c : e = 255
  · rw [if_pos c, if_pos c]
  · rw [if_neg c, if_neg c]
    by_cases c0 : e = 0
    · rw [if_pos c0, if_pos c0, c0]; rfl
    · rw [if_neg c0, if_neg c0, Nat.max_eq_left (by omega)]

theorem log2_lt_of {m k : Nat} (h : m < 2 ^ (k + 1)) : Nat.log2 m ≤ k := by
  by_cases c : m = 0
  · rw [c]; simp
  · have := (Nat.log2_lt c).2 h
    omega

/-- Widening stays far from the infinity. -/
theorem widen_small {m : Nat} {e : Int} (hm : m < 2 ^ 24) (he1 : -149 ≤ e) (he2 : e ≤ 104) : roundBits 52 (-1074) m e < 2047 * 2 ^ 52 := by
  by_cases h0 : m = 0
  · unfold roundBits; rw [if_pos h0]; norm_num
  obtain ⟨n, t, hr, ht, _, _⟩ := rounded (p := 52) (tmin := -1074) h0 e
  have hl := log2_lt_of hm
  rw [hr.bits]
  have htop := hr.top
  norm_num at htop ⊢
  omega

theorem special_ite {f G : Nat} {b : Bool} (hG : G ≠ 0) :
    (if (if f = 0 then 0 else G) = 0 then Flt.inf b else .nan) = if f = 0 then .inf b else .nan := by
  by_cases c : f = 0
  · rw [if_pos c, if_pos rfl, if_pos c]
  · rw [if_neg c, if_neg hG, if_neg c]

/-- `static_cast<double>(float)` keeps the number. -/
theorem f32to64_spec {x : Nat} (hx : x < 2 ^ 32) : f32to64 x < 2 ^ 64 ∧ fltOf 52 11 (f32to64 x) = fltOf 23 8 x := by
  have hsp := split_bits (p := 23) (E := 8) (x := x) (by exact hx)
  have hS : x / 2 ^ (23 + 8) % 2 < 2 := Nat.mod_lt _ (by norm_num)
  have hE : x / 2 ^ 23 % 2 ^ 8 < 2 ^ 8 := Nat.mod_lt _ (by norm_num)
  have hF : x % 2 ^ 23 < 2 ^ 23 := Nat.mod_lt _ (by norm_num)
  generalize x / 2 ^ (23 + 8) % 2 = S at *
  generalize x / 2 ^ 23 % 2 ^ 8 = e at *
  generalize x % 2 ^ 23 = f at *
  rw [hsp, f32to64_parts hS hE hF]
  by_cases c : e = 255
  · rw [if_pos c, c]
    have h2 := (special_value (p := 23) (E := 8) (s := S) (by norm_num) hF).2
    have hg : (if f = 0 then 0 else 2 ^ 51 + f % 2 ^ 22 * 2 ^ 29) < 2 ^ 52 := by
      have := Nat.mod_lt f (show 0 < 2 ^ 22 by norm_num)
      split_ifs
      · norm_num
      · norm_num at this ⊢; omega
    have h1 := (special_value (p := 52) (E := 11) (s := S) (by norm_num) hg).2
    refine ⟨?_, ?_⟩
    · norm_num at hg hS ⊢
      omega
    · have hne : 2 ^ 51 + f % 2 ^ 22 * 2 ^ 29 ≠ 0 := Nat.ne_of_gt (Nat.add_pos_left (by norm_num) _)
      rw [special_ite hne] at h1
      exact h1.trans h2.symm
  · rw [if_neg c]
    have hm : (if e = 0 then f else 2 ^ 23 + f) < 2 ^ 24 := by
      split_ifs
      · norm_num at hF ⊢; omega
      · norm_num at hF ⊢; omega
    have hb := widen_small (e := ((max e 1 : Nat) : Int) - 150) hm (by omega) (by norm_num at hE; omega)
    obtain ⟨r, r1, _, r3⟩ := round_value (p := 52) (E := 11) (s := S) (tmin := -1074) (by norm_num) (by norm_num) (by norm_num) hS hb
    have r3 := r3 (le_trans (log2_lt_of hm) (by norm_num)) (by omega)
    have hv := value_parts (p := 23) (E := 8) (S := S) (e := e) (by norm_num) hS (by norm_num at hE ⊢; omega) hF
    refine ⟨?_, ?_⟩
    · norm_num at hb hS ⊢
      omega
    · rw [fltOf_fin r1, fltOf_fin hv, r3]
      congr 3

theorem f64to32_parts {S e f : Nat} (hS : S < 2) (he : e < 2 ^ 11) (hf : f < 2 ^ 52) :
    f64to32 (S * 2 ^ (52 + 11) + (e * 2 ^ 52 + f)) = S * 2 ^ (23 + 8) +
      (if e = 2047 then 255 * 2 ^ 23 + (if f = 0 then 0 else 2 ^ 22 + f / 2 ^ 29 % 2 ^ 22)
        else min (roundBits 23 (-149) (if e = 0 then f else 2 ^ 52 + f) ((max e 1 : Nat) - 1075)) (255 * 2 ^ 23)) := by
  obtain ⟨a1, a2, a3⟩ := ieee_parts (p := 52) (E := 11) (e := e) (f := f) (s := S) he hf
  unfold f64to32
  rw [show (63 : Nat) = 52 + 11 from rfl, a1, a2, a3, Nat.mod_eq_of_lt hS]
  dsimp only
  by_cases c : e = 2047
  · rw [if_pos c, if_pos c]
  · rw [if_neg c, if_neg c]
    by_cases c0 : e = 0
    · rw [if_pos c0, if_pos c0, c0]; rfl
    · rw [if_neg c0, if_neg c0, Nat.max_eq_left (by omega)]

/-- `static_cast<float>(double)`: infinities and NaN stay what they are, a number within the range becomes the nearest one. -/
theorem f64to32_spec {x : Nat} (hx : x < 2 ^ 64) : f64to32 x < 2 ^ 32 ∧
    (∀ b, fltOf 52 11 x = .inf b → fltOf 23 8 (f64to32 x) = .inf b) ∧ (fltOf 52 11 x = .nan → fltOf 23 8 (f64to32 x) = .nan) ∧
    (∀ q, fltOf 52 11 x = .fin q → |q| ≤ fltMax → ∃ r, fltOf 23 8 (f64to32 x) = .fin r ∧ NearestTo 23 8 q r (f64to32 x)) := by
  have hsp := split_bits (p := 52) (E := 11) (x := x) (by exact hx)
  have hS : x / 2 ^ (52 + 11) % 2 < 2 := Nat.mod_lt _ (by norm_num)
  have hE : x / 2 ^ 52 % 2 ^ 11 < 2 ^ 11 := Nat.mod_lt _ (by norm_num)
  have hF : x % 2 ^ 52 < 2 ^ 52 := Nat.mod_lt _ (by norm_num)
  generalize x / 2 ^ (52 + 11) % 2 = S at *
  generalize x / 2 ^ 52 % 2 ^ 11 = e at *
  generalize x % 2 ^ 52 = f at *
  rw [hsp, f64to32_parts hS hE hF]
  by_cases c : e = 2047
  · rw [if_pos c, c]
    have h1 := (special_value (p := 52) (E := 11) (s := S) (by norm_num) hF).2
    have hg : (if f = 0 then 0 else 2 ^ 22 + f / 2 ^ 29 % 2 ^ 22) < 2 ^ 23 := by
      have := Nat.mod_lt (f / 2 ^ 29) (show 0 < 2 ^ 22 by norm_num)
      split_ifs
      · norm_num
      · norm_num at this ⊢; omega
    have h2 := (special_value (p := 23) (E := 8) (s := S) (by norm_num) hg).2
    have h1' : fltOf 52 11 (S * 2 ^ (52 + 11) + (2047 * 2 ^ 52 + f)) = if f = 0 then .inf (decide (S % 2 = 1)) else .nan := h1
    have h2' : fltOf 23 8 (S * 2 ^ (23 + 8) + (255 * 2 ^ 23 + if f = 0 then 0 else 2 ^ 22 + f / 2 ^ 29 % 2 ^ 22)) =
        if f = 0 then .inf (decide (S % 2 = 1)) else .nan := h2.trans (special_ite (by positivity))
    rw [h1', h2']
    refine ⟨?_, fun _ k => k, fun k => k, ?_⟩
    · norm_num at hg hS ⊢
      omega
    · intro q hq
      split_ifs at hq
  · rw [if_neg c]
    have hv := value_parts (p := 52) (E := 11) (S := S) (e := e) (by norm_num) hS (by norm_num at hE ⊢; omega) hF
    have hexp : (((max e 1 : Nat) : Int) + (1 - 2 ^ (11 - 1) - ((52 : Nat) : Int))) = (max e 1 : Nat) - 1075 := by norm_num; ring
    rw [hexp] at hv
    rw [fltOf_fin hv]
    refine ⟨?_, fun _ k => (by cases k), fun k => (by cases k), ?_⟩
    · have := Nat.min_le_right (roundBits 23 (-149) (if e = 0 then f else 2 ^ 52 + f) ((max e 1 : Nat) - 1075)) (255 * 2 ^ 23)
      norm_num at this hS ⊢
      omega
    · intro q hq hle
      injection hq with hq
      have hab : |q| = ((if e = 0 then f else 2 ^ 52 + f : Nat) : ℚ) * 2 ^ (((max e 1 : Nat) : Int) - 1075) := by
        rw [← hq, mul_assoc, abs_mul, abs_of_nonneg (a := _ * _) (by positivity)]
        split_ifs <;> simp
      rw [hab] at hle
      have hb := round_small hle
      rw [Nat.min_eq_left hb.le]
      obtain ⟨r, r1, r2, _⟩ := round_value (p := 23) (E := 8) (s := S) (tmin := -149) (by norm_num) (by norm_num) (by norm_num) hS hb
      refine ⟨r, fltOf_fin r1, ?_⟩
      rw [← hq]
      intro z v hz
      obtain ⟨k1, k2⟩ := r2 z v hz
      refine ⟨k1, fun k => (k2 k).imp id fun k => ?_⟩
      rw [Nat.add_mod, k, show (23 + 8 : Nat) = 30 + 1 from rfl, pow_succ, ← mul_assoc, Nat.mul_mod_left]

end Fptu.Real
