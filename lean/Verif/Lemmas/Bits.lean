/-! Helper lemmas relating bitwise operations on `Nat` to division and remainder. -/
namespace Fptu.Bits

theorem lor_split (i x y : Nat) :
    x ||| y = 2 ^ i * (x / 2 ^ i ||| y / 2 ^ i) + (x % 2 ^ i ||| y % 2 ^ i) := by
  rw [← Nat.or_div_two_pow, ← Nat.or_mod_two_pow]
  exact (Nat.div_add_mod _ _).symm

theorem land_split (i x y : Nat) :
    x &&& y = 2 ^ i * (x / 2 ^ i &&& y / 2 ^ i) + (x % 2 ^ i &&& y % 2 ^ i) := by
  rw [← Nat.and_div_two_pow, ← Nat.and_mod_two_pow]
  exact (Nat.div_add_mod _ _).symm

theorem lxor_split (i x y : Nat) :
    x ^^^ y = 2 ^ i * (x / 2 ^ i ^^^ y / 2 ^ i) + (x % 2 ^ i ^^^ y % 2 ^ i) := by
  rw [← Nat.xor_div_two_pow, ← Nat.xor_mod_two_pow]
  exact (Nat.div_add_mod _ _).symm

theorem or_one (q : Nat) : q ||| 1 = 2 * (q / 2) + 1 := by
  have h := lor_split 1 q 1
  have h2 : q % 2 = 0 ∨ q % 2 = 1 := by omega
  rcases h2 with h2 | h2 <;> simp [h2] at h <;> exact h

theorem or_pow (x k : Nat) : x ||| 2 ^ k = 2 ^ k * (2 * (x / 2 ^ k / 2) + 1) + x % 2 ^ k := by
  have h := lor_split k x (2 ^ k)
  have hp : 0 < 2 ^ k := Nat.two_pow_pos k
  rw [Nat.div_self hp, Nat.mod_self, Nat.or_zero, or_one] at h
  exact h

theorem and_one (q : Nat) : q &&& 1 = q % 2 := by
  simp

theorem and_pow (x k : Nat) : x &&& 2 ^ k = 2 ^ k * (x / 2 ^ k % 2) := by
  have h := land_split k x (2 ^ k)
  have hp : 0 < 2 ^ k := Nat.two_pow_pos k
  rw [Nat.div_self hp, Nat.mod_self, Nat.and_zero, and_one] at h
  simpa using h

theorem and_low (x k : Nat) : x &&& (2 ^ k - 1) = x % 2 ^ k := Nat.and_two_pow_sub_one_eq_mod x k

/-- Mask of `k` bits starting at bit `s`. -/
theorem and_field (x s k : Nat) :
    x &&& (2 ^ s * (2 ^ k - 1)) = 2 ^ s * (x / 2 ^ s % 2 ^ k) := by
  have h := land_split s x (2 ^ s * (2 ^ k - 1))
  have hp : 0 < 2 ^ s := Nat.two_pow_pos s
  rw [Nat.mul_div_cancel_left _ hp, Nat.mul_mod_right, Nat.and_zero, and_low] at h
  simpa using h

end Fptu.Bits
