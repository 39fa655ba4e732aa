import Verif.Model.Tags
import Verif.Lemmas.Bits
/-! Arithmetic characterisation of the tag accessors. -/
namespace Fptu
open Bits

theorem Genus.code_lt (g : Genus) : g.code < 32 := by cases g <;> decide
theorem Genus.ofCode_code (g : Genus) : Genus.ofCode g.code = g := by cases g <;> rfl
theorem Genus.code_ofCode (n : Nat) (h : n < 32) : (Genus.ofCode n).code = n := by
  have : ∀ m : Fin 32, (Genus.ofCode m).code = m := by decide
  exact this ⟨n, h⟩

theorem looseThreshold_eq : looseThreshold = 4294443008 := by decide
theorem collectionThreshold_eq : collectionThreshold = 4294705152 := by decide
theorem isPreplaced_true {a : Nat} : isPreplaced a = true ↔ a < 4294443008 := by
  simp only [isPreplaced, looseThreshold_eq, decide_eq_true_eq]
theorem isPreplaced_false {a : Nat} : isPreplaced a = false ↔ 4294443008 ≤ a := by
  simp only [isPreplaced, looseThreshold_eq, decide_eq_false_iff_not, Nat.not_lt]
theorem isLoose_true {a : Nat} : isLoose a = true ↔ 4294443008 ≤ a := by
  simp only [isLoose, looseThreshold_eq, decide_eq_true_eq, ge_iff_le]
theorem isLoose_false {a : Nat} : isLoose a = false ↔ a < 4294443008 := by
  simp only [isLoose, looseThreshold_eq, decide_eq_false_iff_not, ge_iff_le, Nat.not_le]
theorem isLooseCollection_eq (a : Nat) : isLooseCollection a = decide (4294705152 ≤ a) := by
  simp only [isLooseCollection, collectionThreshold_eq, ge_iff_le]

theorem isFixedSize_iff (tag : Nat) : tagIsFixedSize tag = decide (tag / 8192 % 8 ≠ 0) := by
  have h := and_field tag 13 3
  simp only [tagIsFixedSize]
  have e : (0xE000 : Nat) = 2 ^ 13 * (2 ^ 3 - 1) := by decide
  rw [e, h]
  by_cases hh : tag / 8192 % 8 = 0
  · simp [hh]
  · simp [hh]; omega

theorem isSaturated_iff (tag : Nat) : isSaturated tag = decide (tag / 2 ^ 17 % 2 = 1) := by
  have h := and_pow tag 17
  simp only [isSaturated, saturationFlag, h]
  by_cases hh : tag / 2 ^ 17 % 2 = 1
  · simp [hh]
  · have h0 : tag / 2 ^ 17 % 2 = 0 := by omega
    rw [h0]; decide

theorem isDiscernible_iff (tag : Nat) : isDiscernible tag = decide (tag / 2 ^ 16 % 2 = 1) := by
  have h := and_pow tag 16
  simp only [isDiscernible, discernibleFlag, h]
  by_cases hh : tag / 2 ^ 16 % 2 = 1
  · simp [hh]
  · have h0 : tag / 2 ^ 16 % 2 = 0 := by omega
    rw [h0]; decide

theorem tag2id_eq (tag : Nat) : tag2id tag = tag % 2048 := and_low tag 11
theorem tag2indysize_eq (tag : Nat) : tag2indysize tag = tag % 2048 := and_low tag 11
theorem tag2offset_eq (tag : Nat) : tag2offset tag = tag / 262144 := Nat.shiftRight_eq_div_pow tag 18
theorem tag2genusCode_eq (tag : Nat) : tag2genusCode tag = tag % 65536 / 2048 :=
  Nat.shiftRight_eq_div_pow _ 11

theorem or3_eq : discernibleFlag ||| saturationFlag = 3 * 2 ^ 16 := by decide
theorem or7_eq : discernibleFlag ||| saturationFlag ||| collectionFlag = 7 * 2 ^ 16 := by decide

theorem or_three (q : Nat) : q ||| 3 = 4 * (q / 4) + 3 := by
  have h := lor_split 2 q 3
  have h2 : q % 4 = 0 ∨ q % 4 = 1 ∨ q % 4 = 2 ∨ q % 4 = 3 := by omega
  rcases h2 with h2 | h2 | h2 | h2 <;> simp [h2] at h <;> exact h

theorem or_seven (q : Nat) : q ||| 7 = 8 * (q / 8) + 7 := by
  have h := lor_split 3 q 7
  have h2 : q % 8 < 8 := by omega
  have h3 : ∀ m : Fin 8, (m : Nat) ||| 7 = 7 := by decide
  have h4 := h3 ⟨q % 8, h2⟩
  simp only [] at h4
  simp [h4] at h
  exact h

/-- Arithmetic form of `normalize_tag`: the two (three) flag bits are set, nothing else moves. -/
theorem normalize_preplaced (tag : Nat) (h : isPreplaced tag = true) :
    normalizeTag tag = 262144 * (tag / 262144) + 196608 + tag % 65536 := by
  simp only [normalizeTag, h, if_true, or3_eq]
  rw [lor_split 16, Nat.mul_div_cancel _ (by decide), Nat.mul_mod_left, Nat.or_zero, or_three]
  omega

theorem normalize_loose (tag : Nat) (h : isPreplaced tag = false) :
    normalizeTag tag = 524288 * (tag / 524288) + 458752 + tag % 65536 := by
  simp only [normalizeTag, h, or7_eq]
  rw [if_neg (by simp), lor_split 16, Nat.mul_div_cancel _ (by decide), Nat.mul_mod_left, Nat.or_zero,
    or_seven]
  omega

theorem enforceDiscernible_eq (tag : Nat) (v : Bool) (h : tag < 2 ^ 32) :
    enforceDiscernible tag v
      = 131072 * (tag / 131072) + (if v then 65536 else 0) + tag % 65536 := by
  cases v
  · have e1 : (2 ^ 32 - 1 - discernibleFlag : Nat) = 4294901759 := by decide
    simp only [enforceDiscernible, e1]
    rw [if_neg (by simp), land_split 16]
    have hx : tag % 2 ^ 16 &&& 4294901759 % 2 ^ 16 = tag % 2 ^ 16 := by
      have := and_low (tag % 2 ^ 16) 16
      rw [show 4294901759 % 2 ^ 16 = 2 ^ 16 - 1 by decide, this]; omega
    rw [hx, show 4294901759 / 2 ^ 16 = 2 ^ 1 * (2 ^ 15 - 1) by decide, and_field]
    simp; omega
  · simp only [enforceDiscernible, discernibleFlag, if_true]
    rw [or_pow]; omega

theorem enforceSaturation_eq (tag : Nat) (v : Bool) (h : tag < 2 ^ 32) :
    enforceSaturation tag v
      = 262144 * (tag / 262144) + (if v then 131072 else 0) + tag % 131072 := by
  cases v
  · have e1 : (2 ^ 32 - 1 - saturationFlag : Nat) = 4294836223 := by decide
    simp only [enforceSaturation, e1]
    rw [if_neg (by simp), land_split 17]
    have hx : tag % 2 ^ 17 &&& 4294836223 % 2 ^ 17 = tag % 2 ^ 17 := by
      have := and_low (tag % 2 ^ 17) 17
      rw [show 4294836223 % 2 ^ 17 = 2 ^ 17 - 1 by decide, this]; omega
    rw [hx, show 4294836223 / 2 ^ 17 = 2 ^ 1 * (2 ^ 14 - 1) by decide, and_field]
    simp; omega
  · simp only [enforceSaturation, saturationFlag, if_true]
    rw [or_pow]; omega

end Fptu
