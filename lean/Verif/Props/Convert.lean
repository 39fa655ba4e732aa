import Verif.Props.Numeric
/-!
# C39: conversions of the type table that are not between integers
-/
namespace Fptu.Props
open Fptu.Num Fptu.Rw Fptu

theorem fields_of {S E F : Nat} (hS : S < 2) (hE : E < 2 ^ 11) (hF : F < 2 ^ 52) :
    S * 2 ^ 63 + E * 2 ^ 52 + F < 2 ^ 64 ∧ (S * 2 ^ 63 + E * 2 ^ 52 + F) / 2 ^ (52 + 11) % 2 = S ∧
      (S * 2 ^ 63 + E * 2 ^ 52 + F) / 2 ^ 52 % 2 ^ 11 = E ∧ (S * 2 ^ 63 + E * 2 ^ 52 + F) % 2 ^ 52 = F := by
  norm_num at *
  omega

/-- A number with at most 53 significant bits whose leading bit is a normal exponent is a double. -/
theorem double_of {m : Nat} {e : Int} (s : Bool) (h1 : 2 ^ 52 ≤ m) (h2 : m < 2 ^ 53) (he1 : -1074 ≤ e) (he2 : e ≤ 971) :
    ∃ y, y < 2 ^ 64 ∧ ieeeValue 52 11 y = some ((if s then -1 else 1) * (m : ℚ) * 2 ^ e) := by
  obtain ⟨E, hE⟩ : ∃ E : Nat, e = E - 1075 := ⟨(e + 1075).toNat, by omega⟩
  refine ⟨(if s then 1 else 0) * 2 ^ 63 + E * 2 ^ 52 + (m - 2 ^ 52), ?_, ?_⟩
  · exact (fields_of (S := if s then 1 else 0) (E := E) (F := m - 2 ^ 52) (by cases s <;> decide) (by omega) (by omega)).1
  · obtain ⟨a0, a1, a2, a3⟩ := fields_of (S := if s then 1 else 0) (E := E) (F := m - 2 ^ 52) (by cases s <;> decide) (by omega) (by omega)
    unfold ieeeValue
    dsimp only
    rw [a1, a2, a3, if_neg (by omega), if_neg (by omega), show 2 ^ 52 + (m - 2 ^ 52) = m by omega]
    rw [show (E : Int) - (2 ^ (11 - 1) - 1) - ((52 : Nat) : Int) = e by rw [hE]; norm_num; ring]
    cases s <;> rfl

/-- **C39.** Every number of `f32` is a number of `f64`, as the table says. -/
theorem C39_float (x : Nat) (q : ℚ) (hq : ieeeValue 23 8 x = some q) :
    isConvertible .f32 .f64 = true ∧ ∃ y, y < 2 ^ 64 ∧ ieeeValue 52 11 y = some q := by
  refine ⟨by decide, ?_⟩
  unfold ieeeValue at hq
  dsimp only at hq
  have key : ∀ (sg : Bool) (m : Nat) (e : Int), 0 < m → m < 2 ^ 24 → -149 ≤ e → e ≤ 104 →
      ∃ y, y < 2 ^ 64 ∧ ieeeValue 52 11 y = some ((if sg then -1 else 1) * (m : ℚ) * 2 ^ e) := by
    intro sg m e h0 h24 e1 e2
    have l1 := Nat.log2_self_le (n := m) (by omega)
    have l2 := Nat.lt_log2_self (n := m)
    have l3 : Nat.log2 m < 24 := (Nat.log2_lt (by omega)).2 h24
    obtain ⟨k, hk⟩ : ∃ k, k = 52 - Nat.log2 m := ⟨_, rfl⟩
    have p1 : 2 ^ Nat.log2 m * 2 ^ k = 2 ^ 52 := by rw [← pow_add]; congr 1; omega
    have p2 : 2 ^ (Nat.log2 m + 1) * 2 ^ k = 2 ^ 53 := by rw [← pow_add]; congr 1; omega
    have b1 : 2 ^ 52 ≤ m * 2 ^ k := by rw [← p1]; exact Nat.mul_le_mul_right _ l1
    have b2 : m * 2 ^ k < 2 ^ 53 := by rw [← p2]; exact Nat.mul_lt_mul_of_pos_right l2 (by positivity)
    obtain ⟨y, y1, y2⟩ := double_of (e := e - k) sg b1 b2 (by omega) (by omega)
    refine ⟨y, y1, ?_⟩
    rw [y2]
    congr 1
    push_cast
    rw [zpow_sub₀ (by norm_num), zpow_natCast]
    field_simp
  have hs : ∀ b, (if b % 2 = 1 then (-1 : ℚ) else 1) = if decide (b % 2 = 1) = true then -1 else 1 := fun b => by simp only [decide_eq_true_eq]
  have hE : x / 2 ^ 23 % 2 ^ 8 < 2 ^ 8 := Nat.mod_lt _ (by norm_num)
  have hF : x % 2 ^ 23 < 2 ^ 23 := Nat.mod_lt _ (by norm_num)
  rw [hs] at hq
  generalize decide (x / 2 ^ (23 + 8) % 2 = 1) = sg at *
  generalize x / 2 ^ 23 % 2 ^ 8 = E at *
  generalize x % 2 ^ 23 = F at *
  by_cases c1 : E = 2 ^ 8 - 1
  · rw [if_pos c1] at hq; exact absurd hq (by simp)
  rw [if_neg c1] at hq
  by_cases c2 : E = 0
  · rw [if_pos c2] at hq
    rcases Nat.eq_zero_or_pos F with z | z
    · refine ⟨0, by norm_num, ?_⟩
      rw [← hq, z]
      unfold ieeeValue
      norm_num
    · obtain ⟨y, y1, y2⟩ := key sg F (-149) z (by omega) (by norm_num) (by norm_num)
      refine ⟨y, y1, ?_⟩
      rw [y2, ← hq]
      norm_num
  · rw [if_neg c2] at hq
    obtain ⟨y, y1, y2⟩ := key sg (2 ^ 23 + F) ((E : Int) - 150) (by omega) (by omega) (by omega) (by omega)
    refine ⟨y, y1, ?_⟩
    rw [y2, ← hq, show (E : Int) - (2 ^ (8 - 1) - 1) - ((23 : Nat) : Int) = (E : Int) - 150 by norm_num; omega]

/-- The smallest number of `f32`. -/
example : ieeeValue 23 8 1 = some (2 ^ (-149 : Int)) ∧ ieeeValue 52 11 0x36a0000000000000 = some (2 ^ (-149 : Int)) := by
  constructor
  · unfold ieeeValue; norm_num
  · unfold ieeeValue; norm_num

/-- **C39.** Apart from a type with itself, the table has only the conversions from integers to numbers, from `f32` to `f64`, among the two times, and from an address to a network. -/
theorem C39_complete (src dst : Genus) (h : isConvertible src dst = true) :
    src = dst ∨ (isInt src = true ∧ numeric dst = true) ∨ (src = .f32 ∧ dst = .f64) ∨ (src = .t32 ∧ dst = .t64) ∨ (src = .t64 ∧ dst = .t32) ∨
      (src = .ip ∧ dst = .ipnet) := by
  revert h
  cases src <;> cases dst <;> decide +kernel

/-- **C39, refuted part.** The table lets times with fractions pass for times in whole seconds: whatever the conversion, different times become the same. -/
theorem C39_time_refuted (f : Nat → Nat) (hf : ∀ x < 2 ^ (8 * Genus.t64.preplacedBytes), f x < 2 ^ (8 * Genus.t32.preplacedBytes)) :
    isConvertible .t64 .t32 = true ∧
      ∃ x y, x < 2 ^ (8 * Genus.t64.preplacedBytes) ∧ y < 2 ^ (8 * Genus.t64.preplacedBytes) ∧ x ≠ y ∧ f x = f y := by
  refine ⟨by decide, ?_⟩
  by_contra c
  push_neg at c
  have inj : ∀ x y, x < 2 ^ 32 + 1 → y < 2 ^ 32 + 1 → f x = f y → x = y := by
    intro x y hx hy he
    by_contra k
    exact c x y (lt_of_lt_of_le hx (by decide)) (lt_of_lt_of_le hy (by decide)) k he
  have hle : ∀ x < 2 ^ 32 + 1, f x < 2 ^ 32 := fun x hx => hf x (lt_of_lt_of_le hx (by decide))
  let g : Fin (2 ^ 32 + 1) → Fin (2 ^ 32) := fun x => ⟨f x.1, hle x.1 x.2⟩
  have gi : Function.Injective g := fun x y h => Fin.ext (inj _ _ x.2 y.2 (congrArg Fin.val h))
  have := Fintype.card_le_of_injective g gi
  rw [Fintype.card_fin, Fintype.card_fin] at this
  omega

end Fptu.Props
