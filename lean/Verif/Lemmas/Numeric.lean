import Verif.Model.Numeric
import Mathlib.Tactic.FieldSimp
import Mathlib.Tactic.Ring
import Mathlib.Tactic.Linarith
import Mathlib.Algebra.Order.Floor.Ring
/-!
# Lemmas about numbers stored in fields
-/
namespace Fptu.Num
open Fptu Fptu.Gear Fptu.Rw

theorem natCells_length (n x : Nat) : (natCells n x).length = n := by
  induction n generalizing x with
  | zero => rfl
  | succ n ih => rw [natCells, List.length_cons, ih]

theorem natCells_ok (n x : Nat) : (natCells n x).all Cell.ok = true := by
  induction n generalizing x with
  | zero => rfl
  | succ n ih =>
    rw [natCells, List.all_cons, ih, Bool.and_true]
    unfold Cell.ok
    simp only [Bool.and_eq_true, decide_eq_true_eq]
    omega

theorem leNat_cell (c : Cell) (h : Cell.ok c = true) (bs : List Nat) :
    leNat (cellBytes c ++ bs) = c.lo + 65536 * c.hi + 4294967296 * leNat bs := by
  unfold Cell.ok at h
  simp only [Bool.and_eq_true, decide_eq_true_eq] at h
  show c.lo % 256 + 256 * (c.lo / 256 + 256 * (c.hi % 256 + 256 * (c.hi / 256 + 256 * leNat bs))) = _
  omega

theorem leNat_natCells (n x : Nat) : leNat ((natCells n x).flatMap cellBytes) = x % 2 ^ (32 * n) := by
  induction n generalizing x with
  | zero => show 0 = x % 1; omega
  | succ n ih =>
    have hok := natCells_ok (n + 1) x
    rw [natCells, List.all_cons, Bool.and_eq_true] at hok
    rw [natCells, List.flatMap_cons, leNat_cell _ hok.1, ih]
    have e : 2 ^ (32 * (n + 1)) = 4294967296 * 2 ^ (32 * n) := by
      rw [Nat.mul_add, Nat.pow_add]; ring
    rw [e, Nat.mod_mul]
    show x % 65536 + 65536 * (x / 65536 % 65536) + 4294967296 * (x / 4294967296 % 2 ^ (32 * n)) = _
    omega

theorem pattern_lt (w : Nat) (n : Int) : pattern w n < 2 ^ w := by
  have h1 : (0 : Int) < 2 ^ w := by positivity
  have h2 := Int.emod_nonneg n (ne_of_gt h1)
  have h3 := Int.emod_lt_of_pos n h1
  unfold pattern
  rw [Int.toNat_lt h2]
  push_cast
  exact h3

theorem pattern_cast (w : Nat) (n : Int) : (pattern w n : Int) = n % 2 ^ w := by
  have h1 : (0 : Int) < 2 ^ w := by positivity
  unfold pattern
  exact Int.toNat_of_nonneg (Int.emod_nonneg n (ne_of_gt h1))

/-- The genera with an integer type. -/
def isInt (g : Genus) : Bool := signedInt g || unsignedInt g

theorem int_cases {g : Genus} (h : isInt g = true) :
    g = .i8 ∨ g = .u8 ∨ g = .i16 ∨ g = .u16 ∨ g = .i32 ∨ g = .u32 ∨ g = .i64 ∨ g = .u64 := by
  revert h; cases g <;> decide

/-- The numbers of the C++ type of the genus. -/
def inRange (g : Genus) (n : Int) : Prop :=
  if signedInt g then -2 ^ (width g - 1) ≤ n ∧ n < 2 ^ (width g - 1) else 0 ≤ n ∧ n < 2 ^ width g

instance (g : Genus) (n : Int) : Decidable (inRange g n) := by unfold inRange; infer_instance

theorem width_int {g : Genus} (h : isInt g = true) : width g = 8 ∨ width g = 16 ∨ width g = 32 ∨ width g = 64 := by
  rcases int_cases h with rfl | rfl | rfl | rfl | rfl | rfl | rfl | rfl <;> decide

theorem signExtend_pattern {w : Nat} (hw : w = 8 ∨ w = 16 ∨ w = 32 ∨ w = 64 ∨ w = 128) {n : Int} (h1 : -2 ^ (w - 1) ≤ n)
    (h2 : n < 2 ^ (w - 1)) : signExtend w (pattern w n) = n := by
  unfold signExtend
  have e := pattern_cast w n
  rcases hw with rfl | rfl | rfl | rfl | rfl <;> norm_num at h1 h2 e ⊢ <;> split_ifs with c <;> omega

theorem signExtend_range {w : Nat} (hw : w = 8 ∨ w = 16 ∨ w = 32 ∨ w = 64 ∨ w = 128) {x : Nat} (h : x < 2 ^ w) :
    -2 ^ (w - 1) ≤ signExtend w x ∧ signExtend w x < 2 ^ (w - 1) := by
  unfold signExtend
  rcases hw with rfl | rfl | rfl | rfl | rfl <;> norm_num at h ⊢ <;> split_ifs with c <;> omega

theorem pattern_nonneg {w : Nat} {n : Int} (h1 : 0 ≤ n) (h2 : n < 2 ^ w) : (pattern w n : Int) = n := by
  rw [pattern_cast, Int.emod_eq_of_lt h1 h2]

theorem width_or {w : Nat} (h : w = 8 ∨ w = 16 ∨ w = 32 ∨ w = 64) : w = 8 ∨ w = 16 ∨ w = 32 ∨ w = 64 ∨ w = 128 := by omega

theorem castInt_eq {g : Genus} (hg : isInt g = true) {n : Int} (h : inRange g n) : castInt g n = n := by
  unfold inRange at h
  unfold castInt
  by_cases c : signedInt g = true
  · rw [if_pos c] at h ⊢
    exact signExtend_pattern (width_or (width_int hg)) h.1 h.2
  · rw [if_neg c] at h ⊢
    exact pattern_nonneg h.1 h.2

theorem castInt_range {g : Genus} (hg : isInt g = true) (n : Int) : inRange g (castInt g n) := by
  unfold inRange castInt
  by_cases c : signedInt g = true
  · rw [if_pos c, if_pos c]
    exact signExtend_range (width_or (width_int hg)) (pattern_lt _ _)
  · rw [if_neg c, if_neg c]
    exact ⟨Int.natCast_nonneg _, by exact_mod_cast pattern_lt (width g) n⟩

theorem castInt_iff {g : Genus} (hg : isInt g = true) (n : Int) : castInt g n = n ↔ inRange g n :=
  ⟨fun h => h ▸ castInt_range hg n, castInt_eq hg⟩

/-- Objects with a bit pattern. -/
theorem bitsVal_fits {g : Genus} (hg : isInt g = true ∨ g = .f32 ∨ g = .f64) {x : Nat} (hx : x < 2 ^ width g) :
    (bitsVal g x).fits g = true := by
  have hg' : g = .i8 ∨ g = .u8 ∨ g = .i16 ∨ g = .u16 ∨ g = .i32 ∨ g = .u32 ∨ g = .i64 ∨ g = .u64 ∨ g = .f32 ∨ g = .f64 := by
    rcases hg with h | h
    · have := int_cases h; tauto
    · tauto
  unfold bitsVal
  by_cases c : g.isInplaced = true
  · rw [if_pos c]
    show (g.isInplaced && decide (x < if is8 g then 256 else 65536)) = true
    rw [c, Bool.true_and, decide_eq_true_eq]
    rcases hg' with rfl | rfl | rfl | rfl | rfl | rfl | rfl | rfl | rfl | rfl <;>
      first | exact hx | (exfalso; revert c; decide)
  · rw [if_neg c]
    show (g.isFixed && !g.isInplaced && decide (g ≠ .hole) && decide ((natCells g.looseUnits x).length = g.looseUnits) &&
      (natCells g.looseUnits x).all Cell.ok) = true
    rw [natCells_ok, natCells_length]
    rcases hg' with rfl | rfl | rfl | rfl | rfl | rfl | rfl | rfl | rfl | rfl <;> first | rfl | (exfalso; revert c; decide)

theorem bitsVal_bytes {g : Genus} (hg : isInt g = true ∨ g = .f32 ∨ g = .f64) {x : Nat} (hx : x < 2 ^ width g) :
    leNat ((bitsVal g x).bytes g) = x := by
  have hg' : g = .i8 ∨ g = .u8 ∨ g = .i16 ∨ g = .u16 ∨ g = .i32 ∨ g = .u32 ∨ g = .i64 ∨ g = .u64 ∨ g = .f32 ∨ g = .f64 := by
    rcases hg with h | h
    · have := int_cases h; tauto
    · tauto
  unfold bitsVal
  rcases hg' with rfl | rfl | rfl | rfl | rfl | rfl | rfl | rfl | rfl | rfl
  · show x + 256 * 0 = x; omega
  · show x + 256 * 0 = x; omega
  · show x % 256 + 256 * (x / 256 + 256 * 0) = x; omega
  · show x % 256 + 256 * (x / 256 + 256 * 0) = x; omega
  all_goals
    rw [if_neg (by decide)]
    unfold Val.bytes
    rw [leNat_natCells]
    exact Nat.mod_eq_of_lt hx

theorem intVal_fits {g : Genus} (hg : isInt g = true) (n : Int) : (intVal g n).fits g = true :=
  bitsVal_fits (Or.inl hg) (pattern_lt _ _)

theorem intVal_bytes {g : Genus} (hg : isInt g = true) (n : Int) : leNat ((intVal g n).bytes g) = pattern (width g) n :=
  bitsVal_bytes (Or.inl hg) (pattern_lt _ _)

theorem intOf_intVal {g : Genus} (hg : isInt g = true) {n : Int} (h : inRange g n) : intOf g ((intVal g n).bytes g) = n := by
  unfold intOf
  rw [intVal_bytes hg]
  exact castInt_eq hg h

/-! ## IEEE 754 -/

theorem ieee_split {p E bias n : Nat} (hE : bias = 2 ^ (E - 1) - 1) (hp : p ≤ bias) (h2 : 2 ≤ E) (hn : n ≠ 0) (hlt : n < 2 ^ (p + 1)) :
    ∃ e f, e ≤ p ∧ e + bias < 2 ^ E - 1 ∧ 0 < e + bias ∧ f < 2 ^ p ∧ ieeeOfNat p bias n = (e + bias) * 2 ^ p + f ∧
      2 ^ p + f = n * 2 ^ (p - e) := by
  have hlog : Nat.log2 n ≤ p := by
    have := (Nat.log2_lt hn).2 hlt
    omega
  have hlo : 2 ^ Nat.log2 n ≤ n := Nat.log2_self_le hn
  have hhi : n < 2 ^ (Nat.log2 n + 1) := Nat.lt_log2_self
  have hm1 : 2 ^ p ≤ n * 2 ^ (p - Nat.log2 n) := by
    calc 2 ^ p = 2 ^ Nat.log2 n * 2 ^ (p - Nat.log2 n) := by rw [← Nat.pow_add]; congr 1; omega
      _ ≤ _ := Nat.mul_le_mul_right _ hlo
  have hm2 : n * 2 ^ (p - Nat.log2 n) < 2 ^ p * 2 := by
    calc n * 2 ^ (p - Nat.log2 n) < 2 ^ (Nat.log2 n + 1) * 2 ^ (p - Nat.log2 n) := Nat.mul_lt_mul_of_pos_right hhi (by positivity)
      _ = 2 ^ p * 2 := by rw [← Nat.pow_add, ← Nat.pow_succ]; congr 1; omega
  have hbp : 1 ≤ bias := by
    have : 2 ^ 1 ≤ 2 ^ (E - 1) := Nat.pow_le_pow_right (by omega) (by omega)
    omega
  have hEE : 2 ^ E = 2 * 2 ^ (E - 1) := by rw [← Nat.pow_succ']; congr 1; omega
  refine ⟨Nat.log2 n, n * 2 ^ (p - Nat.log2 n) - 2 ^ p, hlog, by omega, by omega, by omega, ?_, by omega⟩
  unfold ieeeOfNat
  rw [if_neg hn]
  simp only
  rw [if_pos hlog]
  have e1 : (Nat.log2 n + bias) * 2 ^ p = (Nat.log2 n + bias - 1) * 2 ^ p + 2 ^ p := by
    have : Nat.log2 n + bias = (Nat.log2 n + bias - 1) + 1 := by omega
    conv_lhs => rw [this, Nat.add_mul, Nat.one_mul]
  omega

theorem ieee_parts {p E e f s : Nat} (he : e < 2 ^ E) (hf : f < 2 ^ p) :
    (s * 2 ^ (p + E) + (e * 2 ^ p + f)) / 2 ^ (p + E) % 2 = s % 2 ∧ (s * 2 ^ (p + E) + (e * 2 ^ p + f)) / 2 ^ p % 2 ^ E = e ∧
    (s * 2 ^ (p + E) + (e * 2 ^ p + f)) % 2 ^ p = f := by
  have hsmall : e * 2 ^ p + f < 2 ^ (p + E) := by
    have : (e + 1) * 2 ^ p ≤ 2 ^ E * 2 ^ p := Nat.mul_le_mul_right _ he
    rw [Nat.pow_add, Nat.mul_comm (2 ^ p)]
    rw [Nat.add_mul, Nat.one_mul] at this
    omega
  refine ⟨?_, ?_, ?_⟩
  · rw [Nat.mul_comm, Nat.mul_add_div (by positivity), Nat.div_eq_of_lt hsmall, Nat.add_zero]
  · have : s * 2 ^ (p + E) + (e * 2 ^ p + f) = 2 ^ p * (s * 2 ^ E + e) + f := by rw [Nat.pow_add]; ring
    rw [this, Nat.mul_add_div (by positivity), Nat.div_eq_of_lt hf, Nat.add_zero, Nat.add_comm, Nat.mul_comm, Nat.add_mul_mod_self_left,
      Nat.mod_eq_of_lt he]
  · have : s * 2 ^ (p + E) + (e * 2 ^ p + f) = f + 2 ^ p * (s * 2 ^ E + e) := by rw [Nat.pow_add]; ring
    rw [this, Nat.add_mul_mod_self_left, Nat.mod_eq_of_lt hf]

theorem ieee_value {p E e f s : Nat} (he : e < 2 ^ E - 1) (he0 : 0 < e) (hf : f < 2 ^ p) :
    ieeeValue p E (s * 2 ^ (p + E) + (e * 2 ^ p + f)) =
      some ((if s % 2 = 1 then -1 else 1) * ((2 ^ p + f : Nat) : Rat) * 2 ^ ((e : Int) - (2 ^ (E - 1) - 1) - (p : Int))) := by
  obtain ⟨h1, h2, h3⟩ := ieee_parts (s := s) (show e < 2 ^ E by omega) hf
  unfold ieeeValue
  simp only
  rw [h1, h2, h3, if_neg (by omega), if_neg (by omega)]

/-- Conversion of an integer of at most `p + 1` significant bits is exact. -/
theorem ieee_exact {p E bias w : Nat} (hE : bias = 2 ^ (E - 1) - 1) (hp : p ≤ bias) (h2 : 2 ≤ E) (hw : w = p + E + 1) {n : Int}
    (hlo : -2 ^ (p + 1) < n) (hhi : n < 2 ^ (p + 1)) :
    ieeeValue p E (ieeeOfInt p bias w n) = some (n : Rat) ∧ ieeeOfInt p bias w n < 2 ^ w := by
  have hpos : 0 < 2 ^ p := by positivity
  have hbp : 1 ≤ bias := by
    have : 2 ^ 1 ≤ 2 ^ (E - 1) := Nat.pow_le_pow_right (by omega) (by omega)
    omega
  by_cases hn : n = 0
  · subst hn
    have e : ieeeOfInt p bias w 0 = 0 := rfl
    rw [e]
    refine ⟨?_, by positivity⟩
    unfold ieeeValue
    simp only [Nat.zero_div, Nat.zero_mod]
    have : 2 ^ 2 ≤ 2 ^ E := Nat.pow_le_pow_right (by omega) h2
    rw [if_neg (by omega), if_pos trivial]
    simp
  · have hna : n.natAbs ≠ 0 := by omega
    have hlt : n.natAbs < 2 ^ (p + 1) := by
      have e : ((2 ^ (p + 1) : Nat) : Int) = (2 : Int) ^ (p + 1) := by push_cast; rfl
      rw [← e] at hlo hhi
      omega
    obtain ⟨e, f, k1, k2, k3, k4, k5, k6⟩ := ieee_split hE hp h2 hna hlt
    have hbias : (bias : Int) = 2 ^ (E - 1) - 1 := by
      rw [hE]
      have : 1 ≤ 2 ^ (E - 1) := Nat.one_le_two_pow
      push_cast [Nat.cast_sub this]
      rfl
    have hexp : ((e + bias : Nat) : Int) - (2 ^ (E - 1) - 1) - (p : Int) = -((p - e : Nat) : Int) := by
      rw [← hbias]
      omega
    have hval : ∀ sg : Rat, sg * ((2 ^ p + f : Nat) : Rat) * 2 ^ (((e + bias : Nat) : Int) - (2 ^ (E - 1) - 1) - (p : Int)) =
        sg * (n.natAbs : Rat) := by
      intro sg
      rw [hexp, k6, zpow_neg, zpow_natCast]
      push_cast
      field_simp
    have hsmall : (e + bias) * 2 ^ p + f < 2 ^ (p + E) := by
      have : (e + bias + 1) * 2 ^ p ≤ 2 ^ E * 2 ^ p := Nat.mul_le_mul_right _ (by omega)
      rw [Nat.pow_add, Nat.mul_comm (2 ^ p)]
      rw [Nat.add_mul, Nat.one_mul] at this
      omega
    have hpw : 2 ^ w = 2 * 2 ^ (p + E) := by rw [hw, Nat.pow_succ, Nat.mul_comm]
    have hw1 : w - 1 = p + E := by omega
    unfold ieeeOfInt
    by_cases c : n < 0
    · rw [if_pos c, hw1, k5]
      have hv := ieee_value (s := 1) k2 k3 k4
      rw [Nat.one_mul] at hv
      rw [hv, if_pos rfl, hval]
      refine ⟨?_, by omega⟩
      have : (n : Rat) = -((n.natAbs : Nat) : Rat) := by
        have : n = -(n.natAbs : Int) := by omega
        conv_lhs => rw [this]
        rw [Int.cast_neg, Int.cast_natCast]
      rw [this]; ring_nf
    · rw [if_neg c, k5]
      have hv := ieee_value (s := 0) k2 k3 k4
      rw [Nat.zero_mul, Nat.zero_add] at hv
      rw [hv, if_neg (by decide), hval]
      refine ⟨?_, by omega⟩
      have : (n : Rat) = ((n.natAbs : Nat) : Rat) := by
        have : n = (n.natAbs : Int) := by omega
        conv_lhs => rw [this]
        rw [Int.cast_natCast]
      rw [this]; ring_nf

theorem f64_exact {n : Int} (h1 : -2 ^ 53 < n) (h2 : n < 2 ^ 53) :
    ieeeValue 52 11 (ieeeOfInt 52 1023 64 n) = some (n : Rat) ∧ ieeeOfInt 52 1023 64 n < 2 ^ 64 :=
  ieee_exact (by norm_num) (by norm_num) (by norm_num) rfl h1 h2

theorem f32_exact {n : Int} (h1 : -2 ^ 24 < n) (h2 : n < 2 ^ 24) :
    ieeeValue 23 8 (ieeeOfInt 23 127 32 n) = some (n : Rat) ∧ ieeeOfInt 23 127 32 n < 2 ^ 32 :=
  ieee_exact (by norm_num) (by norm_num) (by norm_num) rfl h1 h2

end Fptu.Num
