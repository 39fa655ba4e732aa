import Verif.Lemmas.D2a
import Verif.Props.Arith
import Verif.Model.Numeric
/-!
# Accuracy of the digits generated by `erthink_d2a.h`
-/
namespace Fptu.D2a
open Fptu.Arith

/-- The number of the digits lies strictly between the bounds `f - h` and `f + h`, everything scaled by `X`. -/
theorem core {f h c hi lo delta lsb top : Nat} {X R : ℚ} (hp : hi * 2 ^ 64 + lo = f * c) (hl1 : lsb * 2 ^ 63 ≤ lo)
    (hl2 : lo < (lsb + 1) * 2 ^ 63) (hd : delta * 2 ^ 64 ≤ c * (2 * h)) (ht1 : 2 * top + 1 ≤ 2 * hi + delta + lsb)
    (ht2 : 2 * hi + delta + lsb ≤ 2 * top + 2) (hfh : f + h < 2 ^ 64) (hh : h ≤ f) (hX1 : (c : ℚ) ≤ X + 1 / 2) (hX2 : X ≤ c + 1 / 2)
    (hR1 : (top : ℚ) - delta + 2 ≤ R) (hR2 : R ≤ top) : (f - h) * X < R * 2 ^ 64 ∧ R * 2 ^ 64 < (f + h) * X := by
  have qp : (hi : ℚ) * 2 ^ 64 + lo = f * c := by exact_mod_cast hp
  have q1 : (lsb : ℚ) * 2 ^ 63 ≤ lo := by exact_mod_cast hl1
  have q2 : (lo : ℚ) < (lsb + 1) * 2 ^ 63 := by exact_mod_cast hl2
  have qd : (delta : ℚ) * 2 ^ 64 ≤ c * (2 * h) := by exact_mod_cast hd
  have qt1 : 2 * (top : ℚ) + 1 ≤ 2 * hi + delta + lsb := by exact_mod_cast ht1
  have qt2 : 2 * (hi : ℚ) + delta + lsb ≤ 2 * top + 2 := by exact_mod_cast ht2
  have qf : (f : ℚ) + h < 2 ^ 64 := by exact_mod_cast hfh
  have qh : (h : ℚ) ≤ f := by exact_mod_cast hh
  have q0 : (0 : ℚ) ≤ h := by exact_mod_cast Nat.zero_le h
  have m1 : ((f : ℚ) + h) * (c - 1 / 2) ≤ (f + h) * X := mul_le_mul_of_nonneg_left (by linarith) (by linarith)
  have m2 : ((f : ℚ) - h) * X ≤ (f - h) * (c + 1 / 2) := mul_le_mul_of_nonneg_left hX2 (by linarith)
  constructor <;> nlinarith

theorem digits_count {f h c delta top L : Nat} (hc : 2 ^ 63 ≤ c) (hd : c * (2 * h) < (delta + 1) * 2 ^ 64) (hd3 : 3 ≤ delta)
    (ht : top * 2 ^ 64 ≤ (f + h) * c) (hw : f + h + 6 * 10 ^ 16 ≤ 10 ^ 16 * (2 * h)) (hL : L ≤ 11 ∨ 10 ^ (L - 2) * (delta - 2) < top) :
    L ≤ 17 := by
  by_contra c18
  rcases hL with hL | hL
  · omega
  have h16 : 10 ^ 16 * (delta - 2) < top :=
    Nat.lt_of_le_of_lt (Nat.mul_le_mul_right _ (Nat.pow_le_pow_right (by norm_num) (by omega))) hL
  have a1 : (f + h + 6 * 10 ^ 16) * c ≤ 10 ^ 16 * (2 * h) * c := Nat.mul_le_mul_right _ hw
  have a2 : 10 ^ 16 * (c * (2 * h)) < 10 ^ 16 * ((delta + 1) * 2 ^ 64) := Nat.mul_lt_mul_of_pos_left hd (by norm_num)
  have a3 : 10 ^ 16 * (2 * h) * c = 10 ^ 16 * (c * (2 * h)) := by ring
  have a4 : (f + h + 6 * 10 ^ 16) * c = (f + h) * c + 6 * 10 ^ 16 * c := by ring
  generalize (f + h) * c = A at *
  generalize c * (2 * h) = B at *
  omega

theorem top_bound {hi lo delta lsb top A B : Nat} (hp : hi * 2 ^ 64 + lo = B) (hd : delta * 2 ^ 64 ≤ 2 * A) (hl : lsb = lo / 2 ^ 63)
    (ht : top = hi + (delta + lsb - 1) / 2) (h1 : 3 ≤ delta) : top * 2 ^ 64 ≤ B + A := by
  have a1 : 2 * top + 1 ≤ 2 * hi + delta + lsb := by omega
  have a2 : lsb * 2 ^ 63 ≤ lo := by rw [hl]; exact Nat.div_mul_le_self _ _
  have a3 : (2 * top + 1) * 2 ^ 63 ≤ (2 * hi + delta + lsb) * 2 ^ 63 := Nat.mul_le_mul_right _ a1
  linarith

theorem unscale {N f h : ℚ} {x x0 e1 ce : Int} (h0 : 0 ≤ -(e1 + ce + 64))
    (k1 : (f - h) * ((10 : ℚ) ^ (-x0) * 2 ^ (-ce)) < N * 10 ^ (x - x0) * 2 ^ (-(e1 + ce + 64)).toNat * 2 ^ 64)
    (k2 : N * 10 ^ (x - x0) * 2 ^ (-(e1 + ce + 64)).toNat * 2 ^ 64 < (f + h) * ((10 : ℚ) ^ (-x0) * 2 ^ (-ce))) :
    |N * 10 ^ x - f * 2 ^ e1| < h * 2 ^ e1 := by
  have hX : 0 < ((10 : ℚ) ^ (-x0) * 2 ^ (-ce)) := by positivity
  have hs : (2 : ℚ) ^ (-(e1 + ce + 64)).toNat * 2 ^ 64 = 2 ^ (-ce) * 2 ^ (-e1) := by
    have h64 : (2 : ℚ) ^ 64 = 2 ^ (64 : Int) := (zpow_natCast 2 64).symm
    rw [h64, ← zpow_natCast, Int.toNat_of_nonneg h0, ← zpow_add₀ (by norm_num), ← zpow_add₀ (by norm_num)]
    congr 1
    ring
  have hv : N * 10 ^ (x - x0) * 2 ^ (-(e1 + ce + 64)).toNat * 2 ^ 64 = N * 10 ^ x * 2 ^ (-e1) * (10 ^ (-x0) * 2 ^ (-ce)) := by
    rw [mul_assoc, hs, sub_eq_add_neg x, zpow_add₀ (by norm_num)]
    ring
  rw [hv] at k1 k2
  have k1 := lt_of_mul_lt_mul_right k1 hX.le
  have k2 := lt_of_mul_lt_mul_right k2 hX.le
  have hp : (0 : ℚ) < 2 ^ e1 := by positivity
  have k1 := mul_lt_mul_of_pos_right k1 hp
  have k2 := mul_lt_mul_of_pos_right k2 hp
  have hi1 : (2 : ℚ) ^ (-e1) * 2 ^ e1 = 1 := by
    rw [← zpow_add₀ (by norm_num), neg_add_cancel, zpow_zero]
  rw [mul_assoc _ ((2 : ℚ) ^ _) ((2 : ℚ) ^ _), hi1, mul_one] at k1 k2
  rw [abs_lt]
  constructor <;> linarith

/-- A finite non-zero double: the mantissa is normalized unless the exponent is the least one. -/
structure Fin64 (m : Nat) (e : Int) : Prop where
  pos : 0 < m
  lt : m < 2 ^ 53
  lo : -1074 ≤ e
  hi : e ≤ 971
  norm : 2 ^ 52 ≤ m ∨ e = -1074

/-- Half of the distance within which a decimal number is read back as `m · 2 ^ e`, as used by the code: half a unit, a quarter for powers
of two. -/
def radius (m : Nat) (e : Int) : ℚ := (if m = 2 ^ Nat.log2 m then 1 / 4 else 1 / 2) * 2 ^ e

theorem generate_spec {m : Nat} {e : Int} (hF : Fin64 m e) (accurate : Bool) :
    ∃ ds x, generate accurate ⟨m, e⟩ = some (ds, x) ∧ Good ds ∧ ds ≠ [] ∧ ds.length ≤ 17 ∧ -359 ≤ x ∧ x ≤ 351 ∧
      |(val ds : ℚ) * 10 ^ x - m * 2 ^ e| < radius m e := by
  obtain ⟨h0, h53, he1, he2, hn⟩ := hF
  have hlz := clz64_log2 h0 (show m < 2 ^ 64 by omega)
  have hl1 := Nat.log2_self_le (n := m) (by omega)
  have hl2 := Nat.lt_log2_self (n := m)
  have hl3 : Nat.log2 m < 53 := (Nat.log2_lt (by omega)).2 h53
  have hln : 2 ^ 52 ≤ m → Nat.log2 m = 52 := fun c => by
    have := (Nat.le_log2 (n := m) (k := 52) (by omega)).2 c
    omega
  unfold radius
  generalize hL : Nat.log2 m = L at *
  -- the normalized mantissa
  obtain ⟨lz, hlz'⟩ : ∃ lz, lz = 63 - L := ⟨_, rfl⟩
  rw [← hlz'] at hlz
  have hpw : 2 ^ L * 2 ^ lz = 2 ^ 63 := by rw [← pow_add, show L + lz = 63 by omega]
  have hf1 : 2 ^ 63 ≤ m * 2 ^ lz := by rw [← hpw]; exact Nat.mul_le_mul_right _ hl1
  have hf2 : m * 2 ^ lz + 2 ^ lz ≤ 2 ^ 64 := by
    have : (m + 1) * 2 ^ lz ≤ 2 ^ (L + 1) * 2 ^ lz := Nat.mul_le_mul_right _ hl2
    rw [pow_succ, Nat.mul_right_comm, hpw] at this
    rw [← Nat.succ_mul]
    omega
  have hlzp : 2 ^ 11 ≤ 2 ^ lz := Nat.pow_le_pow_right (by norm_num) (by omega)
  have hfw : m * 2 ^ lz % 2 ^ 64 = m * 2 ^ lz := Nat.mod_eq_of_lt (by omega)
  obtain ⟨c, ce, x0, E⟩ := entry (e := e - lz) (by omega) (by omega)
  have hz : zerosOf (e - lz) = lz := by
    unfold zerosOf
    rcases hn with hn | hn
    · have := hln hn
      rw [if_pos (by omega)]; omega
    · by_cases c11 : lz = 11
      · rw [if_pos (by omega)]; omega
      · rw [if_neg (by omega)]; omega
  -- the width
  have hpow2 : m * 2 ^ lz > 0x80000000000007ff ↔ m ≠ 2 ^ L := by
    constructor
    · intro c1 c2
      rw [c2, hpw] at c1; omega
    · intro c1
      have : (2 ^ L + 1) * 2 ^ lz ≤ m * 2 ^ lz := Nat.mul_le_mul_right _ (by omega)
      rw [Nat.add_mul, hpw] at this
      omega
  obtain ⟨h, w, hh1, hh2, hh3, hh4, hh5, hh6, hh7⟩ : ∃ h w, (if m * 2 ^ lz > 0x80000000000007ff then 64 else 65) - lz = w ∧ 2 * h * 2 ^ w = 2 ^ 64 ∧
      m * 2 ^ lz + h < 2 ^ 64 ∧ 2 * h ≤ m * 2 ^ lz ∧ m * 2 ^ lz + h + 6 * 10 ^ 16 ≤ 10 ^ 16 * (2 * h) ∧
      (h : ℚ) * 2 ^ (e - lz) = (if m = 2 ^ L then 1 / 4 else 1 / 2) * 2 ^ e ∧ (64 - lz ≤ w ∧ w < 64) := by
    have hzp : ∀ n : Nat, n ≤ lz → (2 : ℚ) ^ n * 2 ^ (e - lz) = 2 ^ e / 2 ^ (lz - n) := fun n hn => by
      rw [zpow_sub₀ (by norm_num), zpow_natCast]
      have : (2 : ℚ) ^ lz = 2 ^ n * 2 ^ (lz - n) := by rw [← pow_add, Nat.add_sub_cancel' hn]
      rw [this]
      field_simp
    by_cases c1 : m = 2 ^ L
    · refine ⟨2 ^ (lz - 2), 65 - lz, by rw [if_neg (fun k => hpow2.1 k c1)], ?_, ?_, ?_, ?_, ?_, by omega⟩
      · rw [← pow_succ', ← pow_add]; congr 1; omega
      · have : 2 ^ lz = 4 * 2 ^ (lz - 2) := by rw [show 4 = 2 ^ 2 from rfl, ← pow_add]; congr 1; omega
        omega
      · have : 2 ^ lz = 4 * 2 ^ (lz - 2) := by rw [show 4 = 2 ^ 2 from rfl, ← pow_add]; congr 1; omega
        have : 2 ^ lz ≤ 2 ^ 63 := Nat.pow_le_pow_right (by norm_num) (by omega)
        omega
      · rw [c1, hpw]
        have : 2 ^ lz = 4 * 2 ^ (lz - 2) := by rw [show 4 = 2 ^ 2 from rfl, ← pow_add]; congr 1; omega
        omega
      · rw [if_pos c1]
        push_cast
        rw [hzp _ (by omega), show lz - (lz - 2) = 2 by omega]
        ring
    · have hm2 : 2 ≤ m := by
        by_contra k
        have : m = 1 := by omega
        have hL0 : L = 0 := by
          by_contra k
          have : 2 ^ 1 ≤ 2 ^ L := Nat.pow_le_pow_right (by norm_num) (by omega)
          omega
        exact c1 (by rw [hL0]; omega)
      have h2 : 2 ^ lz = 2 * 2 ^ (lz - 1) := by rw [← pow_succ']; congr 1; omega
      refine ⟨2 ^ (lz - 1), 64 - lz, by rw [if_pos (hpow2.2 c1)], ?_, ?_, ?_, ?_, ?_, by omega⟩
      · rw [← h2, ← pow_add]; congr 1; omega
      · omega
      · rw [← h2]
        exact Nat.le_mul_of_pos_left _ h0
      · omega
      · rw [if_neg c1]
        push_cast
        rw [hzp _ (by omega), show lz - (lz - 1) = 1 by omega]
        ring
  have hE1 := E.lo
  have hE2 := E.hi
  have hE3 := E.shift
  obtain ⟨p1, p2, p3⟩ := Props.C24_mul128 (m * 2 ^ lz) c (by omega) (by omega)
  generalize hlo : (mul64x64_128 (m * 2 ^ lz) c).1 = lo at *
  generalize hhi : (mul64x64_128 (m * 2 ^ lz) c).2 = hi at *
  have hfm : m * 2 ^ e = ((m * 2 ^ lz : Nat) : ℚ) * 2 ^ (e - lz) := by
    push_cast
    rw [zpow_sub₀ (by norm_num), zpow_natCast]
    field_simp
  generalize hfdef : m * 2 ^ lz = f at *
  obtain ⟨delta, hdelta⟩ : ∃ d, d = c / 2 ^ w := ⟨_, rfl⟩
  have hwp : 0 < 2 ^ w := Nat.pos_of_ne_zero (by positivity)
  have hd1 : delta * 2 ^ w ≤ c := by rw [hdelta]; exact Nat.div_mul_le_self _ _
  have hd2 : c < (delta + 1) * 2 ^ w := by
    rw [hdelta, Nat.mul_comm]; exact Nat.lt_mul_div_succ _ hwp
  have hd1' : delta * 2 ^ 64 ≤ c * (2 * h) := by
    rw [← hh2]
    calc delta * (2 * h * 2 ^ w) = delta * 2 ^ w * (2 * h) := by ring
      _ ≤ _ := Nat.mul_le_mul_right _ hd1
  have hhpos : 0 < 2 * h := by
    rcases Nat.eq_zero_or_pos (2 * h) with z | z
    · rw [z] at hh2; omega
    · exact z
  have hd2' : c * (2 * h) < (delta + 1) * 2 ^ 64 := by
    rw [← hh2]
    calc c * (2 * h) < (delta + 1) * 2 ^ w * (2 * h) := Nat.mul_lt_mul_of_pos_right hd2 hhpos
      _ = _ := by ring
  have hfc1 : 2 ^ 63 * 2 ^ 63 ≤ f * c := Nat.mul_le_mul hf1 hE1
  have hd3 : 3 ≤ delta := by
    by_contra k
    have a1 : 2 ^ 63 * (2 * h) ≤ c * (2 * h) := Nat.mul_le_mul_right _ hE1
    omega
  have hdhi : delta ≤ hi := by
    have a1 : c * (2 * h) ≤ c * f := Nat.mul_le_mul_left _ hh4
    rw [Nat.mul_comm c f] at a1
    omega
  have hfc2 : f * c ≤ 2 ^ 64 * c := Nat.mul_le_mul_right _ (by omega)
  have hhi2 : hi ≤ c := by omega
  have hhi3 : hi < 2 ^ 64 - 1 - (2 ^ 31 - 1) := Nat.lt_of_le_of_lt hhi2 (Nat.lt_of_lt_of_le hE2 (by decide))
  obtain ⟨lsb, hlsb⟩ : ∃ l, l = lo / 2 ^ 63 := ⟨_, rfl⟩
  have hl4 : lsb ≤ 1 := by omega
  obtain ⟨top, htop⟩ : ∃ t, t = hi + (delta + lsb - 1) / 2 := ⟨_, rfl⟩
  have hfhc : (f + h) * c < 2 ^ 64 * c := Nat.mul_lt_mul_of_pos_right hh3 (by omega)
  have e3 : (f + h) * c = f * c + h * c := by ring
  have e4 : c * (2 * h) = 2 * (h * c) := by ring
  have htop64 : top * 2 ^ 64 ≤ (f + h) * c := by
    rw [e3]; rw [e4] at hd1'
    exact top_bound p3 hd1' hlsb htop hd3
  have htopc : top < c := by omega
  have hshift : (2 : Nat) ^ (-(e - (lz : Int) + ce + 64)).toNat ≤ 2 ^ 60 := Nat.pow_le_pow_right (by norm_num) (by omega)
  have hdz : delta < 10 * 2 ^ (-(e - (lz : Int) + ce + 64)).toNat := by
    have k := E.delta
    rw [hz] at k
    refine Nat.lt_of_le_of_lt ?_ k
    rw [hdelta]
    exact Nat.div_le_div_left (Nat.pow_le_pow_right (by norm_num) hh7.1) (Nat.pos_of_ne_zero (by positivity))
  obtain ⟨ds, x, M1, M2⟩ := makeDigits_spec (accurate := accurate) (top := top) (d0 := delta - 2) (value := if accurate then (hi + lsb) % 2 ^ 64 else hi)
    (shift := (-(e - (lz : Int) + ce + 64)).toNat) (exp10 := x0) (by omega) (by omega) (by omega) (by omega)
    (Nat.le_trans (Nat.div_le_div_right (by omega)) E.body) (by omega) (by omega) (by omega)
  refine ⟨ds, x, ?_, M2.good, M2.ne, ?_, ?_, ?_, ?_⟩
  · unfold generate
    dsimp only
    rw [hlz, if_neg (by omega), hfdef, hfw, E.eq]
    dsimp only
    rw [hh1, if_neg (by omega), ← hdelta, if_neg (show ¬delta < 2 from Nat.not_lt.2 (Nat.le_trans (by decide) hd3)), hlo, hhi,
      if_neg (not_not.2 hhi3), if_neg (by omega), ← hlsb, ← htop,
      Nat.mod_eq_of_lt (show top < 2 ^ 64 by omega)]
    exact M1
  · exact digits_count hE1 hd2' hd3 htop64 hh5 M2.length
  · have := M2.exp; have := E.exp; omega
  · have := M2.exp; have := E.exp; omega
  · have g1 : lsb * 2 ^ 63 ≤ lo := by rw [hlsb]; exact Nat.div_mul_le_self _ _
    have g2 : lo < (lsb + 1) * 2 ^ 63 := by rw [hlsb, Nat.mul_comm]; exact Nat.lt_mul_div_succ _ (by decide)
    obtain ⟨k1, k2⟩ := core (R := val ds * 10 ^ (x - x0) * 2 ^ (-(e - (lz : Int) + ce + 64)).toNat) p3 g1 g2 hd1' (by omega) (by omega) hh3 (by omega)
      E.below E.above (by
        have := M2.lower
        have h2 : ((delta - 2 : Nat) : ℚ) = delta - 2 := by rw [Nat.cast_sub (by omega)]; norm_num
        rw [h2] at this
        linarith) M2.upper
    rw [← hh6, hfm]
    exact unscale (by omega) k1 k2

theorem Fin64.ge {m : Nat} {e : Int} (h : Fin64 m e) : (2 : ℚ) ^ e ≤ m * 2 ^ e := by
  have : (1 : ℚ) ≤ m := by exact_mod_cast h.pos
  have hp : (0 : ℚ) < 2 ^ e := by positivity
  nlinarith

/-- A normalized pair: what `Fin64` says without the largest exponent. -/
structure Norm (m : Nat) (e : Int) : Prop where
  pos : 0 < m
  lt : m < 2 ^ 53
  lo : -1074 ≤ e
  norm : 2 ^ 52 ≤ m ∨ e = -1074

theorem Fin64.weak {m : Nat} {e : Int} (h : Fin64 m e) : Norm m e := ⟨h.pos, h.lt, h.lo, h.norm⟩

theorem zpow_split {e e' : Int} (h : e' ≤ e) : (2 : ℚ) ^ e = ((2 ^ (e - e').toNat : Nat) : ℚ) * 2 ^ e' := by
  push_cast
  rw [← zpow_natCast, Int.toNat_of_nonneg (by omega), ← zpow_add₀ (by norm_num)]
  congr 1
  omega

/-- The next larger number is at least one unit away. -/
theorem gap_above {m m' : Nat} {e e' : Int} (h : Norm m e) (h' : Norm m' e') (hlt : (m : ℚ) * 2 ^ e < m' * 2 ^ e') :
    (m : ℚ) * 2 ^ e + 2 ^ e ≤ m' * 2 ^ e' := by
  have hp : (0 : ℚ) < 2 ^ e := by positivity
  by_cases c : e ≤ e'
  · rw [zpow_split c, ← mul_assoc] at hlt ⊢
    have := lt_of_mul_lt_mul_right hlt hp.le
    have : m + 1 ≤ m' * 2 ^ (e' - e).toNat := by exact_mod_cast this
    have : (m : ℚ) + 1 ≤ m' * ((2 ^ (e' - e).toNat : Nat) : ℚ) := by exact_mod_cast this
    nlinarith
  · exfalso
    have hm : 2 ^ 52 ≤ m := by
      rcases h.norm with k | k
      · exact k
      · have := h'.lo; omega
    have hp' : (0 : ℚ) < 2 ^ e' := by positivity
    rw [zpow_split (show e' ≤ e by omega), ← mul_assoc] at hlt
    have := lt_of_mul_lt_mul_right hlt hp'.le
    have k1 : m * 2 ^ (e - e').toNat < m' := by exact_mod_cast this
    have k2 : 2 ^ 52 * 2 ^ 1 ≤ m * 2 ^ (e - e').toNat := Nat.mul_le_mul hm (Nat.pow_le_pow_right (by norm_num) (by omega))
    have := h'.lt
    omega

theorem gap_below {m m' : Nat} {e e' : Int} (h : Norm m e) (h' : Norm m' e') (hlt : (m' : ℚ) * 2 ^ e' < m * 2 ^ e) :
    (m' : ℚ) * 2 ^ e' + (if m = 2 ^ Nat.log2 m then 1 / 2 else 1) * 2 ^ e ≤ m * 2 ^ e := by
  have hp : (0 : ℚ) < 2 ^ e := by positivity
  have h1 := gap_above h' h hlt
  by_cases c : e ≤ e'
  · have : (2 : ℚ) ^ e ≤ 2 ^ e' := zpow_le_zpow_right₀ (by norm_num) c
    split <;> nlinarith
  · have hm : 2 ^ 52 ≤ m := by
      rcases h.norm with k | k
      · exact k
      · have := h'.lo; omega
    have hp' : (0 : ℚ) < 2 ^ e' := by positivity
    have k53 : m' + 1 ≤ 2 ^ 53 := h'.lt
    have k53 : (m' : ℚ) + 1 ≤ 2 ^ 53 := by exact_mod_cast k53
    have km : (2 : ℚ) ^ 52 ≤ m := by exact_mod_cast hm
    have k4 : (m' : ℚ) * 2 ^ e' ≤ (2 ^ 53 - 1) * 2 ^ e' := mul_le_mul_of_nonneg_right (by linarith) hp'.le
    by_cases c1 : e = e' + 1
    · have k2 : (2 : ℚ) ^ e = 2 * 2 ^ e' := by rw [c1, zpow_add_one₀ (by norm_num)]; ring
      rw [k2]
      generalize (2 : ℚ) ^ e' = u at *
      by_cases c2 : m = 2 ^ Nat.log2 m
      · rw [if_pos c2]
        have : (2 : ℚ) ^ 52 * (2 * u) ≤ m * (2 * u) := mul_le_mul_of_nonneg_right km (by linarith)
        linarith
      · rw [if_neg c2]
        have hm' : 2 ^ 52 + 1 ≤ m := by
          rcases Nat.lt_or_ge (2 ^ 52) m with k | k
          · exact k
          · exact absurd (show m = 2 ^ Nat.log2 m by
              rw [show m = 2 ^ 52 by omega, Nat.log2_two_pow]) c2
        have km' : (2 : ℚ) ^ 52 + 1 ≤ m := by exact_mod_cast hm'
        have : ((2 : ℚ) ^ 52 + 1) * (2 * u) ≤ m * (2 * u) := mul_le_mul_of_nonneg_right km' (by linarith)
        linarith
    · have k2 : (2 : ℚ) ^ (e' + 2) ≤ 2 ^ e := zpow_le_zpow_right₀ (by norm_num) (by omega)
      rw [zpow_add₀ (by norm_num)] at k2
      have : (2 : ℚ) ^ 52 * 2 ^ e ≤ m * 2 ^ e := mul_le_mul_of_nonneg_right km hp.le
      norm_num at k2 this k4
      split <;> linarith

/-- Any other number is at least twice the radius away. -/
theorem apart {m m' : Nat} {e e' : Int} (h : Norm m e) (h' : Norm m' e') (hne : (m : ℚ) * 2 ^ e ≠ m' * 2 ^ e') :
    2 * radius m e ≤ |(m : ℚ) * 2 ^ e - m' * 2 ^ e'| := by
  have hp : (0 : ℚ) < 2 ^ e := by positivity
  unfold radius
  rcases lt_or_gt_of_ne hne with k | k
  · have := gap_above h h' k
    rw [abs_sub_comm]
    refine le_trans ?_ (le_abs_self _)
    split <;> linarith
  · have := gap_below h h' k
    refine le_trans ?_ (le_abs_self _)
    split at this <;> split <;> first | linarith | (exfalso; tauto)

theorem radius_le {m : Nat} {e : Int} (h : Norm m e) : 2 * radius m e ≤ m * 2 ^ e := by
  have hp : (0 : ℚ) < 2 ^ e := by positivity
  have : (1 : ℚ) ≤ m := by exact_mod_cast h.pos
  unfold radius
  split <;> nlinarith

theorem radius_pos {m : Nat} {e : Int} : 0 < radius m e := by
  unfold radius
  split <;> positivity

/-- A signed number, `±2 ^ 1024` and zero included. -/
inductive Grid : ℚ → Prop where
  | zero : Grid 0
  | pos {m e} : Norm m e → Grid (m * 2 ^ e)
  | neg {m e} : Norm m e → Grid (-(m * 2 ^ e))

theorem Grid.opp {v : ℚ} : Grid v → Grid (-v)
  | .zero => by rw [neg_zero]; exact .zero
  | .pos h => .neg h
  | .neg h => by rw [neg_neg]; exact .pos h

theorem far {m : Nat} {e : Int} (h : Norm m e) {v : ℚ} (hv : Grid v) (hne : v ≠ m * 2 ^ e) : 2 * radius m e ≤ |m * 2 ^ e - v| := by
  cases hv with
  | zero => rw [sub_zero]; exact le_trans (radius_le h) (le_abs_self _)
  | pos h' => exact apart h h' (Ne.symm hne)
  | @neg m' e' h' =>
    refine le_trans (radius_le h) (le_trans ?_ (le_abs_self _))
    have : (0 : ℚ) ≤ m' * 2 ^ e' := mul_nonneg (Nat.cast_nonneg' _) (by positivity)
    linarith

theorem nearest {m : Nat} {e : Int} (h : Norm m e) {R v : ℚ} (hR : |R - m * 2 ^ e| < radius m e) (hv : Grid v) (hne : v ≠ m * 2 ^ e) :
    |R - m * 2 ^ e| < |R - v| := by
  have far := far h hv hne
  have tri : |m * 2 ^ e - v| ≤ |R - m * 2 ^ e| + |R - v| := by
    rw [abs_sub_comm R (m * 2 ^ e)]
    exact abs_sub_le _ _ _
  linarith

/-- What the bits of a finite double denote. -/
theorem ofBits_value {bits : Nat} {v : Rat} (hv : Num.ieeeValue 52 11 bits = some v) :
    v = (if isNegative bits then -1 else 1) * ((Diy.ofBits bits).f : ℚ) * 2 ^ (Diy.ofBits bits).e ∧
    (((Diy.ofBits bits).f = 0 ∧ (Diy.ofBits bits).e = -1074) ∨ Fin64 (Diy.ofBits bits).f (Diy.ofBits bits).e) := by
  unfold Num.ieeeValue at hv
  dsimp only at hv
  rw [show 2 ^ (52 + 11) = 2 ^ 63 from rfl] at hv
  have hs : (if bits / 2 ^ 63 % 2 = 1 then (-1 : ℚ) else 1) = if isNegative bits = true then -1 else 1 := by
    unfold isNegative
    by_cases c : bits / 2 ^ 63 % 2 = 1
    · rw [if_pos c, if_pos (decide_eq_true c)]
    · rw [if_neg c, if_neg (by rw [decide_eq_true_eq]; exact c)]
  rw [hs] at hv
  generalize (if isNegative bits = true then (-1 : ℚ) else 1) = sg at *
  unfold Diy.ofBits
  dsimp only
  have he : bits / 2 ^ 52 % 2 ^ 11 < 2 ^ 11 := Nat.mod_lt _ (by norm_num)
  have hf : bits % 2 ^ 52 < 2 ^ 52 := Nat.mod_lt _ (by norm_num)
  generalize bits / 2 ^ 52 % 2 ^ 11 = x at *
  generalize bits % 2 ^ 52 = f at *
  by_cases c1 : x = 2 ^ 11 - 1
  · rw [if_pos c1] at hv; exact absurd hv (by simp)
  rw [if_neg c1] at hv
  by_cases c2 : x = 0
  · rw [if_pos c2] at hv
    rw [if_neg (not_not.2 c2), if_neg (not_not.2 c2), c2]
    refine ⟨?_, ?_⟩
    · rw [← Option.some.inj hv]
      norm_num
    · rcases Nat.eq_zero_or_pos f with z | z
      · exact .inl ⟨by omega, by norm_num⟩
      · exact .inr ⟨by omega, by omega, by norm_num, by norm_num, .inr (by norm_num)⟩
  · rw [if_neg c2] at hv
    rw [if_pos c2, if_pos c2]
    refine ⟨?_, .inr ⟨by omega, by omega, by omega, by omega, .inl (by omega)⟩⟩
    rw [← Option.some.inj hv, Nat.add_comm f]
    norm_num
    rw [sub_sub]
    norm_num

theorem grid_of_bits {bits : Nat} {v : Rat} (hv : Num.ieeeValue 52 11 bits = some v) : Grid v := by
  obtain ⟨h1, h2⟩ := ofBits_value hv
  rw [h1]
  rcases h2 with ⟨h2, -⟩ | h2
  · rw [h2]; simpa using Grid.zero
  · split
    · rw [neg_one_mul, neg_mul]; exact .neg h2.weak
    · rw [one_mul]; exact .pos h2.weak

theorem grid_huge : Grid (2 ^ 1024) := by
  have := Grid.pos (m := 2 ^ 52) (e := 972) ⟨by norm_num, by norm_num, by norm_num, .inl (by norm_num)⟩
  have e : ((2 ^ 52 : Nat) : ℚ) * 2 ^ (972 : Int) = 2 ^ 1024 := by
    rw [show (972 : Int) = ((972 : Nat) : Int) from rfl, zpow_natCast]
    rw [show ((2 ^ 52 : Nat) : ℚ) = 2 ^ 52 by norm_num, ← pow_add]
  rw [e] at this
  exact this

end Fptu.D2a
