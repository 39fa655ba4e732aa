import Verif.Model.Guard
import Mathlib.Tactic.IntervalCases
import Mathlib.Tactic.NormNum
import Mathlib.Tactic.Ring
import Mathlib.Data.Nat.ModEq
import Mathlib.Logic.Function.Iterate
/-!
# Lemmas about guard marks
-/
namespace Fptu.Guard

/-! ## The search ends -/

/-- Multiplier of 2^k rounds. -/
def mulOf : Nat → Nat
  | 0 => 1664525
  | k + 1 => mulOf k * mulOf k % 2 ^ 32

/-- Increment of 2^k rounds. -/
def incOf : Nat → Nat
  | 0 => 1013904223
  | k + 1 => (mulOf k * incOf k + incOf k) % 2 ^ 32

theorem jump (k c : Nat) : nextChirp^[2 ^ k] c = (mulOf k * c + incOf k) % 2 ^ 32 := by
  induction k generalizing c with
  | zero => rw [pow_zero, Function.iterate_one, nextChirp, mulOf, incOf, Nat.mul_comm]
  | succ k ih =>
    rw [pow_succ, Nat.mul_two, Function.iterate_add_apply, ih, ih, mulOf, incOf]
    have h : ∀ a b c : Nat, (a * ((a * c + b) % 2 ^ 32) + b) % 2 ^ 32 = (a * a % 2 ^ 32 * c + (a * b + b) % 2 ^ 32) % 2 ^ 32 := by
      intro a b c
      have e1 : a * ((a * c + b) % 2 ^ 32) + b ≡ a * (a * c + b) + b [MOD 2 ^ 32] := ((Nat.mod_modEq _ _).mul_left a).add_right b
      have e2 : a * a % 2 ^ 32 * c + (a * b + b) % 2 ^ 32 ≡ a * a * c + (a * b + b) [MOD 2 ^ 32] :=
        ((Nat.mod_modEq _ _).mul_right c).add (Nat.mod_modEq _ _)
      exact e1.trans ((show a * (a * c + b) + b = a * a * c + (a * b + b) by ring) ▸ e2.symm)
    exact h _ _ _

theorem jump_facts : ∀ k < 32, mulOf k % 2 ^ (k + 1) = 1 ∧ incOf k % 2 ^ (k + 1) = 2 ^ k := by decide +kernel

/-- The sequence of the search visits every value modulo 2^k within 2^k rounds. -/
theorem visits (c y : Nat) : ∀ k ≤ 32, ∃ i < 2 ^ k, nextChirp^[i] c ≡ y [MOD 2 ^ k]
  | 0, _ => ⟨0, by norm_num, by rw [pow_zero]; exact Nat.modEq_one⟩
  | k + 1, hk => by
    obtain ⟨i, hi, e⟩ := visits c y k (by omega)
    by_cases h : nextChirp^[i] c ≡ y [MOD 2 ^ (k + 1)]
    · exact ⟨i, lt_of_lt_of_le hi (Nat.pow_le_pow_right (by norm_num) (by omega)), h⟩
    · refine ⟨2 ^ k + i, by rw [pow_succ]; omega, ?_⟩
      rw [Function.iterate_add_apply, jump]
      obtain ⟨f1, f2⟩ := jump_facts k (by omega)
      generalize nextChirp^[i] c = z at e h ⊢
      have d : 2 ^ (k + 1) ∣ 2 ^ 32 := Nat.pow_dvd_pow 2 (by omega)
      have g1 : (mulOf k * z + incOf k) % 2 ^ 32 ≡ mulOf k * z + incOf k [MOD 2 ^ (k + 1)] := (Nat.mod_modEq _ _).of_dvd d
      have p : 1 < 2 ^ (k + 1) := Nat.one_lt_two_pow (by omega)
      have g2 : mulOf k ≡ 1 [MOD 2 ^ (k + 1)] := by unfold Nat.ModEq; rw [f1, Nat.mod_eq_of_lt p]
      have g3 : incOf k ≡ 2 ^ k [MOD 2 ^ (k + 1)] := by
        unfold Nat.ModEq; rw [f2, Nat.mod_eq_of_lt (Nat.pow_lt_pow_right (by norm_num) (by omega))]
      have g4 : mulOf k * z + incOf k ≡ z + 2 ^ k [MOD 2 ^ (k + 1)] := by
        have := (g2.mul_right z).add g3
        rwa [Nat.one_mul] at this
      refine g1.trans (g4.trans ?_)
      unfold Nat.ModEq at *
      rw [pow_succ, Nat.mul_comm] at *
      generalize 2 ^ k = w at *
      have w0 : 0 < w := by omega
      have m1 := Nat.mod_mod_of_dvd z (Nat.dvd_mul_left w 2)
      have m2 := Nat.mod_mod_of_dvd y (Nat.dvd_mul_left w 2)
      have l1 := Nat.mod_lt z (show 0 < 2 * w by omega)
      have l2 := Nat.mod_lt y (show 0 < 2 * w by omega)
      rw [Nat.add_mod, Nat.mod_eq_of_lt (show w < 2 * w by omega)]
      generalize z % (2 * w) = z1 at *
      generalize y % (2 * w) = y1 at *
      rw [← m1, ← m2] at e
      rcases Nat.lt_or_ge z1 w with c1 | c1 <;> rcases Nat.lt_or_ge y1 w with c2 | c2
      · rw [Nat.mod_eq_of_lt c1, Nat.mod_eq_of_lt c2] at e; exact absurd e h
      · rw [Nat.mod_eq_of_lt c1, Nat.mod_eq_sub_mod c2, Nat.mod_eq_of_lt (show y1 - w < w by omega)] at e
        rw [Nat.mod_eq_of_lt (show z1 + w < 2 * w by omega)]; omega
      · rw [Nat.mod_eq_sub_mod c1, Nat.mod_eq_of_lt (show z1 - w < w by omega), Nat.mod_eq_of_lt c2] at e
        rw [Nat.mod_eq_sub_mod (show z1 + w ≥ 2 * w by omega), Nat.mod_eq_of_lt (by omega)]; omega
      · rw [Nat.mod_eq_sub_mod c1, Nat.mod_eq_of_lt (show z1 - w < w by omega), Nat.mod_eq_sub_mod c2,
          Nat.mod_eq_of_lt (show y1 - w < w by omega)] at e
        exact absurd (by omega) h

theorem nextChirp_lt (n c : Nat) (h : c < 2 ^ 32) : nextChirp^[n] c < 2 ^ 32 := by
  cases n with
  | zero => exact h
  | succ n => rw [Function.iterate_succ_apply', nextChirp]; exact Nat.mod_lt _ (by norm_num)

theorem search_some {n c s i : Nat} (hi : i < n) (h1 : fairly (nextChirp^[i] c) = true) (h2 : fairly (mixup (nextChirp^[i] c) s) = true) :
    (search n c s).isSome = true := by
  induction n generalizing c i with
  | zero => omega
  | succ n ih =>
    unfold search
    by_cases g : fairly c = true ∧ fairly (mixup c s) = true
    · rw [if_pos g]; rfl
    · rw [if_neg g]
      cases i with
      | zero => exact absurd ⟨h1, h2⟩ g
      | succ i => exact ih (i := i) (by omega) (by rwa [Function.iterate_succ_apply] at h1) (by rwa [Function.iterate_succ_apply] at h2)

theorem search_spec {n c s : Nat} {k : Mark} (h : search n c s = some k) (hc : c < 2 ^ 32) :
    k.chirp < 2 ^ 32 ∧ fairly k.chirp = true ∧ fairly k.mesh = true ∧ k.mesh = mixup k.chirp s := by
  induction n generalizing c with
  | zero => cases h
  | succ n ih =>
    unfold search at h
    by_cases g : fairly c = true ∧ fairly (mixup c s) = true
    · rw [if_pos g] at h
      cases h
      exact ⟨hc, g.1, g.2, rfl⟩
    · rw [if_neg g] at h
      exact ih h (Nat.mod_lt _ (by norm_num))

theorem mixup_eq {a s x : Nat} (h : (a + s) % 2 ^ 32 = x % 2 ^ 32) : mixup a s = mixup x 0 := by
  unfold mixup
  rw [h, Nat.add_zero]

/-- For every signature some chirp makes a mark. -/
theorem chirp_exists (s : Nat) : ∃ y < 2 ^ 32, fairly y = true ∧ fairly (mixup y s) = true := by
  have f1 : fairly (mixup 1 0) = true := by decide +kernel
  have f2 : fairly (mixup 0x40000001 0) = true := by decide +kernel
  obtain ⟨t, ht, htl⟩ : ∃ t, t = s % 2 ^ 32 ∧ t < 2 ^ 32 := ⟨_, rfl, Nat.mod_lt _ (by norm_num)⟩
  by_cases g : fairly ((1 + (2 ^ 32 - t)) % 2 ^ 32) = true
  · refine ⟨(1 + (2 ^ 32 - t)) % 2 ^ 32, Nat.mod_lt _ (by norm_num), g, ?_⟩
    rw [mixup_eq (x := 1) (by omega)]; exact f1
  · refine ⟨(0x40000001 + (2 ^ 32 - t)) % 2 ^ 32, Nat.mod_lt _ (by norm_num), ?_, ?_⟩
    · simp only [fairly, decide_eq_true_eq] at g ⊢; omega
    · rw [mixup_eq (x := 0x40000001) (by omega)]; exact f2

theorem setup_total (t s : Nat) : ∃ k, setup t s = some k := by
  obtain ⟨y, y1, y2, y3⟩ := chirp_exists s
  obtain ⟨i, i1, i2⟩ := visits (t % 2 ^ 32) y 32 (Nat.le_refl _)
  have e : nextChirp^[i] (t % 2 ^ 32) = y := by
    have := nextChirp_lt i (t % 2 ^ 32) (Nat.mod_lt _ (by norm_num))
    unfold Nat.ModEq at i2
    rwa [Nat.mod_eq_of_lt this, Nat.mod_eq_of_lt y1] at i2
  exact Option.isSome_iff_exists.1 (search_some i1 (by rw [e]; exact y2) (by rw [e]; exact y3))

/-! ## Damage of one bit -/

/-- Whether two differences can come from pairs with equal exclusive or. -/
def reach : Nat → Int → Int → Bool
  | 0, a, b => decide (a = 0 ∧ b = 0)
  | n + 1, a, b =>
    if a % 2 ≠ b % 2 then false
    else if a % 2 = 0 then reach n (a / 2) (b / 2)
    else reach n ((a - 1) / 2) ((b - 1) / 2) || (reach n ((a - 1) / 2) ((b + 1) / 2) ||
      (reach n ((a + 1) / 2) ((b - 1) / 2) || reach n ((a + 1) / 2) ((b + 1) / 2)))

theorem xor_reach {n a a' b b' : Nat} (ha : a < 2 ^ n) (ha' : a' < 2 ^ n) (hb : b < 2 ^ n) (hb' : b' < 2 ^ n)
    (h : a ^^^ a' = b ^^^ b') : reach n ((a' : Int) - a) ((b' : Int) - b) = true := by
  induction n generalizing a a' b b' with
  | zero => rw [pow_zero] at *; unfold reach; rw [decide_eq_true_eq]; omega
  | succ n ih =>
    rw [pow_succ] at *
    have p : (a + a') % 2 = (b + b') % 2 := by
      have := congrArg (· % 2) h
      have x2 : ∀ u v : Nat, (u ^^^ v) % 2 = (u + v) % 2 := fun u v => by
        have := Nat.xor_mod_two_eq_one (a := u) (b := v)
        omega
      simpa only [x2] using this
    have q : a / 2 ^^^ a' / 2 = b / 2 ^^^ b' / 2 := by
      have := congrArg (· / 2) h
      simpa only [Nat.xor_div_two] using this
    have r := ih (a := a / 2) (a' := a' / 2) (b := b / 2) (b' := b' / 2) (by omega) (by omega) (by omega) (by omega) q
    have r' : ∀ u v : Int, u = ((a' / 2 : Nat) : Int) - ((a / 2 : Nat) : Int) → v = ((b' / 2 : Nat) : Int) - ((b / 2 : Nat) : Int) →
        reach n u v = true := by
      rintro _ _ rfl rfl; exact r
    clear r q h ih
    unfold reach
    rw [if_neg (by omega)]
    by_cases c : ((a' : Int) - a) % 2 = 0
    · rw [if_pos c]
      exact r' _ _ (by omega) (by omega)
    · rw [if_neg c]
      simp only [Bool.or_eq_true]
      rcases Nat.lt_or_ge (a % 2) (a' % 2) with s1 | s1 <;> rcases Nat.lt_or_ge (b % 2) (b' % 2) with s2 | s2
      · left; exact r' _ _ (by omega) (by omega)
      · right; left; exact r' _ _ (by omega) (by omega)
      · right; right; left; exact r' _ _ (by omega) (by omega)
      · right; right; right; exact r' _ _ (by omega) (by omega)

/-- All values below a bound. -/
def allBelow : Nat → (Nat → Bool) → Bool
  | 0, _ => true
  | n + 1, f => f n && allBelow n f

theorem allBelow_spec {n : Nat} {f : Nat → Bool} (h : allBelow n f = true) {i : Nat} (hi : i < n) : f i = true := by
  induction n with
  | zero => omega
  | succ n ih =>
    rw [allBelow, Bool.and_eq_true] at h
    rcases Nat.lt_or_eq_of_le (Nat.lt_succ_iff.1 hi) with g | g
    · exact ih h.2 g
    · rw [g]; exact h.1

/-- `mixup` by the sum. -/
def fold (x : Nat) : Nat := 0xD0C3DFD7 * x % 2 ^ 32 ^^^ 0xD0C3DFD7 * x / 2 ^ 32

theorem mixup_fold (a s : Nat) : mixup a s = fold ((a + s) % 2 ^ 32) := by
  unfold mixup fold
  dsimp only
  have h : (a + s) % 2 ^ 32 < 2 ^ 32 := Nat.mod_lt _ (by norm_num)
  generalize (a + s) % 2 ^ 32 = x at *
  rw [Nat.xor_mod_two_pow, Nat.shiftRight_eq_div_pow, Nat.mod_eq_of_lt (a := 0xD0C3DFD7 * x / 2 ^ 32) (by omega)]

theorem xor_lt_of_div {a b t : Nat} (h : a / 2 ^ t = b / 2 ^ t) : a ^^^ b < 2 ^ t := by
  have : (a ^^^ b) / 2 ^ t = 0 := by rw [Nat.xor_div_two_pow, h, Nat.xor_self]
  exact (Nat.div_eq_zero_iff_lt (by positivity)).1 this

theorem div_of_xor_lt {a b t : Nat} (h : a ^^^ b < 2 ^ t) : a / 2 ^ t = b / 2 ^ t := by
  have : (a ^^^ b) / 2 ^ t = 0 := Nat.div_eq_of_lt h
  rw [Nat.xor_div_two_pow] at this
  have h2 := congrArg (· ^^^ b / 2 ^ t) this
  simpa only [Nat.xor_assoc, Nat.xor_self, Nat.xor_zero, Nat.zero_xor] using h2

theorem carries {M M' D W : Nat} (h : M' + W * 2 ^ 32 = M + D) : ∃ c : Nat, c < 2 ∧
    ((M' % 2 ^ 32 : Nat) : Int) - ((M % 2 ^ 32 : Nat) : Int) = ((D % 2 ^ 32 : Nat) : Int) - ((c * 2 ^ 32 : Nat) : Int) ∧
    ((M' / 2 ^ 32 : Nat) : Int) - ((M / 2 ^ 32 : Nat) : Int) = ((D / 2 ^ 32 : Nat) : Int) + (c : Int) - (W : Int) := by
  refine ⟨(M % 2 ^ 32 + D % 2 ^ 32) / 2 ^ 32, by omega, ?_, ?_⟩ <;> omega

/-- A sum is determined by the high half of its product up to two neighbours. -/
theorem near {x H : Nat} (h : 0xD0C3DFD7 * x / 2 ^ 32 = H) : ∃ e < 3, x = H * 2 ^ 32 / 0xD0C3DFD7 + e := by
  refine ⟨x - H * 2 ^ 32 / 0xD0C3DFD7, ?_, ?_⟩ <;> omega

theorem long_run {hi hi' lo lo' t s : Nat} (h : lo ^^^ lo' = hi ^^^ hi') (hh : hi' = hi + s) (hd : lo' + 2 ^ t ≤ lo ∨ lo + 2 ^ t ≤ lo') :
    hi % 2 ^ t + s ≥ 2 ^ t := by
  by_contra c
  have e1 : hi / 2 ^ t = hi' / 2 ^ t := by
    rw [hh]
    have := Nat.div_add_mod hi (2 ^ t)
    have p : 0 < 2 ^ t := by positivity
    conv_rhs => rw [← this, Nat.add_assoc, Nat.mul_add_div p, Nat.div_eq_of_lt (show hi % 2 ^ t + s < 2 ^ t by omega), Nat.add_zero]
  have e2 := xor_lt_of_div e1
  rw [← h] at e2
  have e3 := div_of_xor_lt e2
  have a1 := Nat.div_add_mod lo (2 ^ t)
  have a2 := Nat.div_add_mod lo' (2 ^ t)
  have a3 := Nat.mod_lt lo (show 2 ^ t > 0 by positivity)
  have a4 := Nat.mod_lt lo' (show 2 ^ t > 0 by positivity)
  rw [e3] at a1
  omega

/-- Differences in bytes other than the lowest. -/
theorem separated : allBelow 3 (fun i => allBelow 255 fun d => allBelow 2 fun w => allBelow 2 fun c =>
    !reach 32 (((0xD0C3DFD7 * ((d + 1) * 2 ^ (8 * (i + 1))) % 2 ^ 32 : Nat) : Int) - ((c * 2 ^ 32 : Nat) : Int))
      (((0xD0C3DFD7 * ((d + 1) * 2 ^ (8 * (i + 1))) / 2 ^ 32 : Nat) : Int) + (c : Int) - ((w * 0xD0C3DFD7 : Nat) : Int))) = true := by
  decide +kernel

/-- Differences in the lowest byte that wrap around. -/
theorem wrapping : allBelow 255 (fun d => allBelow 255 fun e => !Nat.beq (fold (2 ^ 32 - 1 - e)) (fold (d - e)) || decide (d < e)) = true := by
  decide +kernel

/-- The number of equal leading bits of the low halves, by the difference of the sums and the carry. -/
def runOf (d c : Nat) : Nat := Nat.log2 (if c = 0 then 0xD0C3DFD7 * d % 2 ^ 32 else 2 ^ 32 - 0xD0C3DFD7 * d % 2 ^ 32)

/-- The difference of the high halves. -/
def stepOf (d c : Nat) : Nat := 0xD0C3DFD7 * d / 2 ^ 32 + c

/-- The check of one difference in the lowest byte. -/
def runAt (d : Nat) : Bool := allBelow 2 fun c =>
    !reach 32 (((0xD0C3DFD7 * (d + 1) % 2 ^ 32 : Nat) : Int) - ((c * 2 ^ 32 : Nat) : Int)) ((stepOf (d + 1) c : Nat) : Int) ||
    allBelow (2 ^ (32 - runOf (d + 1) c)) fun q => allBelow (stepOf (d + 1) c) fun r => allBelow 3 fun e =>
      !Nat.beq (fold ((q * 2 ^ runOf (d + 1) c + 2 ^ runOf (d + 1) c - stepOf (d + 1) c + r) * 2 ^ 32 / 0xD0C3DFD7 + e))
        (fold ((q * 2 ^ runOf (d + 1) c + 2 ^ runOf (d + 1) c - stepOf (d + 1) c + r) * 2 ^ 32 / 0xD0C3DFD7 + e + (d + 1)))

/-! The whole table in 17 parts, to bound the memory of the checker. -/

theorem running0 : allBelow 15 (fun d => runAt (0 + d)) = true := by decide +kernel
theorem running1 : allBelow 15 (fun d => runAt (15 + d)) = true := by decide +kernel
theorem running2 : allBelow 15 (fun d => runAt (30 + d)) = true := by decide +kernel
theorem running3 : allBelow 15 (fun d => runAt (45 + d)) = true := by decide +kernel
theorem running4 : allBelow 15 (fun d => runAt (60 + d)) = true := by decide +kernel
theorem running5 : allBelow 15 (fun d => runAt (75 + d)) = true := by decide +kernel
theorem running6 : allBelow 15 (fun d => runAt (90 + d)) = true := by decide +kernel
theorem running7 : allBelow 15 (fun d => runAt (105 + d)) = true := by decide +kernel
theorem running8 : allBelow 15 (fun d => runAt (120 + d)) = true := by decide +kernel
theorem running9 : allBelow 15 (fun d => runAt (135 + d)) = true := by decide +kernel
theorem running10 : allBelow 15 (fun d => runAt (150 + d)) = true := by decide +kernel
theorem running11 : allBelow 15 (fun d => runAt (165 + d)) = true := by decide +kernel
theorem running12 : allBelow 15 (fun d => runAt (180 + d)) = true := by decide +kernel
theorem running13 : allBelow 15 (fun d => runAt (195 + d)) = true := by decide +kernel
theorem running14 : allBelow 15 (fun d => runAt (210 + d)) = true := by decide +kernel
theorem running15 : allBelow 15 (fun d => runAt (225 + d)) = true := by decide +kernel
theorem running16 : allBelow 15 (fun d => runAt (240 + d)) = true := by decide +kernel

/-- Differences in the lowest byte: only sums whose product has a long run of ones in the high half are left. -/
theorem running {d : Nat} (hd : d < 255) : runAt d = true := by
  have key : ∀ n, allBelow 15 (fun j => runAt (15 * n + j)) = true → 15 * n ≤ d → d < 15 * n + 15 → runAt d = true := by
    intro n h h1 h2
    have := allBelow_spec h (i := d - 15 * n) (by omega)
    rwa [Nat.add_sub_cancel' h1] at this
  by_cases h0 : d < 15
  · exact key 0 running0 (by omega) (by omega)
  by_cases h1 : d < 30
  · exact key 1 running1 (by omega) (by omega)
  by_cases h2 : d < 45
  · exact key 2 running2 (by omega) (by omega)
  by_cases h3 : d < 60
  · exact key 3 running3 (by omega) (by omega)
  by_cases h4 : d < 75
  · exact key 4 running4 (by omega) (by omega)
  by_cases h5 : d < 90
  · exact key 5 running5 (by omega) (by omega)
  by_cases h6 : d < 105
  · exact key 6 running6 (by omega) (by omega)
  by_cases h7 : d < 120
  · exact key 7 running7 (by omega) (by omega)
  by_cases h8 : d < 135
  · exact key 8 running8 (by omega) (by omega)
  by_cases h9 : d < 150
  · exact key 9 running9 (by omega) (by omega)
  by_cases h10 : d < 165
  · exact key 10 running10 (by omega) (by omega)
  by_cases h11 : d < 180
  · exact key 11 running11 (by omega) (by omega)
  by_cases h12 : d < 195
  · exact key 12 running12 (by omega) (by omega)
  by_cases h13 : d < 210
  · exact key 13 running13 (by omega) (by omega)
  by_cases h14 : d < 225
  · exact key 14 running14 (by omega) (by omega)
  by_cases h15 : d < 240
  · exact key 15 running15 (by omega) (by omega)
  by_cases h16 : d < 255
  · exact key 16 running16 (by omega) (by omega)
  omega

end Fptu.Guard
