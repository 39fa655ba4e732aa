import Verif.Model.Print
import Mathlib.Tactic.IntervalCases
import Mathlib.Tactic.NormNum
/-! Lemmas about the text of moments. -/
namespace Fptu.Print

theorem digits_length (w n : Nat) : (digits w n).length = w := by
  induction w generalizing n with
  | zero => rfl
  | succ w ih => simp [digits, ih]

theorem decLen_le (f n w : Nat) (h : n < 10 ^ (w + 1)) : decLen f n ≤ w + 1 := by
  induction f generalizing n w with
  | zero => simp [decLen]
  | succ f ih =>
    unfold decLen
    split
    · omega
    · cases w with
      | zero => rename_i hn; simp at h; omega
      | succ w =>
        have : n / 10 < 10 ^ (w + 1) := by
          rw [Nat.div_lt_iff_lt_mul (by decide)]
          rw [Nat.pow_succ] at h
          exact h
        have := ih _ _ this
        omega

theorem padDec_eq {w n : Nat} (h : n < 10 ^ (w + 1)) : padDec (w + 1) n = digits (w + 1) n := by
  unfold padDec
  rw [max_eq_left (decLen_le n n w h)]

theorem snprintf_all {cap : Nat} {l : List Nat} (h : l.length < cap) : snprintf cap l = l := by
  unfold snprintf
  exact List.take_of_length_le (by omega)

/-- Days from the first of January 1970 to the first of January of year `y`, in closed form. -/
def daysBefore (y : Nat) : Nat := 365 * (y - 1970) + ((y - 1) / 4 - (y - 1) / 100 + (y - 1) / 400) - 477

/-- Days from the first of January to the first day of month `m` (0 is January). -/
def monthsBefore (y m : Nat) : Nat :=
  [0, 31, 59, 90, 120, 151, 181, 212, 243, 273, 304, 334, 365].getD m 0 + (if leap y ∧ 2 ≤ m then 1 else 0)

theorem leap_iff (y : Nat) : leap y = true ↔ y % 4 = 0 ∧ (y % 100 ≠ 0 ∨ y % 400 = 0) := by
  simp [leap]

theorem div_succ (z k : Nat) (hk : 0 < k) : (z + 1) / k = z / k + (if (z + 1) % k = 0 then 1 else 0) := by
  rw [Nat.succ_div]
  simp only [Nat.dvd_iff_mod_eq_zero]

theorem daysBefore_succ {y : Nat} (h : 1970 ≤ y) : daysBefore (y + 1) = daysBefore y + yearLen y := by
  obtain ⟨z, rfl⟩ : ∃ z, y = z + 1 := ⟨y - 1, by omega⟩
  have h4 := div_succ z 4 (by decide)
  have h100 := div_succ z 100 (by decide)
  have h400 := div_succ z 400 (by decide)
  have hl := leap_iff (z + 1)
  have m1 : (z + 1) % 400 = 0 → (z + 1) % 100 = 0 := by omega
  have m2 : (z + 1) % 100 = 0 → (z + 1) % 4 = 0 := by omega
  have o1 : z / 100 + 473 ≤ z / 4 := by omega
  have o2 : 4 ≤ z / 400 := by omega
  unfold daysBefore yearLen
  rw [Nat.add_sub_cancel, Nat.add_sub_cancel, h4, h100, h400]
  generalize z / 4 = a at *
  generalize z / 100 = b at *
  generalize z / 400 = c at *
  clear h4 h100 h400
  by_cases hy : leap (z + 1) = true
  · rw [if_pos hy]
    rcases hl.1 hy with ⟨c4, c | c⟩
    · rw [if_pos c4, if_neg c, if_neg (fun e => c (m1 e))]; omega
    · rw [if_pos c4, if_pos (m1 c), if_pos c]; omega
  · rw [if_neg hy]
    have hn : ¬ _ := fun e => hy (hl.2 e)
    by_cases c4 : (z + 1) % 4 = 0
    · have c1 : (z + 1) % 100 = 0 := Classical.byContradiction fun e => hn ⟨c4, Or.inl e⟩
      have c2 : (z + 1) % 400 ≠ 0 := fun e => hn ⟨c4, Or.inr e⟩
      rw [if_pos c4, if_pos c1, if_neg c2]; omega
    · rw [if_neg c4, if_neg (fun e => c4 (m2 e)), if_neg (fun e => c4 (m2 (m1 e)))]; omega

theorem daysBefore_1970 : daysBefore 1970 = 0 := by decide

theorem monthsBefore_zero (y : Nat) : monthsBefore y 0 = 0 := by simp [monthsBefore]

theorem yearLen_pos (y : Nat) : 365 ≤ yearLen y := by unfold yearLen; split <;> omega

theorem walkYears_spec (f y d : Nat) (hy : 1970 ≤ y) (hf : d ≤ f) :
    y ≤ (walkYears f y d).1 ∧ (walkYears f y d).2 < yearLen (walkYears f y d).1 ∧
      daysBefore (walkYears f y d).1 + (walkYears f y d).2 = daysBefore y + d := by
  induction f generalizing y d with
  | zero =>
    have := yearLen_pos y
    exact ⟨Nat.le_refl _, (show d < yearLen y by omega), rfl⟩
  | succ f ih =>
    unfold walkYears
    by_cases h : d < yearLen y
    · rw [if_pos h]; exact ⟨Nat.le_refl _, h, rfl⟩
    · rw [if_neg h]
      have hp := yearLen_pos y
      obtain ⟨h1, h2, h3⟩ := ih (y + 1) (d - yearLen y) (by omega) (by omega)
      rw [daysBefore_succ hy] at h3
      exact ⟨by omega, h2, by omega⟩

theorem monthsBefore_succ {y m : Nat} (h : m < 12) : monthsBefore y (m + 1) = monthsBefore y m + monthLen y m := by
  unfold monthsBefore monthLen
  cases leap y <;> interval_cases m <;> simp

theorem monthsBefore_year (y : Nat) : monthsBefore y 12 = yearLen y := by
  unfold monthsBefore yearLen
  cases leap y <;> simp

theorem walkMonths_spec (f y m d : Nat) (hm : m + f = 11) (hd : monthsBefore y m + d < yearLen y) :
    (walkMonths f y m d).1 < 12 ∧ (walkMonths f y m d).2 < monthLen y (walkMonths f y m d).1 ∧
      monthsBefore y (walkMonths f y m d).1 + (walkMonths f y m d).2 = monthsBefore y m + d := by
  induction f generalizing m d with
  | zero =>
    have hs := monthsBefore_succ (y := y) (show m < 12 by omega)
    have : m = 11 := by omega
    subst this
    rw [monthsBefore_year] at hs
    exact ⟨(show 11 < 12 by decide), (show d < monthLen y 11 by omega), rfl⟩
  | succ f ih =>
    unfold walkMonths
    by_cases h : d < monthLen y m
    · rw [if_pos h]; exact ⟨by omega, h, rfl⟩
    · rw [if_neg h]
      have hs := monthsBefore_succ (y := y) (show m < 12 by omega)
      obtain ⟨h1, h2, h3⟩ := ih (m + 1) (d - monthLen y m) (by omega) (by omega)
      exact ⟨h1, h2, by omega⟩

theorem monthLen_le (y m : Nat) : monthLen y m ≤ 31 := by
  unfold monthLen; split <;> split <;> omega

theorem gmtime_spec (t : Nat) : 70 ≤ (gmtime t).year ∧ (gmtime t).mon < 12 ∧ 1 ≤ (gmtime t).mday ∧
    (gmtime t).mday ≤ monthLen ((gmtime t).year + 1900) (gmtime t).mon ∧
    (gmtime t).hour < 24 ∧ (gmtime t).min < 60 ∧ (gmtime t).sec < 60 ∧
    ((daysBefore ((gmtime t).year + 1900) + monthsBefore ((gmtime t).year + 1900) (gmtime t).mon +
      ((gmtime t).mday - 1)) * 86400 + (gmtime t).hour * 3600 + (gmtime t).min * 60 + (gmtime t).sec = t) := by
  obtain ⟨h1, h2, h3⟩ := walkYears_spec (t / 86400) 1970 (t / 86400) (Nat.le_refl _) (Nat.le_refl _)
  unfold gmtime
  dsimp only
  rw [daysBefore_1970] at h3
  generalize walkYears (t / 86400) 1970 (t / 86400) = w at h1 h2 h3 ⊢
  obtain ⟨y, d⟩ := w
  dsimp only at h1 h2 h3 ⊢
  obtain ⟨h4, h5, h6⟩ := walkMonths_spec 11 y 0 d rfl (by rw [monthsBefore_zero]; omega)
  rw [monthsBefore_zero] at h6
  generalize walkMonths 11 y 0 d = w at h4 h5 h6 ⊢
  obtain ⟨m, e⟩ := w
  dsimp only at h4 h5 h6 ⊢
  have hy : y - 1900 + 1900 = y := by omega
  rw [hy]
  refine ⟨by omega, h4, by omega, by omega, by omega, by omega, by omega, ?_⟩
  omega

theorem year_bound {y : Nat} (hy : 1970 ≤ y) (h : daysBefore y < 50000) : y < 2200 := by
  unfold daysBefore at h
  omega

/-- The nearest integer, ties to even, is a nearest integer. -/
theorem roundEven_near (n : Nat) {d : Nat} (hd : 0 < d) :
    2 * (roundEven n d * d) ≤ 2 * n + d ∧ 2 * n ≤ 2 * (roundEven n d * d) + d := by
  have h := Nat.div_add_mod n d
  have hr := Nat.mod_lt n hd
  have hc : d * (n / d) = n / d * d := Nat.mul_comm _ _
  unfold roundEven
  simp only
  split
  · omega
  · split
    · rw [Nat.add_mul]; omega
    · rename_i h1 h2
      rcases Nat.mod_two_eq_zero_or_one (n / d) with he | he
      · rw [he]; simp only [Nat.add_zero]; omega
      · rw [he, Nat.add_mul]; omega

theorem roundEven_mono {a b d : Nat} (hd : 0 < d) (h : a ≤ b) : roundEven a d ≤ roundEven b d := by
  have ha := Nat.div_add_mod a d
  have hb := Nat.div_add_mod b d
  have hra := Nat.mod_lt a hd
  have hrb := Nat.mod_lt b hd
  have hq : a / d ≤ b / d := Nat.div_le_div_right h
  unfold roundEven
  simp only
  rcases Nat.lt_or_ge (a / d) (b / d) with hlt | hge
  · have : ∀ q r : Nat, (if 2 * r < d then q else if 2 * r > d then q + 1 else q + q % 2) ≤ q + 1 := by
      intro q r; split
      · omega
      · split
        · omega
        · omega
    have h1 := this (a / d) (a % d)
    have h2 : ∀ q r : Nat, q ≤ (if 2 * r < d then q else if 2 * r > d then q + 1 else q + q % 2) := by
      intro q r; split
      · omega
      · split
        · omega
        · omega
    have h2 := h2 (b / d) (b % d)
    omega
  · have he : a / d = b / d := Nat.le_antisymm hq hge
    rw [he] at ha
    have hr : a % d ≤ b % d := by omega
    rw [he]
    split_ifs <;> omega

theorem append_lt {p p' s s' : List Nat} (hl : p.length = p'.length) (h : p ++ s < p' ++ s') :
    p < p' ∨ (p = p' ∧ s < s') := by
  induction p generalizing p' with
  | nil =>
    cases p' with
    | nil => exact Or.inr ⟨rfl, h⟩
    | cons a l => simp at hl
  | cons a l ih =>
    cases p' with
    | nil => simp at hl
    | cons b l' =>
      rw [List.cons_append, List.cons_append, List.cons_lt_cons_iff] at h
      rcases h with h | ⟨he, h⟩
      · exact Or.inl (List.cons_lt_cons_iff.2 (Or.inl h))
      · rcases ih (by simpa using hl) h with h | ⟨h1, h2⟩
        · exact Or.inl (List.cons_lt_cons_iff.2 (Or.inr ⟨he, h⟩))
        · exact Or.inr ⟨by rw [he, h1], h2⟩

theorem digits_lt {w n m : Nat} (hn : n < 10 ^ w) (hm : m < 10 ^ w) :
    (digits w n < digits w m → n < m) ∧ (digits w n = digits w m → n = m) := by
  induction w generalizing n m with
  | zero => simp at hn hm; subst hn; subst hm; simp [digits]
  | succ w ih =>
    have h1 : n / 10 < 10 ^ w := by
      rw [Nat.div_lt_iff_lt_mul (by decide)]; rwa [Nat.pow_succ] at hn
    have h2 : m / 10 < 10 ^ w := by
      rw [Nat.div_lt_iff_lt_mul (by decide)]; rwa [Nat.pow_succ] at hm
    obtain ⟨il, ie⟩ := ih h1 h2
    have hlen : (digits w (n / 10)).length = (digits w (m / 10)).length := by
      rw [digits_length, digits_length]
    constructor
    · intro h
      rcases append_lt hlen h with h | ⟨he, h⟩
      · have := il h; omega
      · have := ie he
        rw [List.cons_lt_cons_iff] at h
        rcases h with h | ⟨_, h⟩
        · omega
        · exact absurd h (List.not_lt_nil _)
    · intro h
      obtain ⟨ha, hb⟩ := List.append_inj h hlen
      have := ie ha
      simp at hb
      omega

end Fptu.Print
