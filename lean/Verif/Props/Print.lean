import Verif.Lemmas.Print
/-!
# C78: the text of a moment names that moment; names of types and of comparison results

The specification below is a reader of texts. It knows the calendar (leap years, lengths of months)
and adds up the days of all years and months that passed; it uses nothing of the model.
-/
namespace Fptu.Props
open Fptu.Print Fptu.Datetime

/-- The value of a row of decimal digits; nothing if some character is not a digit. -/
def decValue (l : List Nat) : Option Nat :=
  l.foldl (fun acc c => acc.bind fun a => if 48 ≤ c ∧ c ≤ 57 then some (a * 10 + (c - 48)) else none) (some 0)

/-- A moment as people write it. -/
structure Stamp where
  year : Nat
  month : Nat
  day : Nat
  hour : Nat
  minute : Nat
  second : Nat
  nano : Nat
deriving DecidableEq, Repr

/-- Reads `YYYY-MM-DDZhh:mm:ss.nnnnnnnnn` and nothing else. -/
def readStamp : List Nat → Option Stamp
  | [y0, y1, y2, y3, p0, m0, m1, p1, d0, d1, p2, h0, h1, p3, i0, i1, p4, s0, s1, p5,
      n0, n1, n2, n3, n4, n5, n6, n7, n8] =>
    if p0 = '-'.toNat ∧ p1 = '-'.toNat ∧ p2 = 'Z'.toNat ∧ p3 = ':'.toNat ∧ p4 = ':'.toNat ∧ p5 = '.'.toNat then
      (decValue [y0, y1, y2, y3]).bind fun y => (decValue [m0, m1]).bind fun m =>
      (decValue [d0, d1]).bind fun d => (decValue [h0, h1]).bind fun h =>
      (decValue [i0, i1]).bind fun i => (decValue [s0, s1]).bind fun s =>
      (decValue [n0, n1, n2, n3, n4, n5, n6, n7, n8]).bind fun n => some ⟨y, m, d, h, i, s, n⟩
    else none
  | _ => none

/-- Years of 366 days. -/
def IsLeap (y : Nat) : Prop := 400 ∣ y ∨ (4 ∣ y ∧ ¬ 100 ∣ y)

instance (y : Nat) : Decidable (IsLeap y) := by unfold IsLeap; infer_instance

/-- The length of a month, January is 1. -/
def daysInMonth (y m : Nat) : Nat :=
  if m = 2 then (if IsLeap y then 29 else 28)
  else if m ∈ [4, 6, 9, 11] then 30 else 31

/-- The date exists and the time of day exists. -/
structure Stamp.Valid (s : Stamp) : Prop where
  year : 1970 ≤ s.year
  month : 1 ≤ s.month ∧ s.month ≤ 12
  day : 1 ≤ s.day ∧ s.day ≤ daysInMonth s.year s.month
  hour : s.hour < 24
  minute : s.minute < 60
  second : s.second < 60
  nano : s.nano < 1000000000

/-- Days since the first of January 1970: the days of the years that passed, of the months of this year
that passed, and of this month. -/
def Stamp.days (s : Stamp) : Nat :=
  ((List.range (s.year - 1970)).map fun i => if IsLeap (1970 + i) then 366 else 365).sum +
  ((List.range (s.month - 1)).map fun i => daysInMonth s.year (i + 1)).sum + (s.day - 1)

/-- Nanoseconds since the start of 1970. -/
def Stamp.nanos (s : Stamp) : Nat :=
  (((s.days * 24 + s.hour) * 60 + s.minute) * 60 + s.second) * 1000000000 + s.nano

/-! ## Linking the reader to the text -/

theorem decValue_snoc (l : List Nat) (c v : Nat) (hl : decValue l = some v) (hc : c < 10) :
    decValue (l ++ [48 + c]) = some (v * 10 + c) := by
  unfold decValue at hl ⊢
  rw [List.foldl_append, hl]
  have h1 : 48 ≤ 48 + c ∧ 48 + c ≤ 57 := by omega
  simp [h1]

theorem decValue_digits (w n : Nat) : decValue (digits w n) = some (n % 10 ^ w) := by
  induction w generalizing n with
  | zero => simp [digits, decValue, Nat.mod_one]
  | succ w ih =>
    unfold digits
    rw [decValue_snoc _ _ _ (ih _) (Nat.mod_lt _ (by decide))]
    congr 1
    have h2 : n % 10 ^ (w + 1) = n % 10 + 10 * (n / 10 % 10 ^ w) := by
      rw [Nat.pow_succ, Nat.mul_comm, Nat.mod_mul]
    omega

/-- The text of a stamp. -/
def stampText (s : Stamp) : List Nat :=
  digits 4 s.year ++ [45] ++ digits 2 s.month ++ [45] ++ digits 2 s.day ++ [90] ++ digits 2 s.hour ++ [58] ++
    digits 2 s.minute ++ [58] ++ digits 2 s.second ++ [46] ++ digits 9 s.nano

theorem readStamp_text (s : Stamp) (h : s.Valid) (hy : s.year < 10000) : readStamp (stampText s) = some s := by
  have e4 := decValue_digits 4 s.year
  have e2 := fun n => decValue_digits 2 n
  have e9 := decValue_digits 9 s.nano
  have hm := h.month
  have hd := h.day
  have hl : daysInMonth s.year s.month ≤ 31 := by unfold daysInMonth; split_ifs <;> omega
  rw [Nat.mod_eq_of_lt (by simpa using hy)] at e4
  rw [Nat.mod_eq_of_lt (by simpa using h.nano)] at e9
  have e2' : ∀ n, n < 100 → decValue (digits 2 n) = some n := fun n hn => by
    rw [e2, Nat.mod_eq_of_lt (by simpa using hn)]
  have k1 := e2' s.month (by omega)
  have k2 := e2' s.day (by omega)
  have k3 := e2' s.hour (by have := h.hour; omega)
  have k4 := e2' s.minute (by have := h.minute; omega)
  have k5 := e2' s.second (by have := h.second; omega)
  simp only [digits, List.nil_append, List.cons_append] at e4 e9 k1 k2 k3 k4 k5
  simp only [stampText, digits, List.nil_append, List.cons_append, readStamp]
  rw [if_pos (by decide), e4, k1, k2, k3, k4, k5, e9]
  rfl

theorem isLeap_iff (y : Nat) : IsLeap y ↔ leap y = true := by
  rw [leap_iff]; unfold IsLeap
  simp only [Nat.dvd_iff_mod_eq_zero]
  omega

theorem daysInMonth_eq (y m : Nat) (h : m < 12) : daysInMonth y (m + 1) = monthLen y m := by
  unfold daysInMonth monthLen
  by_cases hl : leap y = true
  · simp only [(isLeap_iff y).2 hl, hl, if_true]
    interval_cases m <;> simp
  · have : ¬ IsLeap y := fun e => hl ((isLeap_iff y).1 e)
    simp only [this, hl, if_false]
    interval_cases m <;> simp

theorem sum_years (k : Nat) :
    ((List.range k).map fun i => if IsLeap (1970 + i) then 366 else 365).sum = daysBefore (1970 + k) := by
  induction k with
  | zero => simp [daysBefore_1970]
  | succ k ih =>
    rw [List.range_succ, List.map_append, List.sum_append, ih]
    rw [show 1970 + (k + 1) = 1970 + k + 1 by omega, daysBefore_succ (by omega)]
    simp only [List.map_cons, List.map_nil, List.sum_cons, List.sum_nil, yearLen, isLeap_iff]
    simp

theorem sum_months (y k : Nat) (h : k ≤ 12) :
    ((List.range k).map fun i => daysInMonth y (i + 1)).sum = monthsBefore y k := by
  induction k with
  | zero => simp [monthsBefore_zero]
  | succ k ih =>
    rw [List.range_succ, List.map_append, List.sum_append, ih (by omega), monthsBefore_succ (by omega)]
    simp [daysInMonth_eq y k (by omega)]

/-- The rounded moment in nanoseconds. -/
def nearest (t : Nat) : Nat := utcSeconds t * 1000000000 + roundEven (fractional t * 1000000000) (2 ^ 32)

/-- The stamp that the code prints for whole seconds `sec` and nanoseconds `n`. -/
def stampOf (sec n : Nat) : Stamp :=
  ⟨(gmtime sec).year + 1900, (gmtime sec).mon + 1, (gmtime sec).mday, (gmtime sec).hour, (gmtime sec).min,
    (gmtime sec).sec, n⟩

theorem nanos_arith {D h m s t : Nat} (e : D * 86400 + h * 3600 + m * 60 + s = t) (n : Nat) :
    (((D * 24 + h) * 60 + m) * 60 + s) * 1000000000 + n = t * 1000000000 + n := by
  have : ((D * 24 + h) * 60 + m) * 60 + s = t := by omega
  rw [this]

theorem stampOf_spec (sec n : Nat) (hs : sec ≤ 2 ^ 32) (hn : n < 1000000000) :
    (stampOf sec n).Valid ∧ (stampOf sec n).year < 10000 ∧
      (stampOf sec n).nanos = sec * 1000000000 + n := by
  obtain ⟨h1, h2, h3, h4, h5, h6, h7, h8⟩ := gmtime_spec sec
  have hb : daysBefore ((gmtime sec).year + 1900) < 50000 := by omega
  have := year_bound (by omega) hb
  refine ⟨⟨?_, ?_, ?_, h5, h6, h7, hn⟩, ?_, ?_⟩
  · show 1970 ≤ (gmtime sec).year + 1900; omega
  · show 1 ≤ (gmtime sec).mon + 1 ∧ (gmtime sec).mon + 1 ≤ 12; omega
  · refine ⟨h3, ?_⟩
    show (gmtime sec).mday ≤ daysInMonth ((gmtime sec).year + 1900) ((gmtime sec).mon + 1)
    rw [daysInMonth_eq _ _ h2]; exact h4
  · show (gmtime sec).year + 1900 < 10000; omega
  · unfold Stamp.nanos Stamp.days
    have ey : 1970 + ((stampOf sec n).year - 1970) = (gmtime sec).year + 1900 := by
      show 1970 + ((gmtime sec).year + 1900 - 1970) = _; omega
    rw [sum_years, ey, sum_months _ _ (by show (gmtime sec).mon + 1 - 1 ≤ 12; omega)]
    show ((((daysBefore ((gmtime sec).year + 1900) +
      monthsBefore ((gmtime sec).year + 1900) ((gmtime sec).mon + 1 - 1) + ((gmtime sec).mday - 1)) * 24 +
      (gmtime sec).hour) * 60 + (gmtime sec).min) * 60 + (gmtime sec).sec) * 1000000000 + n = _
    rw [Nat.add_sub_cancel]
    exact nanos_arith h8 n

theorem fractional_lt (t : Nat) : fractional t < 2 ^ 32 := Nat.mod_lt _ (by decide)

theorem round_le (f : Nat) (h : f < 2 ^ 32) : roundEven (f * 1000000000) (2 ^ 32) ≤ 1000000000 := by
  have := (roundEven_near (f * 1000000000) (show 0 < 2 ^ 32 by decide)).1
  omega

/-- The text for the carried seconds `u` and the nanoseconds `r`. -/
theorem text_eq (u r : Nat) (hu : u ≤ 2 ^ 32) (hr : r < 1000000000) :
    snprintf 64 (padDec 4 ((gmtime u).year + 1900) ++ [45] ++ padDec 2 ((gmtime u).mon + 1) ++ [45] ++
      padDec 2 (gmtime u).mday ++ [90] ++ padDec 2 (gmtime u).hour ++ [58] ++ padDec 2 (gmtime u).min ++ [58] ++
      padDec 2 (gmtime u).sec) ++ ([46] ++ digits 9 r) = stampText (stampOf u r) := by
  obtain ⟨hv, hy, -⟩ := stampOf_spec u r hu hr
  have hl : ∀ y m, daysInMonth y m ≤ 31 := by intro y m; unfold daysInMonth; split_ifs <;> omega
  have hd := Nat.le_trans hv.day.2 (hl _ _)
  have hm := hv.month.2
  have hh := hv.hour
  have hi := hv.minute
  have hs := hv.second
  unfold stampText
  unfold stampOf at hd hm hh hi hs hy ⊢
  dsimp only at hd hm hh hi hs hy ⊢
  generalize gmtime u = tm at *
  rw [padDec_eq (w := 3) (by omega), padDec_eq (w := 1) (by omega), padDec_eq (w := 1) (by omega),
    padDec_eq (w := 1) (by omega), padDec_eq (w := 1) (by omega), padDec_eq (w := 1) (by omega),
    snprintf_all (by simp [digits_length])]
  rw [← List.append_assoc]

theorem fracText_eq (f : Nat) (hf : f < 2 ^ 32) : ∃ c r, c ≤ 1 ∧ r < 1000000000 ∧
    fracText f = (48 + c) :: ([46] ++ digits 9 r) ∧
    roundEven (f * 1000000000) (2 ^ 32) = c * 1000000000 + r := by
  have hn := round_le f hf
  unfold fracText
  generalize roundEven (f * 1000000000) (2 ^ 32) = n at hn ⊢
  dsimp only
  have hc : n / 1000000000 ≤ 1 := by omega
  have hr : n % 1000000000 < 1000000000 := by omega
  have he : n = n / 1000000000 * 1000000000 + n % 1000000000 := by omega
  generalize n / 1000000000 = c at *
  generalize n % 1000000000 = r at *
  refine ⟨c, r, hc, hr, ?_, he⟩
  rw [padDec_eq (w := 0) (by omega), snprintf_all (by simp [digits_length])]
  simp only [digits, List.nil_append]
  rw [Nat.mod_eq_of_lt (show c < 10 by omega)]
  simp only [List.cons_append, List.nil_append]

theorem dateText_eq (t : Nat) (ht : t < 2 ^ 64) : ∃ st : Stamp, dateText t = stampText st ∧ st.Valid ∧
    st.year < 10000 ∧ st.nanos = nearest t := by
  obtain ⟨c, r, hc, hr, hf, he⟩ := fracText_eq _ (fractional_lt t)
  have hu : utcSeconds t < 2 ^ 32 := by unfold utcSeconds; omega
  obtain ⟨hv, hy, hn⟩ := stampOf_spec (utcSeconds t + c) r (by omega) hr
  refine ⟨_, ?_, hv, hy, ?_⟩
  · unfold dateText
    rw [hf]
    dsimp only [List.headD_cons, List.drop_one, List.tail_cons]
    rw [show utcSeconds t + (48 + c) - 48 = utcSeconds t + c by omega]
    exact text_eq _ _ (by omega) hr
  · rw [hn]
    unfold nearest
    rw [he]
    omega

theorem near_arith (u n f G P : Nat) (h : 2 * (n * P) ≤ 2 * (f * G) + P ∧ 2 * (f * G) ≤ 2 * (n * P) + P) :
    2 * ((u * G + n) * P) ≤ 2 * ((u * P + f) * G) + P ∧ 2 * ((u * P + f) * G) ≤ 2 * ((u * G + n) * P) + P := by
  have e1 : (u * G + n) * P = u * G * P + n * P := Nat.add_mul _ _ _
  have e2 : (u * P + f) * G = u * G * P + f * G := by rw [Nat.add_mul, Nat.mul_right_comm]
  rw [e1, e2]
  omega

theorem nearest_near (t : Nat) : 2 * (nearest t * 2 ^ 32) ≤ 2 * (t * 1000000000) + 2 ^ 32 ∧
    2 * (t * 1000000000) ≤ 2 * (nearest t * 2 ^ 32) + 2 ^ 32 := by
  have h := roundEven_near (fractional t * 1000000000) (show 0 < 2 ^ 32 by decide)
  have ht : t = utcSeconds t * 2 ^ 32 + fractional t := by unfold utcSeconds fractional; omega
  unfold nearest
  generalize roundEven (fractional t * 1000000000) (2 ^ 32) = n at h ⊢
  generalize fractional t = f at h ht
  generalize utcSeconds t = u at ht
  rw [ht]
  exact near_arith u n f _ _ h

theorem nearest_mono {t u : Nat} (h : t ≤ u) : nearest t ≤ nearest u := by
  have ht := round_le _ (fractional_lt t)
  unfold nearest
  rcases Nat.lt_or_ge (utcSeconds t) (utcSeconds u) with hlt | hge
  · omega
  · have he : utcSeconds t = utcSeconds u := by
      have : utcSeconds t ≤ utcSeconds u := Nat.div_le_div_right h
      omega
    have hf : fractional t ≤ fractional u := by unfold utcSeconds at he; unfold fractional; omega
    have := roundEven_mono (d := 2 ^ 32) (by decide) (Nat.mul_le_mul_right 1000000000 hf)
    omega

theorem daysBefore_mono {a b : Nat} (ha : 1970 ≤ a) (h : a ≤ b) : daysBefore a ≤ daysBefore b := by
  induction h with
  | refl => exact Nat.le_refl _
  | step h ih => rw [Nat.succ_eq_add_one, daysBefore_succ (by have : a ≤ _ := h; omega)]; omega

theorem monthsBefore_mono {y a b : Nat} (h : a ≤ b) (hb : b ≤ 12) : monthsBefore y a ≤ monthsBefore y b := by
  induction h with
  | refl => exact Nat.le_refl _
  | step h ih =>
    rw [Nat.succ_eq_add_one] at hb ⊢
    rw [monthsBefore_succ (by omega)]
    have := ih (by omega)
    omega

theorem Stamp.Valid.days_eq {s : Stamp} (h : s.Valid) :
    s.days = daysBefore s.year + monthsBefore s.year (s.month - 1) + (s.day - 1) ∧
    monthsBefore s.year (s.month - 1) + (s.day - 1) < monthsBefore s.year s.month := by
  have hy := h.year
  have hm := h.month
  have hd := h.day
  constructor
  · unfold Stamp.days
    rw [sum_years, sum_months _ _ (by omega), show 1970 + (s.year - 1970) = s.year by omega]
  · have h1 := daysInMonth_eq s.year (s.month - 1) (by omega)
    have h2 := monthsBefore_succ (y := s.year) (show s.month - 1 < 12 by omega)
    rw [show s.month - 1 + 1 = s.month by omega] at h1 h2
    omega

theorem stampText_lt {s u : Stamp} (hs : s.Valid) (hu : u.Valid) (hsy : s.year < 10000) (huy : u.year < 10000)
    (h : stampText s < stampText u) : s.nanos < u.nanos := by
  obtain ⟨ds, ls⟩ := hs.days_eq
  obtain ⟨du, lu⟩ := hu.days_eq
  have sy := hs.year
  have sm := hs.month
  have um := hu.month
  have sd := hs.day
  have ud := hu.day
  have s1 : daysInMonth s.year s.month ≤ 31 := by unfold daysInMonth; split_ifs <;> omega
  have s2 : daysInMonth u.year u.month ≤ 31 := by unfold daysInMonth; split_ifs <;> omega
  have sh := hs.hour; have uh := hu.hour
  have si := hs.minute; have ui := hu.minute
  have ss := hs.second; have us := hu.second
  have sn := hs.nano; have un := hu.nano
  have key : s.days < u.days ∨ (s.days = u.days ∧ (s.hour < u.hour ∨ (s.hour = u.hour ∧
      (s.minute < u.minute ∨ (s.minute = u.minute ∧ (s.second < u.second ∨ (s.second = u.second ∧
        s.nano < u.nano))))))) := by
    unfold stampText at h
    simp only [List.append_assoc] at h
    have two : ∀ {a b : Nat} {l k : List Nat} (c : Nat), a < 100 → b < 100 →
        digits 2 a ++ ([c] ++ l) < digits 2 b ++ ([c] ++ k) → a < b ∨ (a = b ∧ l < k) := by
      intro a b l k c ha hb h
      rcases append_lt (by rw [digits_length, digits_length]) h with h | ⟨he, h⟩
      · exact Or.inl ((digits_lt (w := 2) ha hb).1 h)
      · refine Or.inr ⟨(digits_lt (w := 2) ha hb).2 he, ?_⟩
        rcases append_lt rfl h with h | ⟨_, h⟩
        · exact absurd h (List.lt_irrefl _)
        · exact h
    rcases append_lt (by rw [digits_length, digits_length]) h with h | ⟨he, h⟩
    · have hy := (digits_lt (w := 4) hsy huy).1 h
      have h1 := daysBefore_mono (show 1970 ≤ s.year + 1 by omega) hy
      rw [daysBefore_succ sy] at h1
      have h2 := monthsBefore_mono (y := s.year) sm.2 (Nat.le_refl _)
      rw [monthsBefore_year] at h2
      omega
    · have hy := (digits_lt (w := 4) hsy huy).2 he
      replace h := (append_lt rfl h).resolve_left (List.lt_irrefl _)
      replace h := h.2
      rw [← hy] at du lu
      rcases two 45 (by omega) (by omega) h with hm | ⟨hm, h⟩
      · have h2 := monthsBefore_mono (y := s.year) (show s.month ≤ u.month - 1 by omega) (by omega)
        omega
      · rw [← hm] at du lu
        rcases two 90 (by omega) (by omega) h with hd | ⟨hd, h⟩
        · omega
        · refine Or.inr ⟨by omega, ?_⟩
          rcases two 58 (by omega) (by omega) h with hd | ⟨hd, h⟩
          · exact Or.inl hd
          · refine Or.inr ⟨hd, ?_⟩
            rcases two 58 (by omega) (by omega) h with hd | ⟨hd, h⟩
            · exact Or.inl hd
            · refine Or.inr ⟨hd, ?_⟩
              rcases two 46 (by omega) (by omega) h with hd | ⟨hd, h⟩
              · exact Or.inl hd
              · exact Or.inr ⟨hd, (digits_lt (w := 9) sn un).1 h⟩
  unfold Stamp.nanos
  clear ds ls du lu h
  omega

/-! ## The theorems -/

/-- Every moment prints as a date and a time that exist, and reading the text back gives the nanosecond
nearest to the moment: the error is at most half a nanosecond, whatever carries the rounding causes. -/
theorem C78_reads_back (t : Nat) (ht : t < 2 ^ 64) : ∃ st : Stamp, readStamp (dateText t) = some st ∧ st.Valid ∧
    2 * (st.nanos * 2 ^ 32) ≤ 2 * (t * 1000000000) + 2 ^ 32 ∧
    2 * (t * 1000000000) ≤ 2 * (st.nanos * 2 ^ 32) + 2 ^ 32 := by
  obtain ⟨st, h1, h2, h3, h4⟩ := dateText_eq t ht
  refine ⟨st, ?_, h2, ?_⟩
  · rw [h1]; exact readStamp_text st h2 h3
  · rw [h4]; exact nearest_near t

/-- The text is always 29 characters, so that texts of moments line up. -/
theorem C78_width (t : Nat) (ht : t < 2 ^ 64) : (dateText t).length = 29 := by
  obtain ⟨st, h1, _⟩ := dateText_eq t ht
  rw [h1]
  simp [stampText, digits_length]

/-- Sorting texts as strings of bytes never contradicts the order of the moments. -/
theorem C78_sorted (t u : Nat) (hu : u < 2 ^ 64) (h : t ≤ u) : dateText t ≤ dateText u := by
  obtain ⟨a, a1, a2, a3, a4⟩ := dateText_eq t (by omega)
  obtain ⟨b, b1, b2, b3, b4⟩ := dateText_eq u hu
  rw [a1, b1]
  refine List.not_lt.1 fun hlt => ?_
  have := stampText_lt b2 a2 b3 a3 hlt
  have := nearest_mono h
  omega

/-- Moments more than one nanosecond apart print in their order (five units of 2^-32 s are 1.16 ns). -/
theorem C78_sorted_strictly (t u : Nat) (hu : u < 2 ^ 64) (h : t + 5 ≤ u) : dateText t < dateText u := by
  rcases List.le_iff_lt_or_eq.1 (C78_sorted t u hu (by omega)) with h1 | h1
  · exact h1
  · exfalso
    obtain ⟨a, a1, a2, a3, a4⟩ := C78_reads_back t (by omega)
    obtain ⟨b, b1, b2, b3, b4⟩ := C78_reads_back u hu
    rw [h1, b1] at a1
    have := Option.some.inj a1
    subst this
    omega

/-- A moment built from whole nanoseconds prints as exactly these nanoseconds, although the stored value
is rounded down. (The accessor that converts the fraction back loses one nanosecond for many values.) -/
theorem C78_nanoseconds_exact (sec ns : Nat) (hs : sec < 2 ^ 32) (hn : ns < 1000000000) :
    ∃ st : Stamp, readStamp (dateText (fromNsec (sec * 1000000000 + ns))) = some st ∧ st.Valid ∧
      st.nanos = sec * 1000000000 + ns := by
  have he : fromNsec (sec * 1000000000 + ns) = sec * 2 ^ 32 + ns * 2 ^ 32 / 1000000000 := by
    unfold fromNsec scaleIn units2fractional nsPerSecond
    rw [show (sec * 1000000000 + ns) / 1000000000 = sec by omega,
      show (sec * 1000000000 + ns) % 1000000000 = ns by omega, Nat.shiftLeft_eq, Nat.shiftLeft_eq,
      Nat.mod_eq_of_lt (show sec * 2 ^ 32 < 2 ^ 64 by omega), Nat.mod_eq_of_lt (show ns * 2 ^ 32 < 2 ^ 64 by omega)]
    rw [← Nat.shiftLeft_eq sec, Nat.shiftLeft_add_eq_or_of_lt (by omega)]
  obtain ⟨st, h1, h2, h3, h4⟩ := C78_reads_back (fromNsec (sec * 1000000000 + ns)) (by rw [he]; omega)
  refine ⟨st, h1, h2, ?_⟩
  rw [he] at h3 h4
  omega

/-- A nanosecond moment is recovered from its text: different nanoseconds have different texts. -/
theorem C78_nanoseconds_differ (a b : Nat) (ha : a < 2 ^ 32 * 1000000000) (hb : b < 2 ^ 32 * 1000000000)
    (h : dateText (fromNsec a) = dateText (fromNsec b)) : a = b := by
  obtain ⟨s, h1, _, h2⟩ := C78_nanoseconds_exact (a / 1000000000) (a % 1000000000) (by omega) (Nat.mod_lt _ (by decide))
  obtain ⟨u, h3, _, h4⟩ := C78_nanoseconds_exact (b / 1000000000) (b % 1000000000) (by omega) (Nat.mod_lt _ (by decide))
  rw [show a / 1000000000 * 1000000000 + a % 1000000000 = a by omega] at h1 h2
  rw [show b / 1000000000 * 1000000000 + b % 1000000000 = b by omega] at h3 h4
  rw [h, h3] at h1
  have := Option.some.inj h1
  subst this
  omega

/-- The reader understands what it should, and the carry runs through the whole date. -/
example : (readStamp ("1999-12-31Z23:59:59.999999999".toList.map Char.toNat)).map Stamp.nanos =
    some 946684799999999999 := by decide +kernel
example : dateText (946684799 * 2 ^ 32 + (2 ^ 32 - 1)) = "2000-01-01Z00:00:00.000000000".toList.map Char.toNat := by
  decide +kernel
example : dateText (951782400 * 2 ^ 32 + 2 ^ 31) = "2000-02-29Z00:00:00.500000000".toList.map Char.toNat := by
  decide +kernel
example : dateText (2 ^ 64 - 1) = "2106-02-07Z06:28:16.000000000".toList.map Char.toNat := by decide +kernel
/-- Two moments half a nanosecond apart may print alike: `C78_sorted_strictly` needs some distance. -/
example : dateText 1 < dateText 6 ∧ dateText 0 = dateText 2 := by decide +kernel

/-! ## Names of types and of comparison results -/

/-- Each type of a field has a name of its own. -/
theorem C78_type_names (a b : Nat) (ha : a < 32) (hb : b < 32) (h : typeName a = typeName b) : a = b :=
  (show ∀ a < 32, ∀ b < 32, typeName a = typeName b → a = b by decide +kernel) a ha b hb h

/-- Each result of a comparison, and each set of results that has a name, prints differently. -/
theorem C78_lge_names (a b : Nat) (ha : a < 16) (hb : b < 16) (h : lgeName a = lgeName b) : a = b :=
  (show ∀ a < 16, ∀ b < 16, lgeName a = lgeName b → a = b by decide +kernel) a ha b hb h

end Fptu.Props
