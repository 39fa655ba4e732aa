import Verif.Props.D2a
/-!
# C50: the printer that chooses between the decimal and the exponential form
-/
namespace Fptu.Props
open Fptu.Arith Fptu.D2a Fptu.Num

/-- `t` is the sign `s`, a whole number without superfluous zeros, a point, `k` digits, and an exponent `x` unless that is zero; all digits together
make the number `n`. It denotes `n · 10 ^ (x - k)`. -/
structure PointText (t s : List Nat) (n k : Nat) (x : Int) : Prop where
  shape : ∃ I F E, t = s ++ I ++ [46] ++ F ++ E ∧ IsDecimalText I (textValue I) ∧ (∀ c ∈ F, 48 ≤ c ∧ c ≤ 57) ∧ F.length = k ∧
    textValue (I ++ F) = n ∧ ((x = 0 ∧ E = []) ∨ (x ≠ 0 ∧ ∃ X, E = 101 :: (if x < 0 then 45 else 43) :: X ∧ IsDecimalText X x.natAbs))

/-- The sign as the printer is asked to write it. -/
def signText (negative force : Bool) : List Nat := if negative then [45] else if force then [43] else []

theorem textValue_from (l : List Nat) (a : Nat) : l.foldl (fun acc c => acc * 10 + (c - 48)) a = a * 10 ^ l.length + textValue l := by
  unfold textValue
  induction l generalizing a with
  | nil => simp
  | cons c l ih =>
    rw [List.foldl_cons, List.foldl_cons, ih, ih (0 * 10 + (c - 48)), List.length_cons, pow_succ]
    ring

theorem textValue_append (l m : List Nat) : textValue (l ++ m) = textValue l * 10 ^ m.length + textValue m := by
  conv_lhs => unfold textValue
  rw [List.foldl_append, textValue_from m]
  rfl

theorem textValue_zeros (k : Nat) : textValue (List.replicate k 48) = 0 := by
  induction k with
  | zero => rfl
  | succ k ih => rw [List.replicate_succ', textValue_append, ih]; rfl

/-- A prefix of a number without superfluous zeros is such a number. -/
theorem prefix_decimal {D : List Nat} {n k : Nat} (hD : IsDecimalText D n) (hn : 0 < n) (hk : 0 < k) (Z : List Nat) (hZ : ∀ c ∈ Z, 48 ≤ c ∧ c ≤ 57) :
    IsDecimalText (D.take k ++ Z) (textValue (D.take k ++ Z)) := by
  have hne : D.take k ≠ [] := by
    intro c
    rcases List.take_eq_nil_iff.1 c with c | c
    · omega
    · exact hD.nonempty c
  refine ⟨fun c hc => ?_, rfl, ?_, fun h => ?_⟩
  · rcases List.mem_append.1 hc with hc | hc
    · exact hD.digits c (List.mem_of_mem_take hc)
    · exact hZ c hc
  · intro c; exact hne (List.append_eq_nil_iff.1 c).1
  · exfalso
    have : D.head? = some 48 := by
      cases hd : D with
      | nil => exact absurd hd hD.nonempty
      | cons d D' =>
        rw [hd] at h
        cases k with
        | zero => omega
        | succ k => simpa using h
    have := hD.canonical this
    have hv := hD.value
    rw [this] at hv
    simp [textValue] at hv
    omega

theorem shodanText_spec {ds : List Nat} {x : Int} (hg : Good ds) (hne : ds ≠ []) (hl : ds.length ≤ 17) (h1 : -359 ≤ x) (h2 : x ≤ 351)
    (fixed : Bool) {minExp maxExp : Int} (hmin : -14 ≤ minExp) (hmax : maxExp ≤ 14) (s : List Nat) :
    ∃ t n k y, shodanText fixed minExp maxExp ds x = some t ∧ PointText (s ++ t) s n k y ∧ (n : ℚ) * 10 ^ (y - k) = val ds * 10 ^ x ∧
      (k = 0 → fixed = false ∧ ds.length = 1 ∧ ¬ (minExp ≤ x ∧ x ≤ maxExp)) ∧
      (minExp ≤ ds.length + x - 1 → ds.length + x - 1 ≤ maxExp → y = 0) ∧ s.length + t.length ≤ s.length + 32 := by
  have hD := decimal_isDecimalText (val ds)
  have hp := hg.pos hne
  have hlen : (decimal (val ds)).length = ds.length := by rw [← chars_decimal hg hne, chars_length]
  have hds : 1 ≤ ds.length := by
    cases ds with
    | nil => exact absurd rfl hne
    | cons => simp
  unfold shodanText
  dsimp only
  rw [chars_decimal hg hne, hlen]
  generalize hT : decimal (val ds) = T at *
  generalize hL : ds.length = L at *
  generalize val ds = N at *
  have h48 : ∀ j, ∀ c ∈ List.replicate j 48, 48 ≤ c ∧ c ≤ 57 := fun j c hc => by rw [(List.mem_replicate.1 hc).2]; omega
  by_cases c : (L : Int) + x - 1 ≥ minExp ∧ (L : Int) + x - 1 ≤ maxExp
  · rw [if_pos c]
    by_cases c1 : x < 0
    · rw [if_pos c1]
      by_cases c2 : (L : Int) + x - 1 ≥ 0
      · rw [if_pos c2, if_neg (by omega)]
        refine ⟨_, N, (-x).toNat, 0, rfl, ⟨T.take (L + x).toNat, T.drop (L + x).toNat, [], by simp, ?_, ?_, ?_, ?_, .inl ⟨rfl, rfl⟩⟩, ?_, ?_, fun _ _ => rfl, ?_⟩
        · simpa using prefix_decimal hD hp (k := (L + x).toNat) (by omega) [] (by simp)
        · exact fun c hc => hD.digits c (List.mem_of_mem_drop hc)
        · rw [List.length_drop]; omega
        · rw [List.take_append_drop, hD.value]
        · rw [show (0 : Int) - ((-x).toNat : Int) = x by omega]
        · intro k; omega
        · rw [List.length_append, List.length_append, List.length_take, List.length_drop, List.length_singleton]; omega
      · rw [if_neg c2, if_neg (by omega)]
        refine ⟨_, N, (-x).toNat, 0, rfl, ⟨[48], List.replicate (-((L : Int) + x - 1) - 1).toNat 48 ++ T, [], by simp, ?_, ?_, ?_, ?_, .inl ⟨rfl, rfl⟩⟩, ?_, ?_,
          fun _ _ => rfl, ?_⟩
        · exact ⟨by decide, rfl, by decide, by decide⟩
        · intro c hc
          rcases List.mem_append.1 hc with hc | hc
          · exact h48 _ c hc
          · exact hD.digits c hc
        · rw [List.length_append, List.length_replicate]; omega
        · rw [textValue_append, textValue_append, textValue_zeros, hD.value]
          simp [textValue]
        · rw [show (0 : Int) - ((-x).toNat : Int) = x by omega]
        · intro k; omega
        · rw [List.length_append, List.length_append, List.length_replicate]; simp; omega
    · rw [if_neg c1, if_neg (by omega)]
      refine ⟨_, N * 10 ^ (x.toNat + 1), 1, 0, rfl, ⟨T ++ List.replicate x.toNat 48, [48], [], by simp, ?_, by decide, rfl, ?_, .inl ⟨rfl, rfl⟩⟩, ?_, ?_,
        fun _ _ => rfl, ?_⟩
      · have := prefix_decimal hD hp (k := L) (by omega) (List.replicate x.toNat 48) (h48 _)
        rwa [List.take_of_length_le (by omega)] at this
      · rw [textValue_append, textValue_append, textValue_zeros, hD.value, List.length_replicate]
        simp [textValue, pow_succ]
        ring
      · obtain ⟨j, rfl⟩ := Int.eq_ofNat_of_zero_le (show 0 ≤ x by omega)
        rw [show ((j : Int)).toNat = j by omega, show (0 : Int) - ((1 : Nat) : Int) = -1 by omega]
        push_cast
        rw [pow_succ, zpow_natCast]
        norm_num
        ring
      · intro k; omega
      · rw [List.length_append, List.length_append, List.length_replicate]; simp; omega
  · rw [if_neg c]
    have hexp : ∀ out, ∃ E, exponenta ((L : Int) + x - 1) out = some (out ++ E) ∧ E.length ≤ 5 ∧
        (((L : Int) + x - 1 = 0 ∧ E = []) ∨ ((L : Int) + x - 1 ≠ 0 ∧ ∃ X, E = 101 :: (if (L : Int) + x - 1 < 0 then 45 else 43) :: X ∧ IsDecimalText X ((L : Int) + x - 1).natAbs)) := by
      intro out
      unfold exponenta
      by_cases c0 : (L : Int) + x - 1 = 0
      · exact ⟨[], by rw [if_pos c0]; simp, by simp, .inl ⟨c0, rfl⟩⟩
      · have : (decimal ((L : Int) + x - 1).natAbs).length ≤ 3 := decimal_short (k := 2) (by omega)
        refine ⟨101 :: (if (L : Int) + x - 1 < 0 then 45 else 43) :: decimal ((L : Int) + x - 1).natAbs, ?_, by simp; omega, .inr ⟨c0, _, rfl, decimal_isDecimalText _⟩⟩
        rw [if_neg c0, if_neg (by omega), dec3_free (by omega)]
        simp
    have h10 : ∀ j : Nat, (10 : ℚ) ^ ((L : Int) + x - 1 - ((L - 1 + j : Nat) : Int)) * 10 ^ j = 10 ^ x := fun j => by
      rw [← zpow_natCast, ← zpow_add₀ (by norm_num)]
      congr 1
      push_cast [Nat.cast_sub hds]
      ring
    by_cases cf : fixed = true ∧ L = 1
    · rw [if_pos cf]
      obtain ⟨E, e1, e3, e2⟩ := hexp (List.take 1 T ++ [46] ++ List.drop 1 T ++ [48])
      refine ⟨_, N * 10, L, (L : Int) + x - 1, e1, ⟨T.take 1, T.drop 1 ++ [48], E, by simp, ?_, ?_, ?_, ?_, e2⟩, ?_, ?_, ?_, ?_⟩
      · simpa using prefix_decimal hD hp (k := 1) (by omega) [] (by simp)
      · intro c hc
        rcases List.mem_append.1 hc with hc | hc
        · exact hD.digits c (List.mem_of_mem_drop hc)
        · exact h48 1 c hc
      · rw [List.length_append, List.length_drop, List.length_singleton]; omega
      · rw [← List.append_assoc, List.take_append_drop, textValue_append, hD.value]
        simp [textValue]
      · have := h10 1
        rw [show L - 1 + 1 = L by omega, pow_one] at this
        push_cast
        rw [← this]
        ring
      · intro k; omega
      · intro k1 k2; exact absurd ⟨k1, k2⟩ c
      · simp; omega
    · rw [if_neg cf]
      obtain ⟨E, e1, e3, e2⟩ := hexp (List.take 1 T ++ [46] ++ List.drop 1 T ++ [])
      refine ⟨_, N, L - 1, (L : Int) + x - 1, e1, ⟨T.take 1, T.drop 1, E, by simp, ?_, ?_, ?_, ?_, e2⟩, ?_, ?_, ?_, ?_⟩
      · simpa using prefix_decimal hD hp (k := 1) (by omega) [] (by simp)
      · exact fun c hc => hD.digits c (List.mem_of_mem_drop hc)
      · rw [List.length_drop]; omega
      · rw [List.take_append_drop, hD.value]
      · have := h10 0
        rw [pow_zero, mul_one, Nat.add_zero] at this
        rw [this]
      · intro k
        have hL1 : L = 1 := by omega
        subst hL1
        refine ⟨by simpa using cf, rfl, fun k => c ⟨by omega, by omega⟩⟩
      · intro k1 k2; exact absurd ⟨k1, k2⟩ c
      · simp; omega

theorem good_ge {ds : List Nat} (h : Good ds) (hne : ds ≠ []) : 10 ^ (ds.length - 1) ≤ val ds := by
  induction ds with
  | nil => exact absurd rfl hne
  | cons d ds ih =>
    rw [val_cons]
    by_cases c : ds = []
    · subst c
      have := h.pos hne
      rw [val_cons] at this
      simp only [List.length_singleton, Nat.sub_self, pow_zero]
      exact this
    · have := ih h.tail c
      obtain ⟨j, hj⟩ : ∃ j, ds.length = j + 1 := ⟨ds.length - 1, by
        have := List.length_pos_iff.2 c; omega⟩
      rw [hj] at this
      rw [List.length_cons, hj, show j + 1 + 1 - 1 = j + 1 by omega, pow_succ]
      simp only [Nat.add_sub_cancel] at this
      omega

/-- **C50.** For every finite double and all thresholds from -14 to 14, the text that chooses between the decimal and the exponential form has the asked
sign, a point with a whole number before it, reads back as the same double, and has no exponent if its number is within the thresholds. A digit after the point
is missing in no decimal form, and nowhere if the printer appends it as intended. Missing: the thresholds 15 and -15 (refuted below). -/
theorem C50_shodan_partial (fixed accurate force : Bool) (minExp maxExp : Int) (hmin : -14 ≤ minExp) (hmax : maxExp ≤ 14) (bits : Nat) (v : ℚ)
    (hv : ieeeValue 52 11 bits = some v) :
    ∃ t n k y, shodan fixed accurate minExp maxExp force bits = some t ∧ t.length ≤ 33 ∧ PointText t (signText (isNegative bits) force) n k y ∧
      ReadsAs ((if isNegative bits then -1 else 1) * n * 10 ^ (y - k)) v ∧
      ((10 : ℚ) ^ minExp ≤ n * 10 ^ (y - k) → (n : ℚ) * 10 ^ (y - k) < 10 ^ (maxExp + 1) → y = 0 ∧ 0 < k) ∧
      (fixed = true → 0 < k) := by
  obtain ⟨h1, h2⟩ := ofBits_value hv
  have hsl : (signText (isNegative bits) force).length ≤ 1 := by unfold signText; cases isNegative bits <;> cases force <;> simp
  unfold shodan
  dsimp only
  rw [show (if isNegative bits then [45] else if force then [43] else [] : List Nat) = signText (isNegative bits) force from rfl]
  generalize isNegative bits = s at *
  rcases hd : Diy.ofBits bits with ⟨m, e⟩
  rw [hd] at h1 h2
  dsimp only at h1 h2
  rcases h2 with ⟨h2, h3⟩ | h2
  · subst h2 h3
    refine ⟨signText s force ++ [48, 46, 48], 0, 1, 0, rfl, by simp; omega, ⟨[48], [48], [], by simp, ⟨by decide, rfl, by decide, by decide⟩, by decide, rfl, rfl, .inl ⟨rfl, rfl⟩⟩,
      ?_, fun _ _ => ⟨rfl, by decide⟩, fun _ => by decide⟩
    rw [h1]; simpa using readsAs_zero
  · have hpos := h2.pos
    have hhi := h2.hi
    obtain ⟨ds, x, g1, g2, g3, g4, g5, g6, g7⟩ := generate_spec h2 accurate
    have hc : convert accurate false ⟨m, e⟩ = some (.digits ds x) := by
      unfold convert
      dsimp only
      rw [if_neg (by omega), if_neg (by omega), if_neg (by simp), g1]
      rfl
    obtain ⟨t, n, k, y, t1, t2, t3, t4, t5, t6⟩ := shodanText_spec g2 g3 g4 g5 g6 fixed hmin hmax (signText s force)
    have hds : 1 ≤ ds.length := List.length_pos_iff.2 g3
    refine ⟨signText s force ++ t, n, k, y, ?_, ?_, t2, ?_, ?_, ?_⟩
    · rw [hc, Option.bind_some]
      dsimp only
      rw [t1]
      rfl
    · rw [List.length_append]; omega
    · have hR := readsAs_of h2 g7 s
      rw [← h1, ← t3, ← mul_assoc] at hR
      exact hR
    · intro k1 k2
      rw [t3] at k1 k2
      have hN1 : ((10 : ℚ)) ^ (ds.length - 1) ≤ val ds := by exact_mod_cast good_ge g2 g3
      have hN2 : (val ds : ℚ) < 10 ^ ds.length := by exact_mod_cast Nat.ofDigits_lt_base_pow_length (b := 10) (by norm_num) g2.lt
      have hx : (0 : ℚ) < 10 ^ x := by positivity
      have q1 : (10 : ℚ) ^ ((ds.length : Int) - 1 + x) ≤ val ds * 10 ^ x := by
        rw [zpow_add₀ (by norm_num), show (ds.length : Int) - 1 = ((ds.length - 1 : Nat) : Int) by omega, zpow_natCast]
        exact mul_le_mul_of_nonneg_right hN1 hx.le
      have q2 : (val ds : ℚ) * 10 ^ x < 10 ^ ((ds.length : Int) + x) := by
        rw [zpow_add₀ (by norm_num), zpow_natCast]
        exact mul_lt_mul_of_pos_right hN2 hx
      have r1 := (zpow_lt_zpow_iff_right₀ (show (1 : ℚ) < 10 by norm_num)).1 (lt_of_le_of_lt k1 q2)
      have r2 := (zpow_lt_zpow_iff_right₀ (show (1 : ℚ) < 10 by norm_num)).1 (lt_of_le_of_lt q1 k2)
      refine ⟨t5 (by omega) (by omega), ?_⟩
      rcases Nat.eq_zero_or_pos k with z | z
      · exact absurd ⟨by have := (t4 z).2.1; omega, by have := (t4 z).2.1; omega⟩ (t4 z).2.2
      · exact z
    · intro hf
      rcases Nat.eq_zero_or_pos k with z | z
      · exact absurd (t4 z).1 (by simp [hf])
      · exact z

/-- 1234.5, -0.01, 5e-324 and 3 with a sign. -/
example : shodan false true (-4) 10 false 0x40934a0000000000 = some ("1234.5".toList.map Char.toNat) ∧
    shodan false true (-4) 10 false 0xbf847ae147ae147b = some ("-0.01".toList.map Char.toNat) ∧
    shodan true true (-4) 10 false 1 = some ("5.0e-324".toList.map Char.toNat) ∧
    shodan false false (-4) 10 true 0x4008000000000000 = some ("+3.0".toList.map Char.toNat) := by decide +kernel

/-- **C50, refuted part.** With the default thresholds, 1e22 is printed as `1.e+22`: the point is followed by no digit, although the code has a statement that
appends the missing zero (erthink_d2a.h:677-678 compares `end` with a `begin` that has just been moved). JSON, among others, rejects such a number. -/
theorem C50_digit_refuted :
    ∃ bits v, ieeeValue 52 11 bits = some v ∧ shodan false true (-4) 10 false bits = some ("1.e+22".toList.map Char.toNat) := by
  refine ⟨0x4480f0cf064dd592, _, rfl, by decide +kernel⟩

/-- **C50, refuted part.** The thresholds 15 and -15 are accepted at compile time, but a character of the text of 1e15 is never written and the sign of 1e-15 is
written before the buffer. -/
theorem C50_threshold_refuted :
    shodan false true (-4) 15 false 0x430c6bf526340000 = none ∧ shodan false true (-15) 10 false 0x3cd203af9ee75616 = none := by decide +kernel

end Fptu.Props
