import Verif.Model.D2a
import Verif.Lemmas.Arith
import Mathlib.Data.Nat.Digits.Defs
import Mathlib.Tactic.Ring
import Mathlib.Tactic.Linarith
import Mathlib.Tactic.NormNum
import Mathlib.Tactic.FieldSimp
import Mathlib.Data.Rat.Defs
import Mathlib.Algebra.Order.Field.Rat
import Mathlib.Algebra.Order.Field.Power
/-!
# Digit generation of `erthink_d2a.h`
-/
namespace Fptu.D2a
open Fptu.Arith

theorem decDigits_spec {n : Nat} (h0 : 0 < n) (h : n ≤ 10 ^ 9) :
    10 ^ (decDigits n - 1) ≤ n ∧ n < 10 ^ decDigits n ∧ 0 < decDigits n ∧ decDigits n ≤ 10 := by
  unfold decDigits
  split_ifs <;> (norm_num at *; omega)

theorem skipZeros_spec {n : Nat} (h0 : 0 < n) (h : n ≤ 10 ^ 9) :
    skipZeros n (decDigits n - 1) = if decDigits n = 1 then (n, n, 0) else
      (n / 10 ^ (decDigits n - 1), n % 10 ^ (decDigits n - 1), decDigits n - 1) := by
  obtain ⟨k1, k2, k3, _⟩ := decDigits_spec h0 h
  generalize decDigits n = D at *
  match D with
  | 0 => omega
  | 1 => rw [if_pos rfl]; rfl
  | D + 2 =>
    rw [if_neg (by omega)]
    show (if n / 10 ^ (D + 1) = 0 then _ else _) = _
    rw [if_neg]
    · rfl
    · have : 0 < n / 10 ^ (D + 1) := Nat.div_pos k1 (Nat.pos_of_ne_zero (by positivity))
      omega

/-- Value of digits given last first. -/
abbrev val (ds : List Nat) : Nat := Nat.ofDigits 10 ds

theorem val_cons (d : Nat) (ds : List Nat) : val (d :: ds) = d + 10 * val ds := by
  show Nat.ofDigits 10 _ = _
  rw [Nat.ofDigits_cons]

/-- Digits below ten, the first one (the last of the list) not zero. -/
structure Good (ds : List Nat) : Prop where
  lt : ∀ d ∈ ds, d < 10
  lead : ∀ h : ds ≠ [], ds.getLast h ≠ 0

theorem Good.nil : Good [] := ⟨by simp, fun h => absurd rfl h⟩

theorem Good.cons {d : Nat} {ds : List Nat} (h : Good ds) (hd : d < 10) (h0 : ds = [] → d ≠ 0) : Good (d :: ds) := by
  refine ⟨fun x hx => ?_, fun _ => ?_⟩
  · rcases List.mem_cons.1 hx with rfl | hx
    · exact hd
    · exact h.lt x hx
  · by_cases c : ds = []
    · subst c; exact h0 rfl
    · rw [List.getLast_cons c]; exact h.lead c

theorem Good.tail {d : Nat} {ds : List Nat} (h : Good (d :: ds)) : Good ds := by
  refine ⟨fun x hx => h.lt x (List.mem_cons_of_mem _ hx), fun c => ?_⟩
  rw [← List.getLast_cons (a := d) c]
  exact h.lead _

theorem Good.set {d e : Nat} {ds : List Nat} (h : Good (d :: ds)) (he : e ≤ d) (h0 : ds = [] → e ≠ 0) : Good (e :: ds) :=
  h.tail.cons (lt_of_le_of_lt he (h.lt d (List.mem_cons_self ..))) h0

theorem Good.pos {ds : List Nat} (h : Good ds) (hn : ds ≠ []) : 0 < val ds := by
  induction ds with
  | nil => exact absurd rfl hn
  | cons d ds ih =>
    rw [val_cons]
    by_cases c : ds = []
    · subst c
      have := h.lead hn
      simp only [List.getLast_singleton] at this
      omega
    · have := ih h.tail c
      omega

theorem chars_decimal {ds : List Nat} (h : Good ds) (hn : ds ≠ []) : chars ds = decimal (val ds) := by
  induction ds with
  | nil => exact absurd rfl hn
  | cons d ds ih =>
    have hd := h.lt d (List.mem_cons_self ..)
    by_cases c : ds = []
    · subst c
      rw [decimal_lt (by rw [val_cons]; show d + 10 * 0 < 10; omega), val_cons]
      rfl
    · have e := ih h.tail c
      have p := h.tail.pos c
      rw [decimal_ge (by rw [val_cons]; omega), val_cons, show (d + 10 * val ds) / 10 = val ds by omega,
        show (d + 10 * val ds) % 10 = d by omega, ← e]
      unfold chars
      rw [List.reverse_cons, List.map_append]
      rfl

theorem chars_length (ds : List Nat) : (chars ds).length = ds.length := by
  unfold chars; rw [List.length_map, List.length_reverse]

/-! ## adjust -/

theorem adjustLoop_spec {delta tk upper : Nat} (ht : delta + tk < 2 ^ 64) :
    ∀ {d rest T N : Nat}, rest ≤ delta → (10 * N + d) * tk + rest = T →
      match adjustLoop delta tk upper d rest with
      | some d' => d' ≤ d ∧ (d' = 0 → d = 0) ∧ ∃ r, r ≤ delta ∧ (10 * N + d') * tk + r = T
      | none => ∃ r, r ≤ delta ∧ (10 * N) * tk + r = T := by
  intro d
  induction d with
  | zero =>
    intro rest T N hr h
    unfold adjustLoop
    split
    · rename_i e
      split_ifs at e
      injection e with e
      subst e
      exact ⟨Nat.le_refl _, fun _ => rfl, rest, hr, h⟩
    · exact ⟨rest, hr, h⟩
  | succ d ih =>
    intro rest T N hr h
    unfold adjustLoop
    by_cases c : closer delta tk upper rest = true
    · rw [if_pos c]
      have hw : (tk + rest) % 2 ^ 64 = tk + rest := Nat.mod_eq_of_lt (by omega)
      have hw' : (rest + tk) % 2 ^ 64 = rest + tk := Nat.mod_eq_of_lt (by omega)
      have hd : tk + rest ≤ delta := by
        unfold closer at c
        rw [Bool.and_eq_true, decide_eq_true_eq, hw] at c
        exact c.1
      have e : (10 * N + (d + 1)) * tk + rest = (10 * N + d) * tk + (rest + tk) := by ring
      by_cases z : d = 0
      · subst z
        rw [if_pos rfl]
        exact ⟨rest + tk, by omega, by rw [← h, e]; rfl⟩
      · rw [if_neg z, hw']
        have k := ih (rest := rest + tk) (T := T) (N := N) (by omega) (by rw [← h, e])
        cases r : adjustLoop delta tk upper d (rest + tk) with
        | none => rw [r] at k; exact k
        | some d' =>
          rw [r] at k
          exact ⟨by have := k.1; omega, fun z' => absurd (k.2.1 z') z, k.2.2⟩
    · rw [if_neg c]
      exact ⟨Nat.le_refl _, fun z => z, rest, hr, h⟩

theorem adjustLoop_idle {delta tk upper d rest : Nat} (h : delta < tk) (ht : tk + rest < 2 ^ 64) :
    adjustLoop delta tk upper d rest = some d := by
  have c : ¬ closer delta tk upper rest = true := by
    unfold closer
    rw [Bool.and_eq_true, decide_eq_true_eq, Nat.mod_eq_of_lt ht]
    omega
  cases d <;> (unfold adjustLoop; rw [if_neg c])

/-- What the digits stand for: `T` in units of `tk`, cut by at most `delta`. -/
structure Cut (ds : List Nat) (x : Int) (exp10 : Int) (T delta tk : Nat) : Prop where
  good : Good ds
  ne : ds ≠ []
  val : ∃ j r : Nat, x = exp10 + j ∧ j ≤ 1 ∧ r ≤ delta ∧ val ds * 10 ^ j * tk + r = T

theorem adjust_spec {accurate : Bool} {ds : List Nat} {delta rest tk upper T : Nat} {exp10 : Int} (hg : Good ds) (hn : ds ≠ [])
    (hr : rest ≤ delta) (h : val ds * tk + rest = T) (hT : delta < T) (ht : delta + tk < 2 ^ 64) :
    ∃ ds' x, adjust accurate ds delta rest tk upper exp10 = some (ds', x) ∧ Cut ds' x exp10 T delta tk ∧ ds'.length ≤ ds.length := by
  unfold adjust
  cases accurate with
  | false => exact ⟨ds, exp10, rfl, ⟨hg, hn, 0, rest, by simp, by omega, hr, by simpa using h⟩, Nat.le_refl _⟩
  | true =>
    rw [if_pos rfl]
    match ds with
    | [] => exact absurd rfl hn
    | d :: ds =>
      rw [val_cons, Nat.add_comm d] at h
      have k := adjustLoop_spec (upper := upper) ht hr h
      dsimp only
      cases e : adjustLoop delta tk upper d rest with
      | none =>
        rw [e] at k
        obtain ⟨r, k1, k2⟩ := k
        refine ⟨ds, exp10 + 1, rfl, ⟨hg.tail, fun z => ?_, 1, r, rfl, Nat.le_refl _, k1, by rw [← k2]; ring⟩, Nat.le_succ _⟩
        subst z
        have : (10 * val []) * tk = 0 := by show 10 * 0 * tk = 0; omega
        omega
      | some d' =>
        rw [e] at k
        obtain ⟨k1, k2, r, k3, k4⟩ := k
        refine ⟨d' :: ds, exp10, rfl, ⟨hg.set k1 fun z z' => ?_, List.cons_ne_nil _ _, 0, r, by simp, by omega, k3, ?_⟩, Nat.le_refl _⟩
        · subst z
          exact hg.lead (List.cons_ne_nil _ _) (k2 z')
        · rw [val_cons, Nat.add_comm d', ← k4]; ring

/-! ## The digits after the point -/

theorem tailLoop_spec {shift top d0 : Nat} (hU : 10 * 2 ^ shift ≤ 2 ^ 64) :
    ∀ {fuel digit tail n : Nat} {ds : List Nat}, (10 * val ds + digit) * 2 ^ shift + tail = top * 10 ^ n → tail < 2 ^ shift →
      2 ^ shift ≤ d0 * 10 ^ (n + fuel) → Good (digit :: ds) →
      ∃ ds' tail' n', tailLoop shift fuel digit tail (d0 * 10 ^ n) n ds = some (ds', tail', d0 * 10 ^ n', n') ∧ n ≤ n' ∧ n' ≤ n + fuel ∧
        val ds' * 2 ^ shift + tail' = top * 10 ^ n' ∧ tail' < 2 ^ shift ∧ tail' ≤ d0 * 10 ^ n' ∧ Good ds' ∧ ds' ≠ [] ∧
        ds'.length + n = ds.length + 1 + n' ∧ (n < n' → d0 * 10 ^ (n' - 1) < 2 ^ shift) := by
  intro fuel
  induction fuel with
  | zero =>
    intro digit tail n ds h ht hf hg
    unfold tailLoop
    rw [if_neg (by rw [Nat.add_zero] at hf; omega)]
    exact ⟨_, tail, n, rfl, Nat.le_refl _, Nat.le_refl _, by rw [val_cons, Nat.add_comm digit]; exact h, ht, by rw [Nat.add_zero] at hf; omega, hg,
      List.cons_ne_nil _ _, by rw [List.length_cons], fun c => absurd c (Nat.lt_irrefl _)⟩
  | succ fuel ih =>
    intro digit tail n ds h ht hf hg
    unfold tailLoop
    by_cases c : tail > d0 * 10 ^ n
    · rw [if_pos c]
      dsimp only
      have w1 : tail * 10 % 2 ^ 64 = tail * 10 := Nat.mod_eq_of_lt (by omega)
      have w2 : d0 * 10 ^ n * 10 % 2 ^ 64 = d0 * 10 ^ (n + 1) := by
        rw [Nat.mod_eq_of_lt (by omega), pow_succ, Nat.mul_assoc]
      rw [w1, w2]
      have hp : 0 < 2 ^ shift := Nat.pos_of_ne_zero (by positivity)
      have hdm := Nat.div_add_mod (tail * 10) (2 ^ shift)
      have hd : tail * 10 / 2 ^ shift < 10 := Nat.div_lt_of_lt_mul (by omega)
      obtain ⟨ds', tail', n', e, k1, k1', k2, k3, k4, k5, k6, k7, k8⟩ :=
        ih (digit := tail * 10 / 2 ^ shift) (tail := tail * 10 % 2 ^ shift) (n := n + 1) (ds := digit :: ds) (by
          rw [val_cons, Nat.add_comm digit, pow_succ, ← Nat.mul_assoc, ← h]
          calc (10 * (10 * val ds + digit) + tail * 10 / 2 ^ shift) * 2 ^ shift + tail * 10 % 2 ^ shift
              = 10 * ((10 * val ds + digit) * 2 ^ shift) + (2 ^ shift * (tail * 10 / 2 ^ shift) + tail * 10 % 2 ^ shift) := by ring
            _ = _ := by rw [hdm]; ring)
        (Nat.mod_lt _ hp) (by rw [show n + 1 + fuel = n + (fuel + 1) by omega]; exact hf)
        (hg.cons hd fun z => absurd z (List.cons_ne_nil _ _))
      refine ⟨ds', tail', n', e, by omega, by omega, k2, k3, k4, k5, k6, by rw [List.length_cons] at k7; omega, fun _ => ?_⟩
      by_cases z : n + 1 < n'
      · exact k8 z
      · have : n' = n + 1 := by omega
        subst this
        show d0 * 10 ^ n < _
        omega
    · rw [if_neg c]
      exact ⟨_, tail, n, rfl, Nat.le_refl _, by omega, by rw [val_cons, Nat.add_comm digit]; exact h, ht, by omega, hg,
        List.cons_ne_nil _ _, by rw [List.length_cons], fun c => absurd c (Nat.lt_irrefl _)⟩

/-! ## The digits before the point -/

theorem bodyLoop_spec {shift top tail delta : Nat} (hT : top < 2 ^ 64) (ht : tail < 2 ^ shift) :
    ∀ {k digit body : Nat} {ds : List Nat}, 0 < k → ((10 * val ds + digit) * 10 ^ k + body) * 2 ^ shift + tail = top → body < 10 ^ k →
      Good (digit :: ds) →
      match bodyLoop shift tail delta k digit body ds with
      | .done digit' ds' => (10 * val ds' + digit') * 2 ^ shift + tail = top ∧ Good (digit' :: ds') ∧ ds'.length = ds.length + k
      | .early ds' kappa => 0 < kappa ∧ (∃ left, left < delta ∧ tail ≤ left ∧ val ds' * (10 ^ kappa * 2 ^ shift) + left = top) ∧ Good ds' ∧ ds' ≠ [] ∧
          ds'.length + kappa = ds.length + k + 1 := by
  intro k
  induction k with
  | zero => intro _ _ _ h; exact absurd h (Nat.lt_irrefl _)
  | succ k ih =>
    intro digit body ds _ h hb hg
    unfold bodyLoop
    by_cases c : k = 0
    · subst c
      rw [if_pos rfl]
      refine ⟨?_, hg.cons (by simpa using hb) (fun z => absurd z (List.cons_ne_nil _ _)), by simp⟩
      rw [val_cons, Nat.add_comm digit, ← h]; ring
    · rw [if_neg c]
      dsimp only
      have hp : 0 < 10 ^ k := Nat.pos_of_ne_zero (by positivity)
      have hdm := Nat.div_add_mod body (10 ^ k)
      have hm := Nat.mod_lt body hp
      have hd : body / 10 ^ k < 10 := Nat.div_lt_of_lt_mul (by rw [← pow_succ]; exact hb)
      generalize body / 10 ^ k = d at *
      generalize body % 10 ^ k = b at *
      have e : ((10 * (10 * val ds + digit) + d) * 10 ^ k + b) * 2 ^ shift + tail = top := by
        rw [← h, ← hdm]; ring
      have e2 : (10 * (10 * val ds + digit) + d) * (10 ^ k * 2 ^ shift) + (b * 2 ^ shift + tail) = top := by rw [← e]; ring
      have w : (b * 2 ^ shift + tail) % 2 ^ 64 = b * 2 ^ shift + tail := Nat.mod_eq_of_lt (by omega)
      rw [w]
      have hv : val (digit :: ds) = 10 * val ds + digit := by rw [val_cons, Nat.add_comm]
      have hg' : Good (d :: digit :: ds) := hg.cons hd fun z => absurd z (List.cons_ne_nil _ _)
      by_cases c1 : b * 2 ^ shift + tail < delta
      · rw [if_pos c1]
        by_cases c2 : d ≠ 0
        · rw [if_pos c2]
          refine ⟨by omega, ⟨_, c1, by omega, ?_⟩, hg', List.cons_ne_nil _ _, ?_⟩
          · rw [val_cons, hv, Nat.add_comm d]; exact e2
          · simp only [List.length_cons]; omega
        · rw [if_neg c2]
          have c2 : d = 0 := by omega
          subst c2
          refine ⟨by omega, ⟨_, c1, by omega, ?_⟩, hg, List.cons_ne_nil _ _, ?_⟩
          · rw [hv, ← e2]; ring
          · simp only [List.length_cons]; omega
      · rw [if_neg c1]
        have r := ih (digit := d) (body := b) (ds := digit :: ds) (by omega) (by rw [hv]; exact e) hm hg'
        cases z : bodyLoop shift tail delta k d b (digit :: ds) with
        | done x y =>
          rw [z] at r
          exact ⟨r.1, r.2.1, by have := r.2.2; simp only [List.length_cons] at this; omega⟩
        | early x y =>
          rw [z] at r
          exact ⟨r.1, r.2.1, r.2.2.1, r.2.2.2.1, by have := r.2.2.2.2; simp only [List.length_cons] at this; omega⟩

/-! ## make_digits -/

/-- The digits stand for a number in `[top - d0, top]`, in units of `2 ^ -shift · 10 ^ exp10`. -/
structure Made (ds : List Nat) (x exp10 : Int) (top d0 shift : Nat) : Prop where
  good : Good ds
  ne : ds ≠ []
  exp : exp10 - 19 ≤ x ∧ x ≤ exp10 + 11
  lower : (top : ℚ) - d0 ≤ val ds * 10 ^ (x - exp10) * 2 ^ shift
  upper : (val ds : ℚ) * 10 ^ (x - exp10) * 2 ^ shift ≤ top
  length : ds.length ≤ 11 ∨ 10 ^ (ds.length - 2) * d0 < top

theorem made_early {ds : List Nat} {x exp10 : Int} {top d0 shift kappa n : Nat} (hk : kappa ≤ 10) (hl : n ≤ 11) (hn : ds.length ≤ n)
    (c : Cut ds x (exp10 + kappa) top d0 (10 ^ kappa * 2 ^ shift)) : Made ds x exp10 top d0 shift := by
  obtain ⟨j, r, h1, h2, h3, h4⟩ := c.val
  have e : x - exp10 = ((kappa + j : Nat) : Int) := by rw [h1]; push_cast; ring
  have q : (val ds : ℚ) * 10 ^ (x - exp10) * 2 ^ shift + r = top := by
    rw [e, zpow_natCast, ← h4]; push_cast; ring
  have h3' : (r : ℚ) ≤ d0 := by exact_mod_cast h3
  have h0 : (0 : ℚ) ≤ r := by exact_mod_cast Nat.zero_le r
  exact ⟨c.good, c.ne, by omega, by linarith, by linarith, Or.inl (by omega)⟩

theorem made_tail {accurate : Bool} {shift gap top d0 digit tail : Nat} {exp10 : Int} {ds : List Nat} (hU : 10 * 2 ^ shift ≤ 2 ^ 64)
    (hU' : 2 ^ shift ≤ d0 * 10 ^ 19) (hd : d0 < 10 * 2 ^ shift) (hs : 11 * 2 ^ shift < 2 ^ 64) (hT : d0 < top)
    (h : (10 * val ds + digit) * 2 ^ shift + tail = top) (ht : tail < 2 ^ shift) (hg : Good (digit :: ds))
    (hl : ds.length ≤ 10) (hp : 10 ^ ds.length * 2 ^ shift ≤ top) :
    ∃ ds' x, finishTail accurate shift gap exp10 digit tail d0 0 ds = some (ds', x) ∧ Made ds' x exp10 top d0 shift := by
  obtain ⟨ds1, t1, n, e, _, k1, k2, k3, k4, k5, k6, k7, k8⟩ := tailLoop_spec (d0 := d0) hU (fuel := 19) (n := 0) (top := top)
    (by rw [pow_zero, Nat.mul_one]; exact h) ht (by rw [Nat.zero_add]; exact hU') hg
  rw [pow_zero, Nat.mul_one] at e
  have hdn : d0 * 10 ^ n < 10 * 2 ^ shift := by
    cases n with
    | zero => simpa using hd
    | succ n =>
      have := k8 (by omega)
      rw [Nat.add_sub_cancel] at this
      rw [pow_succ, ← Nat.mul_assoc]
      omega
  have hT' : d0 * 10 ^ n < top * 10 ^ n := Nat.mul_lt_mul_of_pos_right hT (Nat.pos_of_ne_zero (by positivity))
  obtain ⟨ds', x, a1, a2, a3⟩ := adjust_spec (accurate := accurate) (upper := gap * 10 ^ n % 2 ^ 64) (exp10 := exp10 - n) k5 k6 k4 k2 hT' (by omega)
  refine ⟨ds', x, ?_, ?_⟩
  · unfold finishTail
    rw [show 19 - 0 = 19 from rfl, e]
    exact a1
  · obtain ⟨j, r, h1, h2, h3, h4⟩ := a2.val
    have e : x - exp10 = (j : Int) - n := by rw [h1]; ring
    have hn : (10 : ℚ) ^ n ≠ 0 := by positivity
    have q : (val ds' : ℚ) * 10 ^ (x - exp10) * 2 ^ shift * 10 ^ n + r = top * 10 ^ n := by
      have h4 : (val ds' : ℚ) * 10 ^ j * 2 ^ shift + r = top * 10 ^ n := by exact_mod_cast h4
      rw [e, zpow_sub₀ (by norm_num), zpow_natCast, zpow_natCast, ← h4]
      field_simp
    have h3' : (r : ℚ) ≤ d0 * 10 ^ n := by exact_mod_cast h3
    have h0 : (0 : ℚ) ≤ r := by exact_mod_cast Nat.zero_le r
    have hn' : (0 : ℚ) < 10 ^ n := by positivity
    refine ⟨a2.good, a2.ne, by omega, ?_, ?_, ?_⟩
    · refine le_of_mul_le_mul_right ?_ hn'
      rw [sub_mul]; linarith
    · refine le_of_mul_le_mul_right ?_ hn'
      linarith
    · rcases Nat.eq_zero_or_pos n with z | z
      · left; omega
      · right
        have k8 := k8 z
        have hlen : ds'.length - 2 ≤ ds.length + (n - 1) := by omega
        calc 10 ^ (ds'.length - 2) * d0 ≤ 10 ^ (ds.length + (n - 1)) * d0 :=
              Nat.mul_le_mul_right _ (Nat.pow_le_pow_right (by norm_num) hlen)
          _ = 10 ^ ds.length * (d0 * 10 ^ (n - 1)) := by rw [pow_add]; ring
          _ < 10 ^ ds.length * 2 ^ shift := Nat.mul_lt_mul_of_pos_left k8 (Nat.pos_of_ne_zero (by positivity))
          _ ≤ top := hp

theorem makeDigits_spec {accurate : Bool} {top d0 value shift : Nat} {exp10 : Int} (h0 : 0 < shift) (h1 : shift ≤ 60) (hT : top < 2 ^ 64)
    (hb : 2 ^ shift ≤ top) (h9 : top / 2 ^ shift ≤ 10 ^ 9) (hd0 : 0 < d0) (hd : d0 < 10 * 2 ^ shift) (hdt : d0 < top) :
    ∃ ds x, makeDigits accurate top d0 exp10 value shift = some (ds, x) ∧ Made ds x exp10 top d0 shift := by
  have hU : 11 * 2 ^ shift < 2 ^ 64 := by
    have : 2 ^ shift ≤ 2 ^ 60 := Nat.pow_le_pow_right (by norm_num) h1
    omega
  have hU' : 2 ^ shift ≤ d0 * 10 ^ 19 := by
    have : 2 ^ shift ≤ 2 ^ 60 := Nat.pow_le_pow_right (by norm_num) h1
    have : 1 * 10 ^ 19 ≤ d0 * 10 ^ 19 := Nat.mul_le_mul_right _ hd0
    omega
  have hp : 0 < 2 ^ shift := Nat.pos_of_ne_zero (by positivity)
  have hb0 : 0 < top / 2 ^ shift := Nat.div_pos hb hp
  have hdm : top / 2 ^ shift * 2 ^ shift + top % 2 ^ shift = top := by rw [Nat.mul_comm]; exact Nat.div_add_mod _ _
  have hml : top % 2 ^ shift < 2 ^ shift := Nat.mod_lt _ hp
  unfold makeDigits
  dsimp only
  rw [if_neg (by rintro (c | c | c) <;> omega)]
  obtain ⟨d1, d2, d3, d4⟩ := decDigits_spec hb0 h9
  rw [skipZeros_spec hb0 h9]
  generalize top / 2 ^ shift = body at *
  generalize top % 2 ^ shift = tail at *
  by_cases c : decDigits body = 1
  · rw [if_pos c]
    rw [c] at d2
    dsimp only
    have hg : Good [body] := Good.nil.cons (by simpa using d2) fun _ => by omega
    have hv : val [body] = body := by rw [val_cons]; rfl
    by_cases c1 : tail < d0
    · rw [if_pos c1]
      unfold finishEarly
      rw [pow_zero, Nat.one_mul, Nat.mod_eq_of_lt (by omega)]
      obtain ⟨ds', x, a1, a2, a3⟩ := adjust_spec (accurate := accurate) (upper := (top + 2 ^ 64 - value) % 2 ^ 64) (exp10 := exp10 + ((0 : Nat) : Int))
        hg (List.cons_ne_nil _ _) (Nat.le_of_lt c1) (by rw [hv]; exact hdm) hdt (by omega)
      exact ⟨ds', x, a1, made_early (kappa := 0) (by omega) (Nat.le_refl _) (by have : ds'.length ≤ 1 := a3; omega)
        (by rw [pow_zero, Nat.one_mul]; exact a2)⟩
    · rw [if_neg c1]
      have e : skipTail shift 19 body tail d0 0 = some (body, tail, d0, 0) := by
        unfold skipTail; rw [if_pos (by omega)]
      rw [e]
      exact made_tail (by omega) hU' hd hU hdt (by show (10 * 0 + body) * _ + _ = _; rw [Nat.mul_zero, Nat.zero_add]; exact hdm) hml hg (by simp)
        (by show 10 ^ 0 * _ ≤ _; omega)
  · rw [if_neg c]
    generalize hD : decDigits body - 1 = k at *
    match k with
    | 0 => omega
    | k + 1 =>
      dsimp only
      have hpk : 0 < 10 ^ (k + 1) := Nat.pos_of_ne_zero (by positivity)
      have hdb := Nat.div_add_mod body (10 ^ (k + 1))
      have hg : Good [body / 10 ^ (k + 1)] := Good.nil.cons (Nat.div_lt_of_lt_mul (by
        rw [← pow_succ, show k + 1 + 1 = decDigits body by omega]; exact d2)) fun _ => by
          have := Nat.div_pos d1 hpk; omega
      have r := bodyLoop_spec (delta := d0) hT hml (k := k + 1) (digit := body / 10 ^ (k + 1)) (body := body % 10 ^ (k + 1)) (ds := []) (by omega)
        (by
          show ((10 * 0 + _) * _ + _) * _ + _ = _
          rw [Nat.mul_zero, Nat.zero_add, Nat.mul_comm _ (10 ^ (k + 1)), hdb]; exact hdm) (Nat.mod_lt _ hpk) hg
      cases z : bodyLoop shift tail d0 (k + 1) (body / 10 ^ (k + 1)) (body % 10 ^ (k + 1)) [] with
      | done digit ds =>
        rw [z] at r
        obtain ⟨r1, r2, r3⟩ := r
        have r3 : ds.length = k + 1 := by simpa using r3
        refine made_tail (by omega) hU' hd hU hdt r1 hml r2 (by omega) ?_
        rw [r3, ← hdm]
        exact Nat.le_trans (Nat.mul_le_mul_right _ d1) (Nat.le_add_right _ _)
      | early ds kappa =>
        rw [z] at r
        obtain ⟨r1, ⟨left, l1, l2, l3⟩, r2, r3, r4⟩ := r
        have r4 : ds.length + kappa = k + 1 + 1 := by simpa using r4
        dsimp only
        unfold finishEarly
        have htk : d0 < 10 ^ kappa * 2 ^ shift := by
          refine Nat.lt_of_lt_of_le hd (Nat.mul_le_mul_right _ ?_)
          calc 10 = 10 ^ 1 := rfl
            _ ≤ 10 ^ kappa := Nat.pow_le_pow_right (by norm_num) r1
        have hv := r2.pos r3
        have htk2 : 10 ^ kappa * 2 ^ shift ≤ val ds * (10 ^ kappa * 2 ^ shift) := Nat.le_mul_of_pos_left _ hv
        rw [Nat.mod_eq_of_lt (show 10 ^ kappa * 2 ^ shift < 2 ^ 64 by omega)]
        have e : adjust accurate ds d0 tail (10 ^ kappa * 2 ^ shift) ((top + 2 ^ 64 - value) % 2 ^ 64) (exp10 + kappa) =
            some (ds, exp10 + kappa) := by
          unfold adjust
          cases accurate with
          | false => rfl
          | true =>
            match ds with
            | [] => exact absurd rfl r3
            | d :: ds =>
              rw [if_pos rfl]
              dsimp only
              rw [adjustLoop_idle htk (by omega)]
        rw [e]
        have hne : 0 < ds.length := List.length_pos_of_ne_nil r3
        exact ⟨ds, _, rfl, made_early (kappa := kappa) (by omega) (Nat.le_refl 11) (by omega)
          ⟨r2, r3, 0, left, by simp, by omega, by omega, by rw [pow_zero, Nat.mul_one]; exact l3⟩⟩

/-! ## The table of powers -/

/-- Leading zeros of the mantissas with this exponent after normalization. -/
def zerosOf (e : Int) : Nat := if e ≥ -1085 then 11 else (-1074 - e).toNat

/-- What is used of an entry of the table, for the normalized exponent `e`. -/
def entryOk (e : Int) : Bool :=
  match cachedPower e with
  | none => false
  | some (c, x) =>
    let k := (-(e + c.e + 64)).toNat
    decide (2 ^ 63 ≤ c.f ∧ c.f < 2 ^ 64 - 2 ^ 33 ∧ -340 ≤ x ∧ x ≤ 340 ∧ -1200 ≤ c.e ∧ -60 ≤ e + c.e + 64 ∧ e + c.e + 64 ≤ -34 ∧
      (c.f - 1) / 2 ^ k ≤ 10 ^ 9 ∧ c.f / 2 ^ (64 - zerosOf e) < 10 * 2 ^ k ∧
      2 * (c.f * 2 ^ (c.e + 1200).toNat * 10 ^ 340) ≤ 2 * (10 ^ (340 - x).toNat * 2 ^ 1200) + 2 ^ (c.e + 1200).toNat * 10 ^ 340 ∧
      2 * (10 ^ (340 - x).toNat * 2 ^ 1200) ≤ 2 * (c.f * 2 ^ (c.e + 1200).toNat * 10 ^ 340) + 2 ^ (c.e + 1200).toNat * 10 ^ 340)

theorem entries : ∀ i ∈ List.range 2098, entryOk ((i : Int) - 1137) = true := by decide +kernel

/-- An entry of the table: `c` is the power of ten in units of `2 ^ ce`, to half a unit. -/
structure Entry (e : Int) (c : Nat) (ce x : Int) : Prop where
  eq : cachedPower e = some (⟨c, ce⟩, x)
  lo : 2 ^ 63 ≤ c
  hi : c < 2 ^ 64 - 2 ^ 33
  exp : -340 ≤ x ∧ x ≤ 340
  shift : -60 ≤ e + ce + 64 ∧ e + ce + 64 ≤ -34
  body : (c - 1) / 2 ^ (-(e + ce + 64)).toNat ≤ 10 ^ 9
  delta : c / 2 ^ (64 - zerosOf e) < 10 * 2 ^ (-(e + ce + 64)).toNat
  below : (c : ℚ) ≤ 10 ^ (-x) * 2 ^ (-ce) + 1 / 2
  above : (10 : ℚ) ^ (-x) * 2 ^ (-ce) ≤ c + 1 / 2

theorem entry {e : Int} (h1 : -1137 ≤ e) (h2 : e ≤ 960) : ∃ c ce x, Entry e c ce x := by
  have h := entries (e + 1137).toNat (List.mem_range.2 (by omega))
  rw [show (((e + 1137).toNat : Nat) : Int) - 1137 = e by omega] at h
  unfold entryOk at h
  cases k : cachedPower e with
  | none => rw [k] at h; cases h
  | some p =>
    obtain ⟨⟨c, ce⟩, x⟩ := p
    rw [k] at h
    dsimp only at h
    obtain ⟨a1, a2, a3, a4, a5, a6, a7, a8, a9, a10, a11⟩ := of_decide_eq_true h
    have hk : (10 : ℚ) ^ (-x) * 2 ^ (-ce) * (2 ^ (ce + 1200).toNat * 10 ^ 340) = 10 ^ (340 - x).toNat * 2 ^ 1200 := by
      have e1 : (2 : ℚ) ^ (ce + 1200).toNat = 2 ^ ce * 2 ^ (1200 : Int) := by
        rw [← zpow_natCast, Int.toNat_of_nonneg (by omega), zpow_add₀ (by norm_num)]
      have e2 : (10 : ℚ) ^ (340 - x).toNat = 10 ^ (340 : Int) * 10 ^ (-x) := by
        rw [← zpow_natCast, Int.toNat_of_nonneg (by omega), sub_eq_add_neg, zpow_add₀ (by norm_num)]
      have e3 : (2 : ℚ) ^ (-ce) * 2 ^ ce = 1 := by rw [← zpow_add₀ (by norm_num)]; simp
      have e4 : (2 : ℚ) ^ (1200 : Int) = 2 ^ 1200 := by rw [show (1200 : Int) = ((1200 : Nat) : Int) from rfl, zpow_natCast]
      have e5 : (10 : ℚ) ^ (340 : Int) = 10 ^ 340 := by rw [show (340 : Int) = ((340 : Nat) : Int) from rfl, zpow_natCast]
      rw [e1, e2, e4, e5]
      generalize (2 : ℚ) ^ 1200 = A
      generalize (10 : ℚ) ^ 340 = B
      calc (10 : ℚ) ^ (-x) * 2 ^ (-ce) * (2 ^ ce * A * B) = (2 ^ (-ce) * 2 ^ ce) * (B * 10 ^ (-x) * A) := by ring
        _ = _ := by rw [e3, one_mul]
    have hp : (0 : ℚ) < 2 ^ (ce + 1200).toNat * 10 ^ 340 := by positivity
    have b10 : (2 : ℚ) * (c * 2 ^ (ce + 1200).toNat * 10 ^ 340) ≤ 2 * (10 ^ (340 - x).toNat * 2 ^ 1200) + 2 ^ (ce + 1200).toNat * 10 ^ 340 := by
      exact_mod_cast a10
    have b11 : (2 : ℚ) * (10 ^ (340 - x).toNat * 2 ^ 1200) ≤ 2 * (c * 2 ^ (ce + 1200).toNat * 10 ^ 340) + 2 ^ (ce + 1200).toNat * 10 ^ 340 := by
      exact_mod_cast a11
    rw [← hk] at b10 b11
    clear hk a10 a11
    refine ⟨c, ce, x, k, a1, a2, ⟨a3, a4⟩, ⟨a6, a7⟩, a8, a9, ?_, ?_⟩
    · generalize (10 : ℚ) ^ (-x) * 2 ^ (-ce) = X at *
      rw [mul_assoc (c : ℚ)] at b10
      generalize (2 : ℚ) ^ (ce + 1200).toNat * 10 ^ 340 = P at *
      refine le_of_mul_le_mul_right ?_ hp
      linarith
    · generalize (10 : ℚ) ^ (-x) * 2 ^ (-ce) = X at *
      rw [mul_assoc (c : ℚ)] at b11
      generalize (2 : ℚ) ^ (ce + 1200).toNat * 10 ^ 340 = P at *
      refine le_of_mul_le_mul_right ?_ hp
      linarith

end Fptu.D2a
