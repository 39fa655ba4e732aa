import Verif.Model.Elbrus
import Mathlib.Tactic.Ring
import Mathlib.Tactic.Linarith
/-!
# C72: the functions which replace those of the C library

On Elbrus `memcmp`, `strcmp`, `strncmp`, `strlen` and `strnlen` are functions of the library.
-/
namespace Fptu.Props
open Fptu.Elbrus

/-- The first `n` bytes are the same. -/
def SameBytes (m : Nat → Nat) (s1 s2 n : Nat) : Prop := ∀ j, j < n → m (s1 + j) = m (s2 + j)
/-- Of the first bytes that differ among `n`, the one at `s1` is less. -/
def LessBytes (m : Nat → Nat) (s1 s2 n : Nat) : Prop := ∃ i, i < n ∧ SameBytes m s1 s2 i ∧ m (s1 + i) < m (s2 + i)

private structure Says (m : Nat → Nat) (s1 s2 n : Nat) (r : Int) : Prop where
  eq : r = 0 → SameBytes m s1 s2 n
  lt : r < 0 → LessBytes m s1 s2 n
  gt : 0 < r → LessBytes m s2 s1 n

private theorem SameBytes.symm {m : Nat → Nat} {s1 s2 n : Nat} (h : SameBytes m s1 s2 n) : SameBytes m s2 s1 n := fun j hj => (h j hj).symm

private theorem SameBytes.app {m : Nat → Nat} {s1 s2 k n : Nat} (h : SameBytes m s1 s2 k) (h' : SameBytes m (s1 + k) (s2 + k) n) :
    SameBytes m s1 s2 (k + n) := by
  intro j hj
  by_cases c : j < k
  · exact h j c
  · have := h' (j - k) (by omega)
    rwa [show s1 + k + (j - k) = s1 + j by omega, show s2 + k + (j - k) = s2 + j by omega] at this

private theorem LessBytes.app {m : Nat → Nat} {s1 s2 k n : Nat} (h : SameBytes m s1 s2 k) (h' : LessBytes m (s1 + k) (s2 + k) n) :
    LessBytes m s1 s2 (k + n) := by
  obtain ⟨i, hi, hs, hl⟩ := h'
  exact ⟨k + i, by omega, h.app hs, by rwa [← Nat.add_assoc, ← Nat.add_assoc]⟩

private theorem LessBytes.mono {m : Nat → Nat} {s1 s2 k n : Nat} (hk : k ≤ n) (h : LessBytes m s1 s2 k) : LessBytes m s1 s2 n := by
  obtain ⟨i, hi, hs, hl⟩ := h
  exact ⟨i, by omega, hs, hl⟩

private theorem Says.skip {m : Nat → Nat} {s1 s2 k n : Nat} {r : Int} (hk : k ≤ n) (h : SameBytes m s1 s2 k)
    (hr : Says m (s1 + k) (s2 + k) (n - k) r) : Says m s1 s2 n r := by
  obtain ⟨q, rfl⟩ := Nat.exists_eq_add_of_le hk
  rw [Nat.add_sub_cancel_left] at hr
  exact ⟨fun e => h.app (hr.eq e), fun e => (hr.lt e).app h, fun e => (hr.gt e).app h.symm⟩

/-- The big-endian number. -/
private def big (m : Nat → Nat) (p : Nat) : Nat → Nat
  | 0 => 0
  | k + 1 => m p * 256 ^ k + big m (p + 1) k

private theorem bswap_load {m : Nat → Nat} (hm : ∀ a, m a < 256) (k : Nat) : ∀ p, bswap k (load m p k) = big m p k := by
  induction k with
  | zero => intro p; rfl
  | succ k ih =>
    intro p
    unfold bswap load big
    have h := hm p
    rw [show (m p + 256 * load m (p + 1) k) % 256 = m p by omega, show (m p + 256 * load m (p + 1) k) / 256 = load m (p + 1) k by omega, ih]

private theorem big_lt {m : Nat → Nat} (hm : ∀ a, m a < 256) (k : Nat) : ∀ p, big m p k < 256 ^ k := by
  induction k with
  | zero => intro p; exact Nat.one_pos
  | succ k ih =>
    intro p
    unfold big
    have h1 := ih (p + 1)
    have h2 := Nat.mul_le_mul_right (256 ^ k) (show m p ≤ 255 by have := hm p; omega)
    rw [Nat.pow_succ]
    omega

private theorem load_eq {m : Nat → Nat} (hm : ∀ a, m a < 256) (k : Nat) : ∀ s1 s2, load m s1 k = load m s2 k → SameBytes m s1 s2 k := by
  induction k with
  | zero => intro _ _ _ j hj; omega
  | succ k ih =>
    intro s1 s2 h
    unfold load at h
    have h1 := hm s1
    have h2 := hm s2
    intro j hj
    cases j with
    | zero => show m s1 = m s2; omega
    | succ j =>
      have := ih (s1 + 1) (s2 + 1) (by omega) j (by omega)
      rwa [show s1 + 1 + j = s1 + (j + 1) by omega, show s2 + 1 + j = s2 + (j + 1) by omega] at this

private theorem load_same {m : Nat → Nat} (k : Nat) : ∀ s1 s2, SameBytes m s1 s2 k → load m s1 k = load m s2 k := by
  induction k with
  | zero => intro _ _ _; rfl
  | succ k ih =>
    intro s1 s2 h
    unfold load
    rw [show m s1 = m s2 from h 0 (by omega), ih (s1 + 1) (s2 + 1) fun j hj => ?_]
    have := h (j + 1) (by omega)
    rwa [show s1 + 1 + j = s1 + (j + 1) by omega, show s2 + 1 + j = s2 + (j + 1) by omega]

private theorem big_cmp {m : Nat → Nat} (hm : ∀ a, m a < 256) (k : Nat) : ∀ s1 s2,
    SameBytes m s1 s2 k ∨ (LessBytes m s1 s2 k ∧ big m s1 k < big m s2 k) ∨ (LessBytes m s2 s1 k ∧ big m s2 k < big m s1 k) := by
  induction k with
  | zero => intro _ _; left; intro j hj; omega
  | succ k ih =>
    have step : ∀ s1 s2, m s1 < m s2 → LessBytes m s1 s2 (k + 1) ∧ big m s1 (k + 1) < big m s2 (k + 1) := by
      intro s1 s2 h
      refine ⟨⟨0, by omega, fun j hj => (by omega), h⟩, ?_⟩
      unfold big
      have h1 := big_lt hm k (s1 + 1)
      have h2 := Nat.mul_le_mul_right (256 ^ k) (show m s1 + 1 ≤ m s2 from h)
      rw [Nat.add_mul, Nat.one_mul] at h2
      omega
    intro s1 s2
    rcases Nat.lt_trichotomy (m s1) (m s2) with h | h | h
    · exact Or.inr (Or.inl (step s1 s2 h))
    · have hs : SameBytes m s1 s2 1 := fun j hj => by rw [show j = 0 by omega]; exact h
      rw [Nat.add_comm k 1]
      rcases ih (s1 + 1) (s2 + 1) with q | ⟨q, q'⟩ | ⟨q, q'⟩
      · exact Or.inl (hs.app q)
      · exact Or.inr (Or.inl ⟨q.app hs, by rw [Nat.add_comm 1 k]; unfold big; rw [h]; omega⟩)
      · exact Or.inr (Or.inr ⟨q.app hs.symm, by rw [Nat.add_comm 1 k]; unfold big; rw [h]; omega⟩)
    · exact Or.inr (Or.inr (step s2 s1 h))

private theorem differ_none {m : Nat → Nat} (hm : ∀ a, m a < 256) {k s1 s2 : Nat} (h : differ m k s1 s2 = none) : SameBytes m s1 s2 k := by
  unfold differ at h
  by_cases c : load m s1 k = load m s2 k
  · exact load_eq hm k _ _ c
  · simp only at h
    rw [if_pos c] at h; cases h

private theorem differ_some {m : Nat → Nat} (hm : ∀ a, m a < 256) {k n s1 s2 : Nat} {r : Int} (hk : k ≤ n) (h : differ m k s1 s2 = some r) :
    Says m s1 s2 n r := by
  unfold differ at h
  simp only at h
  by_cases c : load m s1 k ≠ load m s2 k
  · rw [if_pos c, bswap_load hm, bswap_load hm] at h
    have h := Option.some.inj h
    rcases big_cmp hm k s1 s2 with q | ⟨q, q'⟩ | ⟨q, q'⟩
    · exact absurd (load_same k _ _ q) c
    · rw [if_neg (by omega)] at h
      subst h
      exact ⟨fun e => by omega, fun _ => q.mono hk, fun e => by omega⟩
    · rw [if_pos q'] at h
      subst h
      exact ⟨fun e => by omega, fun e => by omega, fun _ => q.mono hk⟩
  · rw [if_neg c] at h; cases h

private theorem byte_says {m : Nat → Nat} {s1 s2 n : Nat} (hn : 1 ≤ n) {r : Int} (hr : r = (m s1 : Int) - m s2) (h0 : r ≠ 0) : Says m s1 s2 n r := by
  refine ⟨fun e => absurd e h0, fun e => ⟨0, hn, fun j hj => (by omega), ?_⟩, fun e => ⟨0, hn, fun j hj => (by omega), ?_⟩⟩
  · show m s1 < m s2; omega
  · show m s2 < m s1; omega

private theorem small (n : Nat) (h : n < 8) : (n &&& 4 ≠ 0 ↔ 4 ≤ n) ∧ (n &&& 2 ≠ 0 ↔ 2 ≤ n % 4) ∧ (n &&& 1 ≠ 0 ↔ n % 2 = 1) := by
  revert h; revert n; decide

private theorem finish_says {m : Nat → Nat} (hm : ∀ a, m a < 256) {n : Nat} (h8 : n < 8) (s1 s2 : Nat) : Says m s1 s2 n (finish m s1 s2 n) := by
  unfold finish
  obtain ⟨b4, b2, b1⟩ := small n h8
  -- the last byte
  have last : ∀ p q k, k % 4 = n % 4 → k < 4 → Says m p q k
      (match (if n &&& 2 ≠ 0 then differ m 2 p q else none) with
      | some r => r
      | none => if n &&& 1 ≠ 0 then (m (p + if n &&& 2 ≠ 0 then 2 else 0) : Int) - m (q + if n &&& 2 ≠ 0 then 2 else 0) else 0) := by
    intro p q k hk hk4
    have one : ∀ p q k, k % 2 = n % 2 → k < 2 → Says m p q k (if n &&& 1 ≠ 0 then (m p : Int) - m q else 0) := by
      intro p q k hk hk2
      by_cases c : n &&& 1 ≠ 0
      · rw [if_pos c]
        have := b1.1 c
        by_cases c0 : (m p : Int) - m q = 0
        · rw [c0]
          refine ⟨fun _ j hj => ?_, fun e => (by omega), fun e => (by omega)⟩
          rw [show j = 0 by omega]
          show m p = m q
          omega
        · exact byte_says (by omega) rfl c0
      · rw [if_neg c]
        have : ¬ n % 2 = 1 := fun k => c (b1.2 k)
        exact ⟨fun _ j hj => (by omega), fun e => (by omega), fun e => (by omega)⟩
    by_cases c : n &&& 2 ≠ 0
    · rw [if_pos c, if_pos c]
      have := b2.1 c
      cases hd : differ m 2 p q with
      | some r => exact differ_some hm (by omega) hd
      | none => exact Says.skip (show 2 ≤ k by omega) (differ_none hm hd) (one _ _ _ (by omega) (by omega))
    · rw [if_neg c, if_neg c]
      have : ¬ 2 ≤ n % 4 := fun k => c (b2.2 k)
      exact one _ _ _ (by omega) (by omega)
  by_cases c : n &&& 4 ≠ 0
  · rw [if_pos c, if_pos c]
    have := b4.1 c
    cases hd : differ m 4 s1 s2 with
    | some r => exact differ_some hm this hd
    | none =>
      have h := Says.skip this (differ_none hm hd) (last (s1 + 4) (s2 + 4) (n - 4) (by omega) (by omega))
      simp only [← Nat.add_assoc]
      exact h
  · rw [if_neg c, if_neg c]
    have : ¬ 4 ≤ n := fun k => c (b4.2 k)
    have h := last s1 s2 n rfl (by omega)
    simp only [Nat.add_zero, Nat.zero_add]
    exact h

private theorem loop_says {m : Nat → Nat} (hm : ∀ a, m a < 256) {rest : Nat} (h8 : rest < 8) (w : Nat) : ∀ s1 s2,
    Says m s1 s2 (8 * w + rest) (loop m rest w s1 s2) := by
  induction w with
  | zero => intro s1 s2; rw [Nat.mul_zero, Nat.zero_add]; exact finish_says hm h8 s1 s2
  | succ w ih =>
    intro s1 s2
    unfold loop
    cases hd : differ m 8 s1 s2 with
    | some r => exact differ_some hm (by omega) hd
    | none =>
      refine Says.skip (show 8 ≤ _ by omega) (differ_none hm hd) ?_
      rw [show 8 * (w + 1) + rest - 8 = 8 * w + rest by omega]
      exact ih _ _

private theorem tail_says {m : Nat → Nat} (hm : ∀ a, m a < 256) (n : Nat) (s1 s2 : Nat) : Says m s1 s2 n (tail m s1 s2 n) := by
  have h := loop_says hm (Nat.mod_lt n (by omega)) (n / 8) s1 s2
  rwa [Nat.div_add_mod] at h

private theorem align4_says {m : Nat → Nat} (hm : ∀ a, m a < 256) {s1 s2 n : Nat} (hn : 4 ≤ n) : Says m s1 s2 n (align4 m s1 s2 n) := by
  unfold align4
  by_cases c : s1 &&& 4 ≠ 0
  · rw [if_pos c]
    cases hd : differ m 4 s1 s2 with
    | some r => exact differ_some hm hn hd
    | none => exact Says.skip hn (differ_none hm hd) (tail_says hm _ _ _)
  · rw [if_neg c]; exact tail_says hm _ _ _

private theorem align2_says {m : Nat → Nat} (hm : ∀ a, m a < 256) {s1 s2 n : Nat} (hn : 6 ≤ n) : Says m s1 s2 n (align2 m s1 s2 n) := by
  unfold align2
  by_cases c : s1 &&& 2 ≠ 0
  · rw [if_pos c]
    cases hd : differ m 2 s1 s2 with
    | some r => exact differ_some hm (by omega) hd
    | none => exact Says.skip (by omega) (differ_none hm hd) (align4_says hm (by omega))
  · rw [if_neg c]; exact align4_says hm (by omega)

private theorem memcmp_says {m : Nat → Nat} (hm : ∀ a, m a < 256) (s1 s2 n : Nat) : Says m s1 s2 n (memcmp m s1 s2 n) := by
  unfold memcmp
  by_cases c : n > 42 ∧ s1 &&& 7 ≠ 0 ∧ s1 &&& 7 = s2 &&& 7
  · rw [if_pos c]
    by_cases c1 : s1 &&& 1 ≠ 0
    · rw [if_pos c1]
      simp only
      by_cases c0 : (m s1 : Int) - m s2 ≠ 0
      · rw [if_pos c0]; exact byte_says (by omega) rfl c0
      · rw [if_neg c0]
        refine Says.skip (show 1 ≤ n by omega) (fun j hj => ?_) (align2_says hm (by omega))
        rw [show j = 0 by omega]
        show m s1 = m s2
        omega
    · rw [if_neg c1]; exact align2_says hm (by omega)
  · rw [if_neg c]; exact tail_says hm _ _ _

private theorem less_not_same {m : Nat → Nat} {s1 s2 n : Nat} (h : LessBytes m s1 s2 n) : ¬ SameBytes m s1 s2 n := by
  obtain ⟨i, hi, _, hl⟩ := h
  intro hs
  have := hs i hi
  omega

private theorem less_asymm {m : Nat → Nat} {s1 s2 n : Nat} (h : LessBytes m s1 s2 n) : ¬ LessBytes m s2 s1 n := by
  obtain ⟨i, hi, hs, hl⟩ := h
  rintro ⟨j, hj, hs', hl'⟩
  rcases Nat.lt_trichotomy i j with c | c | c
  · have := hs' i c; omega
  · subst c; omega
  · have := hs j c; omega

private theorem Says.iff {m : Nat → Nat} {s1 s2 n : Nat} {r : Int} (h : Says m s1 s2 n r) :
    (r = 0 ↔ SameBytes m s1 s2 n) ∧ (r < 0 ↔ LessBytes m s1 s2 n) ∧ (0 < r ↔ LessBytes m s2 s1 n) := by
  refine ⟨⟨h.eq, fun k => ?_⟩, ⟨h.lt, fun k => ?_⟩, ⟨h.gt, fun k => ?_⟩⟩
  · by_contra c
    rcases Int.lt_or_gt_of_ne c with c | c
    · exact less_not_same (h.lt c) k
    · exact less_not_same (h.gt c) k.symm
  · by_contra c
    rcases Int.lt_or_eq_of_le (show 0 ≤ r by omega) with c | c
    · exact less_asymm (h.gt c) k
    · exact less_not_same k (h.eq c.symm)
  · by_contra c
    rcases Int.lt_or_eq_of_le (show r ≤ 0 by omega) with c | c
    · exact less_asymm (h.lt c) k
    · exact less_not_same k (h.eq c).symm

/-- **C72 (memcmp).** For all contents, addresses and lengths: zero if all bytes are the same, negative if at the first difference
the first operand has the lesser byte, positive if it has the greater one. -/
theorem C72_memcmp {m : Nat → Nat} (hm : ∀ a, m a < 256) (s1 s2 n : Nat) :
    (memcmp m s1 s2 n = 0 ↔ SameBytes m s1 s2 n) ∧ (memcmp m s1 s2 n < 0 ↔ LessBytes m s1 s2 n) ∧
    (0 < memcmp m s1 s2 n ↔ LessBytes m s2 s1 n) := (memcmp_says hm s1 s2 n).iff

/-! ## Strings -/

/-- A string of `k` bytes begins at `s`. -/
def CStr (m : Nat → Nat) (s k : Nat) : Prop := (∀ j, j < k → m (s + j) ≠ 0) ∧ m (s + k) = 0

private theorem CStr.next {m : Nat → Nat} {s k : Nat} (h : CStr m s (k + 1)) : CStr m (s + 1) k := by
  refine ⟨fun j hj => ?_, ?_⟩
  · have := h.1 (j + 1) (by omega)
    rwa [show s + 1 + j = s + (j + 1) by omega]
  · rw [show s + 1 + k = s + (k + 1) by omega]; exact h.2

private theorem strlen_aux {m : Nat → Nat} (k : Nat) : ∀ s n rounds, CStr m s k → k < rounds → strlen m rounds s n = some (n + k) := by
  induction k with
  | zero =>
    intro s n rounds h hr
    obtain ⟨r, rfl⟩ := Nat.exists_eq_succ_of_ne_zero (show rounds ≠ 0 by omega)
    unfold strlen
    rw [if_pos (show m s = 0 from h.2)]; rfl
  | succ k ih =>
    intro s n rounds h hr
    obtain ⟨r, rfl⟩ := Nat.exists_eq_succ_of_ne_zero (show rounds ≠ 0 by omega)
    unfold strlen
    rw [if_neg (show ¬ m s = 0 from h.1 0 (by omega)), ih (s + 1) (n + 1) r h.next (by omega)]
    congr 1; omega

/-- **C72 (strlen).** The length of any string, after as many rounds as it has bytes and one more. -/
theorem C72_strlen {m : Nat → Nat} {s k : Nat} (h : CStr m s k) {rounds : Nat} (hr : k < rounds) : strlen m rounds s 0 = some k := by
  rw [strlen_aux k s 0 rounds h hr, Nat.zero_add]

private theorem strnlen_aux {m : Nat → Nat} (left : Nat) : ∀ s n, ∃ k, strnlen m left s n = n + k ∧ k ≤ left ∧ (∀ j, j < k → m (s + j) ≠ 0) ∧
    (k < left → m (s + k) = 0) := by
  induction left with
  | zero => intro s n; exact ⟨0, rfl, by omega, fun j hj => (by omega), fun h => (by omega)⟩
  | succ left ih =>
    intro s n
    unfold strnlen
    by_cases c : m s ≠ 0
    · rw [if_pos c]
      obtain ⟨k, h1, h2, h3, h4⟩ := ih (s + 1) (n + 1)
      refine ⟨k + 1, by rw [h1]; omega, by omega, fun j hj => ?_, fun hk => ?_⟩
      · cases j with
        | zero => exact c
        | succ j =>
          have := h3 j (by omega)
          rwa [show s + 1 + j = s + (j + 1) by omega] at this
      · have := h4 (by omega)
        rwa [show s + 1 + k = s + (k + 1) by omega] at this
    · rw [if_neg c]
      exact ⟨0, rfl, by omega, fun j hj => (by omega), fun _ => not_not.1 c⟩

/-- **C72 (strnlen).** The number of bytes before the first zero among the first `maxlen`, or `maxlen`. -/
theorem C72_strnlen (m : Nat → Nat) (s maxlen : Nat) :
    strnlen m maxlen s 0 ≤ maxlen ∧ (∀ j, j < strnlen m maxlen s 0 → m (s + j) ≠ 0) ∧
    (strnlen m maxlen s 0 < maxlen → m (s + strnlen m maxlen s 0) = 0) := by
  obtain ⟨k, h1, h2, h3, h4⟩ := strnlen_aux (m := m) maxlen s 0
  rw [Nat.zero_add] at h1
  rw [h1]
  exact ⟨h2, h3, h4⟩

/-- **C72 (strncmp).** Compares the bytes up to and including the terminating zero, at most `n`. -/
theorem C72_strncmp {m : Nat → Nat} (n : Nat) : ∀ s1 s2,
    (strncmp m n s1 s2 = 0 ↔ SameBytes m s1 s2 (min n (strnlen m n s1 0 + 1))) ∧
    (strncmp m n s1 s2 < 0 ↔ LessBytes m s1 s2 (min n (strnlen m n s1 0 + 1))) ∧
    (0 < strncmp m n s1 s2 ↔ LessBytes m s2 s1 (min n (strnlen m n s1 0 + 1))) := by
  suffices ∀ s1 s2, Says m s1 s2 (min n (strnlen m n s1 0 + 1)) (strncmp m n s1 s2) from fun s1 s2 => (this s1 s2).iff
  have shift : ∀ left s a, strnlen m left s a = a + strnlen m left s 0 := by
    intro left
    induction left with
    | zero => intro s a; rfl
    | succ left ih =>
      intro s a
      unfold strnlen
      by_cases c : m s ≠ 0
      · rw [if_pos c, if_pos c, ih (s + 1) (a + 1), ih (s + 1) (0 + 1)]; omega
      · rw [if_neg c, if_neg c]; rfl
  induction n with
  | zero => intro s1 s2; exact ⟨fun _ j hj => (by omega), fun e => (by cases e), fun e => (by cases e)⟩
  | succ n ih =>
    intro s1 s2
    unfold strncmp
    simp only
    by_cases c : (m s1 : Int) - m s2 ≠ 0 ∨ m s1 = 0
    · rw [if_pos c]
      by_cases c0 : (m s1 : Int) - m s2 = 0
      · have hz : m s1 = 0 := by
          rcases c with c | c
          · exact absurd c0 c
          · exact c
        rw [c0]
        refine ⟨fun _ j hj => ?_, fun e => (by omega), fun e => (by omega)⟩
        unfold strnlen at hj
        rw [if_neg (not_not.2 hz)] at hj
        rw [show j = 0 by omega]
        show m s1 = m s2
        omega
      · exact byte_says (by omega) rfl c0
    · rw [if_neg c]
      have hz : m s1 ≠ 0 := fun k => c (Or.inr k)
      have h0 : (m s1 : Int) - m s2 = 0 := by
        by_contra k; exact c (Or.inl k)
      have e : strnlen m (n + 1) s1 0 = strnlen m n (s1 + 1) 0 + 1 := by
        rw [strnlen, if_pos hz, shift]; omega
      rw [e]
      refine Says.skip (show 1 ≤ _ by omega) (fun j hj => ?_) ?_
      · rw [show j = 0 by omega]
        show m s1 = m s2
        omega
      · rw [show min (n + 1) (strnlen m n (s1 + 1) 0 + 1 + 1) - 1 = min n (strnlen m n (s1 + 1) 0 + 1) by omega]
        exact ih _ _

/-- **C72 (strcmp).** Any two strings: the comparison of their bytes including the terminating zeros. -/
theorem C72_strcmp {m : Nat → Nat} (k : Nat) : ∀ {s1 s2 rounds : Nat}, CStr m s1 k → k < rounds →
    ∃ r, strcmp m rounds s1 s2 = some r ∧ (r = 0 ↔ SameBytes m s1 s2 (k + 1)) ∧ (r < 0 ↔ LessBytes m s1 s2 (k + 1)) ∧
      (0 < r ↔ LessBytes m s2 s1 (k + 1)) := by
  suffices ∀ s1 s2 rounds, CStr m s1 k → k < rounds → ∃ r, strcmp m rounds s1 s2 = some r ∧ Says m s1 s2 (k + 1) r from
    fun {s1 s2 rounds} h hr => by
      obtain ⟨r, h1, h2⟩ := this s1 s2 rounds h hr
      exact ⟨r, h1, h2.iff⟩
  induction k with
  | zero =>
    intro s1 s2 rounds h hr
    obtain ⟨q, rfl⟩ := Nat.exists_eq_succ_of_ne_zero (show rounds ≠ 0 by omega)
    refine ⟨(m s1 : Int) - m s2, ?_, ?_⟩
    · unfold strcmp
      exact if_pos (Or.inr h.2)
    · by_cases c0 : (m s1 : Int) - m s2 = 0
      · rw [c0]
        refine ⟨fun _ j hj => ?_, fun e => (by omega), fun e => (by omega)⟩
        rw [show j = 0 by omega]
        show m s1 = m s2
        omega
      · exact byte_says (by omega) rfl c0
  | succ k ih =>
    intro s1 s2 rounds h hr
    obtain ⟨q, rfl⟩ := Nat.exists_eq_succ_of_ne_zero (show rounds ≠ 0 by omega)
    unfold strcmp
    simp only
    by_cases c0 : (m s1 : Int) - m s2 = 0
    · obtain ⟨r, h1, h2⟩ := ih (s1 + 1) (s2 + 1) q h.next (by omega)
      refine ⟨r, ?_, ?_⟩
      · rw [if_neg]
        · exact h1
        · rintro (c | c)
          · exact c c0
          · exact h.1 0 (by omega) c
      · refine Says.skip (show 1 ≤ k + 1 + 1 by omega) (fun j hj => ?_) h2
        rw [show j = 0 by omega]
        show m s1 = m s2
        omega
    · exact ⟨_, if_pos (Or.inl c0), byte_says (by omega) rfl c0⟩

/-! ## The hypotheses are met -/

/-- Two blocks of fifty bytes at addresses with the same remainder that differ in byte 45 only; the aligned path is taken. -/
example : (fun m => (∀ a, m a < 256) ∧ memcmp m 1001 2001 50 < 0 ∧ memcmp m 2001 1001 50 > 0 ∧ memcmp m 1001 2001 45 = 0)
    (fun a => if a = 1046 then 1 else if a = 2046 then 200 else 7 : Nat → Nat) := by
  have hm : ∀ a, (fun a => if a = 1046 then 1 else if a = 2046 then 200 else 7 : Nat → Nat) a < 256 := by
    intro a; show (if _ then _ else _) < 256; split_ifs <;> omega
  have hs : ∀ j, j < 45 → (fun a => if a = 1046 then 1 else if a = 2046 then 200 else 7 : Nat → Nat) (1001 + j) =
      (fun a => if a = 1046 then 1 else if a = 2046 then 200 else 7 : Nat → Nat) (2001 + j) := by decide
  refine ⟨hm, (C72_memcmp hm _ _ _).2.1.2 ⟨45, by omega, hs, by decide⟩, ?_, (C72_memcmp hm _ _ _).1.2 hs⟩
  exact (C72_memcmp hm _ _ _).2.2.2 ⟨45, by omega, hs, by decide⟩

/-- A string of three bytes. -/
example : CStr (fun a => if a < 13 then 97 else 0) 10 3 ∧ strlen (fun a => if a < 13 then 97 else 0) 100 10 0 = some 3 ∧
    strnlen (fun a => if a < 13 then 97 else 0) 2 10 0 = 2 := by
  refine ⟨⟨?_, ?_⟩, ?_, ?_⟩ <;> decide

end Fptu.Props
