import Verif.Model.Scan
import Verif.Lemmas.Bits
/-! Helper lemmas for the field search. -/
namespace Fptu.Scan
open Fptu.Bits

theorem ctz_odd (n : Nat) (h : n % 2 = 1) : ctz n = 0 := by
  rw [ctz]; split
  · rfl
  · simp

theorem ctz_two_mul (n : Nat) (h : n ≠ 0) : ctz (2 * n) = 1 + ctz n := by
  rw [ctz]
  have h1 : 2 * n ≠ 0 := by omega
  have h2 : 2 * n % 2 ≠ 1 := by omega
  have h3 : 2 * n / 2 = n := by omega
  simp [h1, h3]

theorem ctz_mul (k n : Nat) (h : n ≠ 0) : ctz (2 ^ k * n) = k + ctz n := by
  induction k with
  | zero => simp
  | succ k ih =>
    have : 2 ^ (k + 1) * n = 2 * (2 ^ k * n) := by rw [Nat.pow_succ]; ac_rfl
    rw [this, ctz_two_mul _ (by have := Nat.two_pow_pos k; exact Nat.mul_ne_zero (by omega) h), ih]
    omega

theorem mask_spec (s p : Nat) (hs : p < s) (l : List Bool) :
    (maskOf s p l = 0 ∧ ∀ j, j < l.length → l[j]? = some false) ∨
    (∃ k, l[k]? = some true ∧ (∀ j, j < k → l[j]? = some false) ∧ maskOf s p l ≠ 0 ∧
      ctz (maskOf s p l) = s * k + p) := by
  induction l with
  | nil => left; simp [maskOf]
  | cons b l ih =>
    cases b with
    | true =>
      right
      refine ⟨0, by simp, by simp, ?_, ?_⟩
      · have := Nat.two_pow_pos p
        simp only [maskOf, if_true]; omega
      · have e : maskOf s p (true :: l) = 2 ^ p * (2 * (2 ^ (s - p - 1) * maskOf s p l) + 1) := by
          simp only [maskOf, if_true]
          have : 2 ^ s = 2 ^ p * (2 * 2 ^ (s - p - 1)) := by
            have : s = p + ((s - p - 1) + 1) := by omega
            conv => lhs; rw [this, Nat.pow_add, Nat.pow_succ]
            ac_rfl
          rw [this, Nat.mul_add, Nat.mul_one]
          ac_rfl
        rw [e, ctz_mul _ _ (by omega), ctz_odd _ (by omega)]
        simp
    | false =>
      rcases ih with ⟨h0, hall⟩ | ⟨k, hk, hlt, hne, hc⟩
      · left
        refine ⟨by simp [maskOf, h0], ?_⟩
        intro j hj
        cases j with
        | zero => simp
        | succ j => simpa using hall j (by simpa using hj)
      · right
        refine ⟨k + 1, by simpa using hk, ?_, ?_, ?_⟩
        · intro j hj
          cases j with
          | zero => simp
          | succ j => simpa using hlt j (by omega)
        · simp only [maskOf]
          have := Nat.two_pow_pos s
          rw [if_neg (by simp), Nat.add_zero]; exact Nat.mul_ne_zero (by omega) hne
        · simp only [maskOf]
          rw [if_neg (by simp), Nat.add_zero, ctz_mul _ _ hne, hc, Nat.mul_add]
          omega

theorem pow_lt_of_lt (s p : Nat) (hs : p < s) (b : Bool) : (if b then 2 ^ p else 0) < 2 ^ s := by
  cases b
  · simpa using Nat.two_pow_pos s
  · simpa using Nat.pow_lt_pow_right (by omega) hs

theorem mask_shift (s p : Nat) (hs : p < s) (k : Nat) (l : List Bool) :
    maskOf s p l >>> (s * k) = maskOf s p (l.drop k) := by
  induction k generalizing l with
  | zero => simp
  | succ k ih =>
    cases l with
    | nil => simp [maskOf]
    | cons b l =>
      have : s * (k + 1) = s + s * k := by rw [Nat.mul_add]; omega
      rw [this, Nat.shiftRight_add]
      simp only [maskOf, List.drop_succ_cons]
      rw [← ih l]
      congr 1
      rw [Nat.shiftRight_eq_div_pow, Nat.mul_add_div (Nat.two_pow_pos s),
        Nat.div_eq_of_lt (pow_lt_of_lt s p hs b)]
      omega

theorem mask_and (s p : Nat) (hs : p < s) (n : Nat) (l : List Bool) :
    maskOf s p (List.replicate n true) &&& maskOf s p l = maskOf s p (l.take n) := by
  induction n generalizing l with
  | zero => simp [maskOf]
  | succ n ih =>
    cases l with
    | nil => simp [maskOf]
    | cons b l =>
      simp only [List.replicate_succ, maskOf, List.take_succ_cons]
      rw [land_split s]
      have hb := pow_lt_of_lt s p hs b
      have ht := pow_lt_of_lt s p hs true
      simp only [if_true] at ht ⊢
      rw [Nat.mul_add_div (Nat.two_pow_pos s), Nat.mul_add_div (Nat.two_pow_pos s),
        Nat.div_eq_of_lt hb, Nat.div_eq_of_lt ht, Nat.add_zero, Nat.add_zero, ih,
        Nat.mul_add_mod, Nat.mul_add_mod, Nat.mod_eq_of_lt hb, Nat.mod_eq_of_lt ht]
      cases b <;> simp

/-- What a correct search answers for the entries of `[b, e)`. -/
def IsFirst (m : Mem) (key b e : Nat) : Out → Prop
  | .fault => False
  | .notFound => ∀ j, b ≤ j → j < e → gid m j ≠ key
  | .found i => b ≤ i ∧ i < e ∧ gid m i = key ∧ ∀ j, b ≤ j → j < i → gid m j ≠ key

/-- All half-words of the entries `[b, e)` are mapped. -/
def Mapped (m : Mem) (b e : Nat) : Prop := ∀ h, 2 * b ≤ h → h < 2 * e → (m h).isSome = true

theorem IsFirst.extend {m : Mem} {key b k e : Nat} {o : Out}
    (hb : ∀ j, b ≤ j → j < k → gid m j ≠ key) (ho : IsFirst m key k e o) (hbk : b ≤ k) :
    IsFirst m key b e o := by
  cases o with
  | fault => exact ho
  | notFound =>
    intro j h1 h2
    by_cases h : j < k
    · exact hb j h1 h
    · exact ho j (by omega) h2
  | found i =>
    obtain ⟨h1, h2, h3, h4⟩ := ho
    refine ⟨by omega, h2, h3, ?_⟩
    intro j h5 h6
    by_cases h : j < k
    · exact hb j h5 h
    · exact h4 j (by omega) h6

theorem IsFirst.shrink {m : Mem} {key b e e' : Nat} {i : Nat}
    (ho : IsFirst m key b e (.found i)) (he : e ≤ e') : IsFirst m key b e' (.found i) := by
  obtain ⟨h1, h2, h3, h4⟩ := ho
  exact ⟨h1, by omega, h3, h4⟩

theorem IsFirst.unique {m : Mem} {key b e : Nat} {o1 o2 : Out}
    (h1 : IsFirst m key b e o1) (h2 : IsFirst m key b e o2) : o1 = o2 := by
  cases o1 <;> cases o2 <;> simp only [IsFirst] at h1 h2
  · rfl
  · exact absurd h2.2.2.1 (h1 _ h2.1 h2.2.1)
  · exact absurd h1.2.2.1 (h2 _ h1.1 h1.2.1)
  · rename_i i j
    obtain ⟨a1, a2, a3, a4⟩ := h1
    obtain ⟨b1, b2, b3, b4⟩ := h2
    have h : i = j := by
      rcases Nat.lt_trichotomy i j with h | h | h
      · exact absurd a3 (b4 i a1 h)
      · exact h
      · exact absurd b3 (a4 j b1 h)
    rw [h]

theorem steps1_spec (m : Mem) (key n b : Nat) (hm : Mapped m b (b + n)) :
    IsFirst m key b (b + n) (steps1 m key n b) := by
  induction n generalizing b with
  | zero => intro j h1 h2; omega
  | succ n ih =>
    simp only [steps1]
    have h := hm (2 * b + 1) (by omega) (by omega)
    cases hc : m (2 * b + 1) with
    | none => simp [hc] at h
    | some g =>
      have hg : gid m b = g := by simp [gid, hc]
      simp only
      split
      · rename_i he
        exact ⟨by omega, by omega, by omega, by intro j _ _; omega⟩
      · rename_i hne
        have := ih (b + 1) (fun h h1 h2 => hm h (by omega) (by omega))
        have e : b + 1 + n = b + (n + 1) := by omega
        rw [e] at this
        refine this.extend ?_ (by omega)
        intro j h1 h2
        have : j = b := by omega
        subst this
        omega

theorem unrollBulk_spec (m : Mem) (key e items scan : Nat) (hm : Mapped m scan e)
    (hlen : scan + 8 ≤ e) (hit : items % 8 = (e - scan) % 8) :
    IsFirst m key scan e (unrollBulk m key e items scan) := by
  induction hk : (e - scan) using Nat.strongRecOn generalizing scan with
  | ind k ih =>
    rw [unrollBulk]
    have h8 := steps1_spec m key 8 scan (fun h h1 h2 => hm h h1 (by omega))
    revert h8
    cases hs : steps1 m key 8 scan with
    | fault => intro h; exact h
    | found i => intro h; exact h.shrink (by omega)
    | notFound =>
      intro h8
      simp only
      split
      · rename_i hlt
        have := ih (e - (scan + 8)) (by omega) (scan + 8)
          (fun h h1 h2 => hm h (by omega) h2) (by omega) (by omega) rfl
        exact this.extend h8 (by omega)
      · rename_i hge
        have hand : items &&& 7 = items % 8 := and_low items 3
        rw [hand]
        have e' : scan + 8 + items % 8 = e := by omega
        have := steps1_spec m key (items % 8) (scan + 8) (fun h h1 h2 => hm h (by omega) (by omega))
        rw [e'] at this
        exact this.extend h8 (by omega)

theorem scanUnroll_spec (m : Mem) (key b e : Nat) (hbe : b ≤ e) (hm : Mapped m b e) :
    IsFirst m key b e (scanUnroll m key b e) := by
  simp only [scanUnroll]
  split
  · have e' : b + (e - b) = e := by omega
    have := steps1_spec m key (e - b) b (by rw [e']; exact hm)
    rw [e'] at this
    exact this
  · exact unrollBulk_spec m key e (e - b) b hm (by omega) (by omega)

/-- Half-words touched by one vector load are mapped. -/
def LoadOk (I : Impl) (m : Mem) (scan : Nat) : Prop :=
  ∀ h, 2 * scan + I.lead ≤ h → h < 2 * scan + I.lead + 2 * I.W → (m h).isSome = true

theorem cmp2mask_ok (I : Impl) (m : Mem) (key scan : Nat) (h : LoadOk I m scan) :
    cmp2mask I m key scan =
      some (maskOf I.s I.p ((List.range I.W).map (fun j => decide (key = gid m (scan + j))))) := by
  unfold cmp2mask
  rw [if_pos]
  rw [List.all_eq_true]
  intro j hj
  rw [List.mem_range] at hj
  exact h _ (by omega) (by omega)

/-- From a mask restricted to lanes `[0, n)` of the entries at `b` to the search result. -/
theorem mask_result (I : Impl) (hs : I.p < I.s) (m : Mem) (key b n : Nat) :
    IsFirst m key b (b + n)
      (match mask2ptr I (maskOf I.s I.p ((List.range n).map (fun j => decide (key = gid m (b + j))))) b with
        | some i => .found i
        | none => .notFound) := by
  have hl : ∀ j, j < n → ((List.range n).map (fun j => decide (key = gid m (b + j))))[j]?
      = some (decide (key = gid m (b + j))) := by
    intro j hj
    simp [List.getElem?_map, List.getElem?_range hj]
  rcases mask_spec I.s I.p hs ((List.range n).map (fun j => decide (key = gid m (b + j)))) with
    ⟨h0, hall⟩ | ⟨k, hk, hlt, hne, hc⟩
  · simp only [mask2ptr, h0, if_true]
    intro j h1 h2
    have h3 := hall (j - b) (by simp; omega)
    rw [hl (j - b) (by omega)] at h3
    have : b + (j - b) = j := by omega
    rw [this] at h3
    simp at h3
    exact fun h => h3 h.symm
  · simp only [mask2ptr, if_neg hne, hc]
    have hkn : k < n := by
      have := List.getElem?_eq_some_iff.1 hk
      obtain ⟨h, _⟩ := this
      simpa using h
    have e1 : (I.s * k + I.p - I.p) / I.s = k := by
      rw [Nat.add_sub_cancel, Nat.mul_div_cancel_left _ (by omega)]
    rw [e1]
    rw [hl k hkn] at hk
    refine ⟨by omega, by omega, ?_, ?_⟩
    · simp at hk; exact hk.symm
    · intro j h1 h2
      have h3 := hlt (j - b) (by omega)
      rw [hl (j - b) (by omega)] at h3
      have : b + (j - b) = j := by omega
      rw [this] at h3
      simp at h3
      exact fun h => h3 h.symm

theorem stepW_spec (I : Impl) (hs : I.p < I.s) (m : Mem) (key scan : Nat) (h : LoadOk I m scan) :
    IsFirst m key scan (scan + I.W) (stepW I m key scan) := by
  unfold stepW
  rw [cmp2mask_ok I m key scan h]
  exact mask_result I hs m key scan I.W

theorem stepsW_spec (I : Impl) (hs : I.p < I.s) (m : Mem) (key n scan : Nat)
    (h : ∀ j, j < n → LoadOk I m (scan + I.W * j)) :
    IsFirst m key scan (scan + I.W * n) (stepsW I m key n scan) := by
  induction n generalizing scan with
  | zero => intro j h1 h2; simp at h2; omega
  | succ n ih =>
    simp only [stepsW]
    have h1 := stepW_spec I hs m key scan (by simpa using h 0 (by omega))
    have hm : I.W * (n + 1) = I.W * n + I.W := by rw [Nat.mul_add]; omega
    revert h1
    cases hst : stepW I m key scan with
    | fault => intro h; exact h
    | found i => intro h; exact h.shrink (by omega)
    | notFound =>
      intro h1
      simp only
      have := ih (scan + I.W) (by
        intro j hj
        have h2 := h (j + 1) (by omega)
        have : scan + I.W * (j + 1) = scan + I.W + I.W * j := by rw [Nat.mul_add]; omega
        rwa [this] at h2)
      have e : scan + I.W + I.W * n = scan + I.W * (n + 1) := by omega
      rw [e] at this
      exact this.extend h1 (by omega)

theorem IsFirst.overlap {m : Mem} {key b k k' e : Nat} {o : Out}
    (hb : ∀ j, b ≤ j → j < k → gid m j ≠ key) (ho : IsFirst m key k' e o) (hk : k' ≤ k) (hbk : b ≤ k') :
    IsFirst m key b e o := by
  refine IsFirst.extend (k := k') (fun j h1 h2 => hb j h1 (by omega)) ho hbk

theorem tailW_spec (I : Impl) (hs : I.p < I.s) (hW : 0 < I.W) (m : Mem) (key b scan e chunks : Nat)
    (hload : ∀ i, b ≤ i → i + I.W ≤ e → LoadOk I m i)
    (hb : b ≤ scan) (hbW : b + I.W ≤ e)
    (hcover : e ≤ scan + I.W * chunks) (hfit : scan + I.W * chunks < e + I.W)
    (hpre : ∀ j, b ≤ j → j < scan → gid m j ≠ key) (hse : scan ≤ e) :
    IsFirst m key b e (tailW I m key e chunks scan) := by
  cases chunks with
  | zero =>
    simp only [tailW]
    intro j h1 h2
    exact hpre j h1 (by simp at hcover; omega)
  | succ c =>
    have hm : I.W * (c + 1) = I.W * c + I.W := by rw [Nat.mul_add]; omega
    simp only [tailW]
    have h1 := stepsW_spec I hs m key c scan (by
      intro j hj
      have : I.W * (j + 1) ≤ I.W * c := Nat.mul_le_mul_left _ (by omega)
      rw [Nat.mul_add] at this
      exact hload _ (by omega) (by omega))
    revert h1
    cases hst : stepsW I m key c scan with
    | fault => intro h; exact h
    | found i => intro h; exact (h.shrink (by omega)).extend hpre hb
    | notFound =>
      intro h1
      simp only
      have h2 := stepW_spec I hs m key (e - I.W) (hload _ (by omega) (by omega))
      have e1 : e - I.W + I.W = e := by omega
      rw [e1] at h2
      refine h2.overlap (k := scan + I.W * c) ?_ (by omega) (by omega)
      intro j h3 h4
      by_cases h5 : j < scan
      · exact hpre j h3 h5
      · exact h1 j (by omega) h4

theorem bulkW_spec (I : Impl) (hs : I.p < I.s) (hW : 0 < I.W) (m : Mem) (key bytes b e : Nat)
    (hload : ∀ i, b ≤ i → i + I.W ≤ e → LoadOk I m i) (hbW : b + I.W ≤ e) (scan : Nat)
    (hb : b ≤ scan) (hlen : scan + 8 * I.W ≤ e)
    (hbytes : bytes % (32 * I.W) = (4 * (e - scan)) % (32 * I.W))
    (hpre : ∀ j, b ≤ j → j < scan → gid m j ≠ key) :
    IsFirst m key b e (bulkW I m key bytes e scan) := by
  induction hk : (e - scan) using Nat.strongRecOn generalizing scan with
  | ind k ih =>
    rw [bulkW]
    have h8 := stepsW_spec I hs m key 8 scan (by
      intro j hj
      have : I.W * (j + 1) ≤ I.W * 8 := Nat.mul_le_mul_left _ (by omega)
      rw [Nat.mul_add] at this
      exact hload _ (by omega) (by omega))
    revert h8
    cases hst : stepsW I m key 8 scan with
    | fault => intro h; exact h
    | found i => intro h; exact (h.shrink (by omega)).extend hpre hb
    | notFound =>
      intro h8
      have hpre' : ∀ j, b ≤ j → j < scan + 8 * I.W → gid m j ≠ key := by
        intro j h1 h2
        by_cases h3 : j < scan
        · exact hpre j h1 h3
        · exact h8 j (by omega) (by omega)
      have hstep : 4 * (e - scan) = 4 * (e - (scan + 8 * I.W)) + 32 * I.W := by omega
      rw [hstep, Nat.add_mod_right] at hbytes
      simp only
      split
      · rename_i hlt
        exact ih (e - (scan + 8 * I.W)) (by omega) (scan + 8 * I.W) (by omega) (by omega)
          hbytes hpre' rfl
      · rename_i hge
        have hr : 4 * (e - (scan + 8 * I.W)) < 32 * I.W := by omega
        rw [Nat.mod_eq_of_lt hr] at hbytes
        rw [hbytes]
        generalize hrr : e - (scan + 8 * I.W) = r at *
        have hdiv : (4 * r + (4 * I.W - 1)) / (4 * I.W) = (r + (I.W - 1)) / I.W := by
          have h1 : 4 * r + (4 * I.W - 1) = 3 + 4 * (r + (I.W - 1)) := by omega
          have h2 : (3 + 4 * (r + (I.W - 1))) / 4 = r + (I.W - 1) := by omega
          rw [h1, ← Nat.div_div_eq_div_mul, h2]
        rw [hdiv]
        have hd := Nat.div_add_mod (r + (I.W - 1)) I.W
        have hml := Nat.mod_lt (r + (I.W - 1)) hW
        exact tailW_spec I hs hW m key b _ e _ hload (by omega) hbW (by omega) (by omega) hpre' (by omega)

theorem scanW_spec_long (I : Impl) (hs : I.p < I.s) (hW : 0 < I.W) (m : Mem) (key b e : Nat)
    (hload : ∀ i, b ≤ i → i + I.W ≤ e → LoadOk I m i) (hlong : b + I.W ≤ e) :
    IsFirst m key b e (scanW I m key b e) := by
  simp only [scanW]
  rw [if_neg (by omega)]
  generalize hn : e - b = n at *
  have hdiv : (4 * n + (4 * I.W - 1)) / (4 * I.W) = (n + (I.W - 1)) / I.W := by
    have h1 : 4 * n + (4 * I.W - 1) = 3 + 4 * (n + (I.W - 1)) := by omega
    have h2 : (3 + 4 * (n + (I.W - 1))) / 4 = n + (I.W - 1) := by omega
    rw [h1, ← Nat.div_div_eq_div_mul, h2]
  rw [hdiv]
  have hd := Nat.div_add_mod (n + (I.W - 1)) I.W
  have hml := Nat.mod_lt (n + (I.W - 1)) hW
  split
  · exact tailW_spec I hs hW m key b b e _ hload (by omega) hlong (by omega) (by omega)
      (by intro j h1 h2; omega) (by omega)
  · rename_i hgt
    have h9 : I.W * 9 ≤ I.W * ((n + (I.W - 1)) / I.W) := Nat.mul_le_mul_left _ (by omega)
    exact bulkW_spec I hs hW m key (4 * n) b e hload hlong b (by omega) (by omega)
      (by rw [hn]) (by intro j h1 h2; omega)

theorem drop_range_map (f : Nat → Bool) (n k : Nat) :
    ((List.range n).map f).drop k = (List.range (n - k)).map (fun j => f (k + j)) := by
  apply List.ext_getElem?
  intro i
  rw [List.getElem?_drop, List.getElem?_map, List.getElem?_map]
  by_cases h : k + i < n
  · rw [List.getElem?_range h, List.getElem?_range (by omega)]; rfl
  · rw [List.getElem?_eq_none (by simp; omega), List.getElem?_eq_none (by simp; omega)]; rfl

theorem take_range_map (f : Nat → Bool) (n k : Nat) (h : k ≤ n) :
    ((List.range n).map f).take k = (List.range k).map f := by
  rw [← List.map_take, List.take_range, Nat.min_eq_left h]

theorem scanW_spec_short (I : Impl) (hs : I.p < I.s) (m : Mem) (key b e : Nat)
    (hshort : e < b + I.W) (hbe : b ≤ e) (hpg : I.W ≤ I.pageMin)
    (hload1 : b < e → I.pageMin ≤ b % 1024 → LoadOk I m (e - I.W))
    (hload2 : b < e → b % 1024 < I.pageMin → LoadOk I m b) :
    IsFirst m key b e (scanW I m key b e) := by
  simp only [scanW]
  rw [if_pos (by omega)]
  split
  · intro j h1 h2; omega
  · rename_i hne
    simp only [shortW]
    split
    · rename_i hpm
      rw [cmp2mask_ok I m key _ (hload1 (by omega) hpm)]
      simp only
      rw [mask_shift I.s I.p hs, drop_range_map]
      have hWn : I.W - (I.W - (e - b)) = e - b := by omega
      rw [hWn]
      have hbW : I.W ≤ b := by
        have := Nat.mod_le b 1024
        omega
      have hf : (fun j => decide (key = gid m (e - I.W + (I.W - (e - b) + j))))
          = (fun j => decide (key = gid m (b + j))) := by
        funext j
        have : e - I.W + (I.W - (e - b) + j) = b + j := by omega
        rw [this]
      rw [hf]
      have := mask_result I hs m key b (e - b)
      have e1 : b + (e - b) = e := by omega
      rw [e1] at this
      exact this
    · rename_i hpm
      rw [cmp2mask_ok I m key _ (hload2 (by omega) (by omega))]
      simp only
      rw [mask_shift I.s I.p hs, List.drop_replicate]
      have hWn : I.W - (I.W - (e - b)) = e - b := by omega
      rw [hWn, mask_and I.s I.p hs, take_range_map _ _ _ (by omega)]
      have := mask_result I hs m key b (e - b)
      have e1 : b + (e - b) = e := by omega
      rw [e1] at this
      exact this

end Fptu.Scan
