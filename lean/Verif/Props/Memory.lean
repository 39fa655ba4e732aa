import Verif.Model.Memory
/-! # C35, C42: memory helpers -/
namespace Fptu.Props
open Fptu.Mem

/-- The byte at address `a`. -/
def memByte (m : Nat → Nat) (a : Nat) : Nat := m (a / 8) / 2 ^ (8 * (a % 8)) % 256

private theorem testBit_whole (i : Nat) : whole.testBit i = decide (i < 64) := by
  unfold whole; exact Nat.testBit_two_pow_sub_one 64 i

/-- An entry of the plan covers exactly the bits of the range lying in its word. -/
private def Exact (p n : Nat) (e : Nat × Nat) : Prop :=
  ∀ i, e.2.testBit i = decide (i < 64 ∧ 8 * p ≤ 64 * e.1 + i ∧ 64 * e.1 + i < 8 * (p + n))

private theorem bulk_spec (p n : Nat) (w : Nat) (b : Int) (hw : p ≤ 8 * w)
    (hb : (8 * w : Int) + b = p + n) :
    (∀ e ∈ bulk w b, Exact p n e) ∧ (bulk w b).map Prod.fst = List.range' w ((b.toNat + 7) / 8) := by
  induction hk : b.toNat using Nat.strongRecOn generalizing w b with
  | ind k ih =>
    subst hk
    rw [bulk]
    by_cases h8 : b ≥ 8
    · rw [if_pos h8]
      obtain ⟨i1, i2⟩ := ih (b - 8).toNat (by omega) (w + 1) (b - 8) (by omega) (by omega) rfl
      constructor
      · intro e he
        rcases List.mem_cons.1 he with rfl | he
        · intro i
          rw [testBit_whole, decide_eq_decide]
          simp only
          omega
        · exact i1 e he
      · rw [List.map_cons, i2, show (b.toNat + 7) / 8 = ((b - 8).toNat + 7) / 8 + 1 by omega, List.range'_succ]
    · rw [if_neg h8]
      by_cases h0 : b > 0
      · rw [if_pos h0]
        constructor
        · intro e he
          rw [List.mem_singleton.1 he]
          intro i
          unfold aheadmask
          rw [Nat.testBit_shiftRight, testBit_whole, decide_eq_decide]
          simp only
          omega
        · rw [show (b.toNat + 7) / 8 = 1 by omega]; rfl
      · rw [if_neg h0]
        exact ⟨fun e he => absurd he (List.not_mem_nil), by rw [show (b.toNat + 7) / 8 = 0 by omega]; rfl⟩

private theorem plan_spec (p n : Nat) (hn : 0 < n) (hp : p + n < 2 ^ 64) :
    (∀ e ∈ plan p n, Exact p n e) ∧
    (plan p n).map Prod.fst = List.range' (p / 8) ((p + n + 7) / 8 - p / 8) := by
  unfold plan
  simp only
  by_cases hu : p % 8 ≠ 0
  · rw [if_pos hu]
    have hw : (p - p % 8) / 8 = p / 8 := by omega
    rw [hw]
    obtain ⟨i1, i2⟩ := bulk_spec p n (p / 8 + 1) ((n : Int) - ((8 - p % 8 : Nat) : Int)) (by omega) (by omega)
    constructor
    · intro e he
      rcases List.mem_cons.1 he with rfl | he
      · intro i
        simp only
        rw [Nat.testBit_mod_two_pow, Nat.testBit_shiftLeft]
        by_cases hb : (n : Int) - ((8 - p % 8 : Nat) : Int) < 0
        · rw [if_pos hb]
          have hs : (((p % 8 : Nat) : Int) - ((n : Int) - ((8 - p % 8 : Nat) : Int))) % 2 ^ 64 = 8 - n := by
            omega
          rw [hs, Nat.testBit_shiftRight, testBit_whole, Bool.eq_iff_iff]
          simp only [Bool.and_eq_true, decide_eq_true_eq]
          omega
        · rw [if_neg hb, testBit_whole, Bool.eq_iff_iff]
          simp only [Bool.and_eq_true, decide_eq_true_eq]
          omega
      · exact i1 e he
    · rw [List.map_cons, i2]
      have : (p + n + 7) / 8 - p / 8 = (((n : Int) - ((8 - p % 8 : Nat) : Int)).toNat + 7) / 8 + 1 := by omega
      rw [this, List.range'_succ]
  · rw [if_neg hu]
    have := bulk_spec p n (p / 8) (n : Int) (by omega) (by omega)
    rw [show (p + n + 7) / 8 - p / 8 = ((n : Int).toNat + 7) / 8 by omega]
    exact this

private theorem run_notin (c : Bool) (l : List (Nat × Nat)) (v : Nat) (m : Nat → Nat) (x : Nat)
    (hx : x ∉ l.map Prod.fst) : runPollute c l v m x = m x := by
  induction l generalizing v m with
  | nil => rfl
  | cons e r ih =>
    simp only [List.map_cons, List.mem_cons, not_or] at hx
    rw [runPollute, ih _ _ hx.2]
    exact if_neg hx.1

private theorem run_upd (c : Bool) (l : List (Nat × Nat)) (v : Nat) (m : Nat → Nat) (x y : Nat)
    (hx : x ∉ l.map Prod.fst) : runPollute c l v (upd m x y) = upd (runPollute c l v m) x y := by
  induction l generalizing v m with
  | nil => rfl
  | cons e r ih =>
    simp only [List.map_cons, List.mem_cons, not_or] at hx
    rw [runPollute, runPollute]
    rw [← ih _ _ hx.2]
    congr 1
    funext j
    unfold upd
    by_cases h1 : j = e.1
    · have h2 : ¬ j = x := fun h => hx.1 (by rw [← h, h1])
      have h3 : ¬ e.1 = x := fun h => hx.1 h.symm
      simp only [h1, h3, if_true, if_false]
    · simp only [h1, if_false]

private theorem run_twice (c : Bool) (l : List (Nat × Nat)) (v : Nat) (m : Nat → Nat)
    (hd : (l.map Prod.fst).Nodup) : runPollute c l v (runPollute c l v m) = m := by
  induction l generalizing v m with
  | nil => rfl
  | cons e r ih =>
    simp only [List.map_cons, List.nodup_cons] at hd
    rw [runPollute, runPollute]
    generalize (if c = true then linearCongruential v else v) = v'
    rw [run_upd _ _ _ _ _ _ hd.1, run_upd _ _ _ _ _ _ hd.1, run_upd _ _ _ _ _ _ hd.1, ih _ _ hd.2]
    funext j
    unfold upd
    by_cases h1 : j = e.1
    · rw [if_pos h1, if_pos rfl, Nat.xor_assoc, Nat.xor_self, Nat.xor_zero, h1]
    · rw [if_neg h1, if_neg h1]

private theorem run_in (l : List (Nat × Nat)) (v : Nat) (m : Nat → Nat) (e : Nat × Nat) (he : e ∈ l)
    (hd : (l.map Prod.fst).Nodup) (c : Bool) :
    ∃ k, (c = false → k = v) ∧ runPollute c l v m e.1 = m e.1 ^^^ (k &&& e.2) := by
  induction l generalizing v m with
  | nil => exact absurd he List.not_mem_nil
  | cons f r ih =>
    simp only [List.map_cons, List.nodup_cons] at hd
    rw [runPollute]
    rcases List.mem_cons.1 he with rfl | he
    · refine ⟨_, ?_, by rw [run_notin _ _ _ _ _ hd.1]; exact if_pos rfl⟩
      intro hc; rw [hc]; rfl
    · have hne : e.1 ≠ f.1 := fun h => hd.1 (h ▸ List.mem_map_of_mem he)
      obtain ⟨k, hk, hr⟩ := ih (if c = true then linearCongruential v else v)
        (upd m f.1 (m f.1 ^^^ ((if c = true then linearCongruential v else v) &&& f.2))) he hd.2
      refine ⟨k, fun h => by rw [hk h, h]; rfl, ?_⟩
      rw [hr]
      unfold upd
      rw [if_neg hne]

private theorem memByte_bits (m : Nat → Nat) (a i : Nat) :
    (memByte m a).testBit i = (decide (i < 8) && (m (a / 8)).testBit (8 * (a % 8) + i)) := by
  unfold memByte
  rw [show (256 : Nat) = 2 ^ 8 from rfl, Nat.testBit_mod_two_pow, Nat.testBit_div_two_pow, Nat.add_comm i]

private theorem range'_nodup (s n : Nat) : (List.range' s n).Nodup := List.nodup_range'

private theorem pollute_run (p n x : Nat) (hn : 0 < n) :
    ∃ c v, (x ≠ 0 → c = false ∧ v = x) ∧ ∀ m, pollute m p n x = runPollute c (plan p n) v m := by
  by_cases hx : x ≠ 0
  · exact ⟨false, x, fun _ => ⟨rfl, rfl⟩, fun m => by unfold pollute; rw [if_pos (by omega), if_pos hx]⟩
  · exact ⟨true, _, fun h => absurd h hx, fun m => by unfold pollute; rw [if_pos (by omega), if_neg hx]⟩

/-- **C35 (pollute, frame).** No byte outside the range changes; with a nonpositive length nothing changes. -/
theorem C35_pollute_frame (m : Nat → Nat) (p : Nat) (n : Int) (x a : Nat) (hp : (p : Int) + n < 2 ^ 64)
    (ha : (a : Int) < p ∨ (p : Int) + n ≤ a) : memByte (pollute m p n x) a = memByte m a := by
  by_cases hn : n > 0
  · obtain ⟨k, rfl⟩ : ∃ k : Nat, n = k := ⟨n.toNat, by omega⟩
    obtain ⟨c, v, _, hr⟩ := pollute_run p k x (by omega)
    rw [hr]
    obtain ⟨s1, s2⟩ := plan_spec p k (by omega) (by omega)
    apply Nat.eq_of_testBit_eq
    intro i
    rw [memByte_bits, memByte_bits]
    by_cases hi : i < 8
    · congr 1
      by_cases hin : a / 8 ∈ (plan p k).map Prod.fst
      · obtain ⟨e, he, hea⟩ := List.mem_map.1 hin
        obtain ⟨w, _, hw⟩ := run_in (plan p k) v m e he (by rw [s2]; exact range'_nodup _ _) c
        rw [← hea, hw, Nat.testBit_xor, Nat.testBit_and, s1 e he, hea]
        rw [decide_eq_false (by omega)]
        simp
      · rw [run_notin _ _ _ _ _ hin]
    · rw [decide_eq_false hi]; rfl
  · unfold pollute; rw [if_neg hn]

/-- **C35 (pollute, involution).** Polluting the same range twice restores the memory. -/
theorem C35_pollute_twice (m : Nat → Nat) (p : Nat) (n : Int) (x : Nat) (hp : (p : Int) + n < 2 ^ 64) :
    pollute (pollute m p n x) p n x = m := by
  by_cases hn : n > 0
  · obtain ⟨k, rfl⟩ : ∃ k : Nat, n = k := ⟨n.toNat, by omega⟩
    obtain ⟨c, v, _, hr⟩ := pollute_run p k x (by omega)
    rw [hr, hr]
    obtain ⟨s1, s2⟩ := plan_spec p k (by omega) (by omega)
    exact run_twice c _ v m (by rw [s2]; exact range'_nodup _ _)
  · unfold pollute; rw [if_neg hn, if_neg hn]

/-- **C35 (pollute, effect).** With an explicit mask each byte of the range is xor-ed with the mask byte of
its position in the machine word. -/
theorem C35_pollute_effect (m : Nat → Nat) (p n x a : Nat) (hp : p + n < 2 ^ 64) (hx : x ≠ 0)
    (ha : p ≤ a) (ha' : a < p + n) :
    memByte (pollute m p n x) a = memByte m a ^^^ (x / 2 ^ (8 * (a % 8)) % 256) := by
  obtain ⟨c, v, hcv, hr⟩ := pollute_run p n x (by omega)
  obtain ⟨rfl, rfl⟩ := hcv hx
  rw [hr]
  obtain ⟨s1, s2⟩ := plan_spec p n (by omega) (by omega)
  have hin : a / 8 ∈ (plan p n).map Prod.fst := by
    rw [s2, List.mem_range'_1]; omega
  obtain ⟨e, he, hea⟩ := List.mem_map.1 hin
  obtain ⟨w, hw1, hw⟩ := run_in (plan p n) v m e he (by rw [s2]; exact range'_nodup _ _) false
  have hwv := hw1 rfl
  subst hwv
  apply Nat.eq_of_testBit_eq
  intro i
  rw [Nat.testBit_xor, memByte_bits, memByte_bits, show (256 : Nat) = 2 ^ 8 from rfl, Nat.testBit_mod_two_pow,
    Nat.testBit_div_two_pow]
  by_cases hi : i < 8
  · rw [← hea, hw, Nat.testBit_xor, Nat.testBit_and, s1 e he, hea]
    rw [decide_eq_true hi, decide_eq_true (by omega), Nat.add_comm i]
    simp
  · rw [decide_eq_false hi]; rfl

/-- **C35 (zero check).** For a nonempty range the answer is true exactly when every byte is zero; an empty
range is reported as not zeroed. -/
theorem C35_is_zeroed (m : Nat → Nat) (p : Nat) (n : Int) (hp : (p : Int) + n < 2 ^ 64) :
    isZeroed m p n = true ↔ 0 < n ∧ ∀ a : Nat, p ≤ a → (a : Int) < p + n → memByte m a = 0 := by
  unfold isZeroed
  by_cases hn : n > 0
  · obtain ⟨k, rfl⟩ : ∃ k : Nat, n = k := ⟨n.toNat, by omega⟩
    obtain ⟨s1, s2⟩ := plan_spec p k (by omega) (by omega)
    simp only [Bool.and_eq_true, decide_eq_true_eq, Bool.not_eq_true', List.any_eq_false, bne_iff_ne, ne_eq,
      Decidable.not_not]
    constructor
    · rintro ⟨_, h⟩
      refine ⟨hn, fun a h1 h2 => ?_⟩
      have hin : a / 8 ∈ (plan p k).map Prod.fst := by
        rw [s2, List.mem_range'_1]; omega
      obtain ⟨e, he, hea⟩ := List.mem_map.1 hin
      apply Nat.eq_of_testBit_eq
      intro i
      rw [memByte_bits, Nat.zero_testBit]
      by_cases hi : i < 8
      · have := congrArg (fun z => z.testBit (8 * (a % 8) + i)) (h e he)
        simp only [Nat.testBit_and, Nat.zero_testBit] at this
        rw [s1 e he, hea, decide_eq_true (by omega), Bool.and_true] at this
        rw [this, Bool.and_false]
      · rw [decide_eq_false hi]; rfl
    · rintro ⟨_, h⟩
      refine ⟨hn, fun e he => ?_⟩
      apply Nat.eq_of_testBit_eq
      intro i
      rw [Nat.testBit_and, Nat.zero_testBit, s1 e he]
      by_cases hd : i < 64 ∧ 8 * p ≤ 64 * e.1 + i ∧ 64 * e.1 + i < 8 * (p + k)
      · have h1 := h (8 * e.1 + i / 8) (by omega) (by omega)
        have h2 := memByte_bits m (8 * e.1 + i / 8) (i % 8)
        rw [h1, Nat.zero_testBit, decide_eq_true (Nat.mod_lt _ (by decide)), Bool.true_and,
          show (8 * e.1 + i / 8) / 8 = e.1 by omega,
          show 8 * ((8 * e.1 + i / 8) % 8) + i % 8 = i by omega] at h2
        rw [← h2, Bool.false_and]
      · rw [decide_eq_false hd, Bool.and_false]
  · rw [decide_eq_false hn]
    simp only [Bool.false_and, Bool.false_eq_true, false_iff, not_and]
    intro h; exact absurd h hn

/-- **C35 (locality).** Only machine words overlapping the range are accessed, each once. -/
theorem C35_accesses (p n : Nat) (hn : 0 < n) (hp : p + n < 2 ^ 64) :
    ((plan p n).map Prod.fst).Nodup ∧
    ∀ w, w ∈ (plan p n).map Prod.fst ↔ ∃ a, p ≤ a ∧ a < p + n ∧ a / 8 = w := by
  obtain ⟨_, s2⟩ := plan_spec p n hn hp
  rw [s2]
  refine ⟨range'_nodup _ _, fun w => ?_⟩
  rw [List.mem_range'_1]
  constructor
  · intro h
    by_cases h1 : 8 * w ≤ p
    · exact ⟨p, Nat.le_refl _, by omega, by omega⟩
    · exact ⟨8 * w, by omega, by omega, by omega⟩
  · rintro ⟨a, h1, h2, rfl⟩
    omega

/-- A range inside one word not starting at its boundary, and a range of three words. -/
example : isZeroed (fun w => if w = 1 then 0xFF000000000000FF else 0) 9 6 = true ∧
    isZeroed (fun w => if w = 1 then 0xFF000000000000FF else 0) 9 7 = false ∧
    isZeroed (fun _ => 0) 9 0 = false ∧
    (plan 5 20).map Prod.fst = [0, 1, 2, 3] := by
  refine ⟨?_, ?_, ?_, ?_⟩ <;> simp [isZeroed, plan, bulk, aheadmask, whole]

/-! ## C42: log2size -/

private theorem loop_spec (value lmin step j : Nat) (hs : 0 < step) (hmax : lmin + step * j < 64) :
    ∀ k fuel, k < j → j - k < fuel → (∀ i, i < k → 2 ^ (lmin + step * i) < value) →
    ∃ r, log2loop value (2 ^ (lmin + step * j)) step fuel (2 ^ (lmin + step * k)) = some r ∧
      ∃ i, i ≤ j ∧ r = 2 ^ (lmin + step * i) ∧ (value ≤ r ∨ i = j) ∧
        ∀ i', i' < i → 2 ^ (lmin + step * i') < value := by
  intro k fuel
  induction fuel generalizing k with
  | zero => intro h1 h2; omega
  | succ f ih =>
    intro hk hf hlow
    rw [log2loop]
    by_cases hv : value > 2 ^ (lmin + step * k)
    · rw [if_pos hv]
      have hlow' : ∀ i, i < k + 1 → 2 ^ (lmin + step * i) < value := by
        intro i hi
        by_cases h : i = k
        · rw [h]; exact hv
        · exact hlow i (by omega)
      have hle : lmin + step * (k + 1) ≤ lmin + step * j :=
        Nat.add_le_add_left (Nat.mul_le_mul_left _ hk) _
      have hshift : (2 ^ (lmin + step * k) <<< step) % 2 ^ 64 = 2 ^ (lmin + step * (k + 1)) := by
        rw [Nat.shiftLeft_eq, ← Nat.pow_add, Nat.mul_succ, ← Nat.add_assoc]
        apply Nat.mod_eq_of_lt
        apply Nat.pow_lt_pow_right (by decide)
        rw [Nat.mul_succ] at hle
        omega
      simp only [hshift]
      by_cases hu : 2 ^ (lmin + step * (k + 1)) ≥ 2 ^ (lmin + step * j)
      · rw [if_pos hu]
        have hj : lmin + step * j ≤ lmin + step * (k + 1) := (Nat.pow_le_pow_iff_right (by decide)).1 hu
        have : j ≤ k + 1 := Nat.le_of_mul_le_mul_left (by omega : step * j ≤ step * (k + 1)) hs
        refine ⟨_, rfl, j, Nat.le_refl _, rfl, Or.inr rfl, fun i hi => hlow' i (by omega)⟩
      · rw [if_neg hu]
        have hkj : k + 1 < j := by
          apply Decidable.byContradiction
          intro h
          have : j = k + 1 := by omega
          rw [this] at hu
          exact hu (Nat.le_refl _)
        exact ih (k + 1) hkj (by omega) hlow'
    · rw [if_neg hv]
      exact ⟨_, rfl, k, by omega, rfl, Or.inl (by omega), hlow⟩

/-- **C42.** With the documented preconditions (`log2max < 64`, `log2min < log2max`, the step divides the
difference) `log2size` terminates and returns the least power `2^(min + step*i)`, `i ≤ (max-min)/step`, which
is at least `value`, or `2^max` when `value` exceeds it. -/
theorem C42_log2size (value lmin lmax step : Nat) (hm : lmin < lmax) (hmax : lmax < 64) (hs : 0 < step)
    (hd : step ∣ lmax - lmin) :
    ∃ r, log2size (lmax - lmin + 1) value lmin lmax step = some r ∧
      ∃ i, lmin + step * i ≤ lmax ∧ r = 2 ^ (lmin + step * i) ∧ (value ≤ r ∨ (r = 2 ^ lmax ∧ 2 ^ lmax < value)) ∧
        ∀ i', i' < i → 2 ^ (lmin + step * i') < value := by
  obtain ⟨j, hj⟩ := hd
  have hl : lmax = lmin + step * j := by omega
  have hj0 : 0 < j := by
    rcases Nat.eq_zero_or_pos j with h | h
    · rw [h] at hl; omega
    · exact h
  have hjle : j ≤ step * j := Nat.le_mul_of_pos_left j hs
  unfold log2size
  rw [Nat.one_shiftLeft, Nat.one_shiftLeft]
  have := loop_spec value lmin step j hs (by omega) 0 (lmax - lmin + 1) hj0 (by omega) (fun i h => by omega)
  rw [Nat.mul_zero, Nat.add_zero, ← hl] at this
  obtain ⟨r, hr, i, hi, hri, hv, hlow⟩ := this
  refine ⟨r, hr, i, ?_, hri, ?_, hlow⟩
  · rw [hl]; exact Nat.add_le_add_left (Nat.mul_le_mul_left _ hi) _
  · rcases hv with h | h
    · exact Or.inl h
    · by_cases hvr : value ≤ r
      · exact Or.inl hvr
      · subst h
        rw [← hl] at hri
        exact Or.inr ⟨hri, by omega⟩

example : log2size 13 5000 8 20 3 = some (2 ^ 14) ∧ log2size 13 (2 ^ 30) 8 20 3 = some (2 ^ 20) ∧
    log2size 13 0 8 20 3 = some 256 := by decide

end Fptu.Props
