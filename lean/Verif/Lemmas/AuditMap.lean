import Verif.Model.Audit
import Verif.Lemmas.GearBase
/-!
# The interval map of the validation
-/
namespace Fptu.Audit
open Fptu.Gear Fptu.Rw

/-- How many intervals of the map contain the unit `u`. -/
def cov (M : Map) (u : Nat) : ℤ := (M.map fun i => ind i.1 (i.2 - i.1) u).sum

@[simp] theorem cov_nil (u : Nat) : cov [] u = 0 := rfl
@[simp] theorem cov_cons (i : Nat × Nat) (M : Map) (u : Nat) : cov (i :: M) u = ind i.1 (i.2 - i.1) u + cov M u := by
  simp [cov]
@[simp] theorem cov_append (A B : Map) (u : Nat) : cov (A ++ B) u = cov A u + cov B u := by simp [cov]
@[simp] theorem cov_reverse (A : Map) (u : Nat) : cov A.reverse u = cov A u := by
  induction A with
  | nil => simp
  | cons i A ih => rw [List.reverse_cons, cov_append, ih, cov_cons, cov_cons, cov_nil]; omega
theorem cov_nonneg (M : Map) (u : Nat) : 0 ≤ cov M u := by
  induction M with
  | nil => simp
  | cons i M ih => rw [cov_cons]; have := ind_nonneg i.1 (i.2 - i.1) u; omega

/-- Ascending, with gaps. -/
structure Good (M : Map) : Prop where
  ord : M.Pairwise fun i j => i.2 < j.1
  le : ∀ i ∈ M, i.1 ≤ i.2

theorem Good.nil : Good [] := ⟨List.Pairwise.nil, by simp⟩

theorem Good.tail {i : Nat × Nat} {M : Map} (h : Good (i :: M)) : Good M :=
  ⟨(List.pairwise_cons.1 h.ord).2, fun j hj => h.le j (List.mem_cons_of_mem _ hj)⟩

theorem cov_below {M : Map} {u x : Nat} (h : ∀ i ∈ M, x < i.1) (hu : u ≤ x) : cov M u = 0 := by
  induction M with
  | nil => simp
  | cons i M ih =>
    rw [cov_cons, ih fun j hj => h j (List.mem_cons_of_mem _ hj)]
    have := h i List.mem_cons_self
    unfold ind; split_ifs <;> omega

theorem cov_above {M : Map} {u x : Nat} (h : ∀ i ∈ M, i.2 ≤ x) (hu : x ≤ u) : cov M u = 0 := by
  induction M with
  | nil => simp
  | cons i M ih =>
    rw [cov_cons, ih fun j hj => h j (List.mem_cons_of_mem _ hj)]
    have := h i List.mem_cons_self
    unfold ind; split_ifs <;> omega

theorem Good.cov_le {M : Map} (h : Good M) (u : Nat) : cov M u ≤ 1 := by
  induction M with
  | nil => simp
  | cons i M ih =>
    rw [cov_cons]
    have k := List.pairwise_cons.1 h.ord
    have k2 := ih h.tail
    by_cases hu : u ≤ i.2
    · rw [cov_below k.1 hu]; have := ind_le_one i.1 (i.2 - i.1) u; omega
    · have : ind i.1 (i.2 - i.1) u = 0 := by unfold ind; split_ifs <;> omega
      omega

theorem split_lo (M : Map) (e : Nat) : ∀ i ∈ M.takeWhile (fun i => decide (i.1 ≤ e)), i.1 ≤ e := by
  induction M with
  | nil => simp
  | cons j M ih =>
    intro i hi
    rw [List.takeWhile_cons] at hi
    by_cases c : j.1 ≤ e
    · rw [if_pos (by simpa using c)] at hi
      rcases List.mem_cons.1 hi with rfl | hm
      · exact c
      · exact ih i hm
    · rw [if_neg (by simpa using c)] at hi
      cases hi

theorem split_hi {M : Map} (h : Good M) (e : Nat) : ∀ i ∈ M.dropWhile (fun i => decide (i.1 ≤ e)), e < i.1 := by
  induction M with
  | nil => simp
  | cons j M ih =>
    intro i hi
    rw [List.dropWhile_cons] at hi
    by_cases c : j.1 ≤ e
    · rw [if_pos (by simpa using c)] at hi
      exact ih h.tail i hi
    · rw [if_neg (by simpa using c)] at hi
      rcases List.mem_cons.1 hi with rfl | hm
      · omega
      · have := (List.pairwise_cons.1 h.ord).1 i hm
        have := h.le j List.mem_cons_self
        omega

/-- Result of a successful insertion. -/
structure Inserted (M : Map) (b e : Nat) (M' : Map) : Prop where
  good : Good M'
  cov : ∀ u, cov M' u = cov M u + ind b (e - b) u
  grow : ∀ i ∈ M, ∃ j ∈ M', j.1 ≤ i.1 ∧ i.2 ≤ j.2
  here : ∃ j ∈ M', j.1 ≤ b ∧ e ≤ j.2
  strict : b < e → (∀ i ∈ M, i.1 < i.2) → ∀ i ∈ M', i.1 < i.2
  len : M'.length ≤ M.length + 1

theorem mapInsert_sound {M M' : Map} {b e : Nat} (hM : Good M) (hbe : b ≤ e) (h : mapInsert M b e = some M') :
    Inserted M b e M' := by
  have hlo := split_lo M e
  have hhi := split_hi hM e
  have hsp := List.takeWhile_append_dropWhile (p := fun i : Nat × Nat => decide (i.1 ≤ e)) (l := M)
  unfold mapInsert at h
  generalize List.takeWhile (fun i : Nat × Nat => decide (i.1 ≤ e)) M = lo at *
  generalize List.dropWhile (fun i : Nat × Nat => decide (i.1 ≤ e)) M = hi at *
  obtain ⟨lr, rfl⟩ : ∃ lr, lo = List.reverse lr := ⟨lo.reverse, by simp⟩
  simp only [List.reverse_reverse] at h
  subst hsp
  obtain ⟨ord, le⟩ := hM
  have hle2 : ∀ i ∈ hi, i.1 ≤ i.2 := fun i hi' => le i (List.mem_append.2 (Or.inr hi'))
  cases lr with
  | nil =>
    simp only [Option.some.injEq] at h
    subst h
    simp only [List.reverse_nil, List.nil_append] at *
    refine ⟨⟨List.pairwise_cons.2 ⟨fun i hi' => hhi i hi', ord⟩, ?_⟩, ?_, ?_, ⟨_, List.mem_cons_self, le_rfl, le_rfl⟩, ?_, by simp⟩
    · intro i hi'
      rcases List.mem_cons.1 hi' with rfl | hm
      · exact hbe
      · exact le i hm
    · intro u; rw [cov_cons]; show ind b (e - b) u + _ = _; omega
    · exact fun i hi' => ⟨i, List.mem_cons_of_mem _ hi', le_rfl, le_rfl⟩
    · intro h1 h2 i hi'
      rcases List.mem_cons.1 hi' with rfl | hm
      · exact h1
      · exact h2 i hm
  | cons here before =>
    simp only at h
    have hh : here.1 ≤ e := hlo here (by simp)
    have hhl : here.1 ≤ here.2 := le here (by simp)
    rw [List.pairwise_append] at ord
    obtain ⟨o1, o2, o3⟩ := ord
    rw [List.reverse_cons, List.pairwise_append] at o1
    obtain ⟨o1, _, o4⟩ := o1
    have o4 : ∀ i ∈ before, i.2 < here.1 := fun i hi' => o4 i (by simpa using hi') here (by simp)
    have o5 : ∀ i ∈ before, ∀ j ∈ hi, i.2 < j.1 := fun i hi' j hj => o3 i (by simp [hi']) j hj
    have o6 : ∀ j ∈ hi, here.2 < j.1 := fun j hj => o3 here (by simp) j hj
    have lb : ∀ i ∈ before, i.1 ≤ i.2 := fun i hi' => le i (by simp [hi'])
    -- replacing `here` by `n`
    have repl : ∀ n : Nat × Nat, n.1 ≤ n.2 → (∀ i ∈ before, i.2 < n.1) → (∀ j ∈ hi, n.2 < j.1) →
        n.1 ≤ here.1 → here.2 ≤ n.2 → n.1 ≤ b → e ≤ n.2 →
        (∀ u, ind n.1 (n.2 - n.1) u = ind here.1 (here.2 - here.1) u + ind b (e - b) u) →
        Inserted ((here :: before).reverse ++ hi) b e (before.reverse ++ n :: hi) := by
      intro n h1 h2 h3 h4 h5 h6 h7 h8
      refine ⟨⟨?_, ?_⟩, ?_, ?_, ⟨n, by simp, h6, h7⟩, ?_, by simp⟩
      · rw [List.pairwise_append, List.pairwise_cons]
        refine ⟨o1, ⟨h3, o2⟩, fun i hi' j hj => ?_⟩
        have hi' : i ∈ before := by simpa using hi'
        rcases List.mem_cons.1 hj with rfl | hm
        · exact h2 i hi'
        · exact o5 i hi' j hm
      · intro i hi'
        rcases List.mem_append.1 hi' with hm | hm
        · exact lb i (by simpa using hm)
        · rcases List.mem_cons.1 hm with rfl | hm
          · exact h1
          · exact hle2 i hm
      · intro u
        have := h8 u
        simp only [cov_append, cov_reverse, cov_cons]
        omega
      · intro i hi'
        rcases List.mem_append.1 hi' with hm | hm
        · rcases List.mem_cons.1 (List.mem_reverse.1 hm) with rfl | hm
          · exact ⟨n, by simp, h4, h5⟩
          · exact ⟨i, by simp [hm], le_rfl, le_rfl⟩
        · exact ⟨i, by simp [hm], le_rfl, le_rfl⟩
      · intro k1 k2 i hi'
        rcases List.mem_append.1 hi' with hm | hm
        · exact k2 i (by simp [List.mem_reverse.1 hm])
        · rcases List.mem_cons.1 hm with rfl | hm
          · omega
          · exact k2 i (by simp [hm])
    by_cases c1 : here.2 < b
    · rw [if_pos c1] at h
      simp only [Option.some.injEq] at h
      subst h
      refine ⟨⟨?_, ?_⟩, ?_, ?_, ⟨(b, e), by simp, le_rfl, le_rfl⟩, ?_, by simp; omega⟩
      · rw [List.pairwise_append, List.pairwise_cons]
        refine ⟨?_, ⟨fun j hj => hhi j hj, o2⟩, fun i hi' j hj => ?_⟩
        · rw [List.reverse_cons, List.pairwise_append]
          refine ⟨o1, List.pairwise_singleton _ _, fun i hi' j hj => ?_⟩
          rw [List.mem_singleton] at hj
          subst hj
          exact o4 i (by simpa using hi')
        · have hib : i.2 ≤ here.2 := by
            rcases List.mem_cons.1 (List.mem_reverse.1 hi') with rfl | hm
            · exact le_rfl
            · have := o4 i hm; omega
          rcases List.mem_cons.1 hj with rfl | hm
          · show i.2 < b
            omega
          · exact o3 i hi' j hm
      · intro i hi'
        rcases List.mem_append.1 hi' with hm | hm
        · exact le i (List.mem_append.2 (Or.inl hm))
        · rcases List.mem_cons.1 hm with rfl | hm
          · exact hbe
          · exact hle2 i hm
      · intro u
        simp only [cov_append, cov_reverse, cov_cons]
        omega
      · intro i hi'
        refine ⟨i, ?_, le_rfl, le_rfl⟩
        rcases List.mem_append.1 hi' with hm | hm
        · exact List.mem_append.2 (Or.inl hm)
        · exact List.mem_append.2 (Or.inr (List.mem_cons_of_mem _ hm))
      · intro k1 k2 i hi'
        rcases List.mem_append.1 hi' with hm | hm
        · exact k2 i (List.mem_append.2 (Or.inl hm))
        · rcases List.mem_cons.1 hm with rfl | hm
          · exact k1
          · exact k2 i (List.mem_append.2 (Or.inr hm))
    rw [if_neg c1] at h
    by_cases c2 : here.1 = e
    · rw [if_pos c2] at h
      have r1 : ∀ u, ind b (here.2 - b) u = ind here.1 (here.2 - here.1) u + ind b (e - b) u := by
        intro u; unfold ind; split_ifs <;> omega
      cases before with
      | nil =>
        simp only [Option.some.injEq] at h
        subst h
        have := repl (b, here.2) (by simp; omega) (by simp) o6 (by simp; omega) le_rfl le_rfl (by simp; omega) r1
        simpa using this
      | cons prev rest =>
        simp only at h
        have hp := o4 prev (by simp)
        have hpl := lb prev (by simp)
        by_cases c3 : prev.2 > b
        · rw [if_pos c3] at h; cases h
        rw [if_neg c3] at h
        rw [List.reverse_cons, List.pairwise_append] at o1
        obtain ⟨o7, _, o8⟩ := o1
        have o8 : ∀ i ∈ rest, i.2 < prev.1 := fun i hi' => o8 i (by simpa using hi') prev (by simp)
        by_cases c4 : prev.2 = b
        · rw [if_pos c4] at h
          simp only [Option.some.injEq] at h
          subst h
          refine ⟨⟨?_, ?_⟩, ?_, ?_, ⟨(prev.1, here.2), by simp, by show prev.1 ≤ b; omega, by show e ≤ here.2; omega⟩, ?_, by simp; omega⟩
          · rw [List.pairwise_append, List.pairwise_cons]
            refine ⟨o7, ⟨o6, o2⟩, fun i hi' j hj => ?_⟩
            have hi' : i ∈ rest := by simpa using hi'
            rcases List.mem_cons.1 hj with rfl | hm
            · exact o8 i hi'
            · exact o5 i (List.mem_cons_of_mem _ hi') j hm
          · intro i hi'
            rcases List.mem_append.1 hi' with hm | hm
            · exact lb i (by simp [List.mem_reverse.1 hm])
            · rcases List.mem_cons.1 hm with rfl | hm
              · show prev.1 ≤ here.2
                omega
              · exact hle2 i hm
          · intro u
            simp only [cov_append, cov_reverse, cov_cons]
            unfold ind
            split_ifs <;> omega
          · intro i hi'
            rcases List.mem_append.1 hi' with hm | hm
            · rcases List.mem_cons.1 (List.mem_reverse.1 hm) with rfl | hm
              · exact ⟨(prev.1, i.2), by simp, by show prev.1 ≤ i.1; omega, le_rfl⟩
              · rcases List.mem_cons.1 hm with rfl | hm
                · exact ⟨(i.1, here.2), by simp, le_rfl, by show i.2 ≤ here.2; omega⟩
                · exact ⟨i, by simp [hm], le_rfl, le_rfl⟩
            · exact ⟨i, by simp [hm], le_rfl, le_rfl⟩
          · intro k1 k2 i hi'
            rcases List.mem_append.1 hi' with hm | hm
            · exact k2 i (by simp [List.mem_reverse.1 hm])
            · rcases List.mem_cons.1 hm with rfl | hm
              · show prev.1 < here.2
                omega
              · exact k2 i (by simp [hm])
        · rw [if_neg c4] at h
          simp only [Option.some.injEq] at h
          subst h
          refine repl (b, here.2) (by simp; omega) (fun i hi' => ?_) o6 (by simp; omega) le_rfl le_rfl (by simp; omega) r1
          show i.2 < b
          rcases List.mem_cons.1 hi' with rfl | hm
          · omega
          · have := o8 i hm; omega
    · rw [if_neg c2] at h
      by_cases c3 : b = here.2
      · rw [if_pos c3] at h
        simp only [Option.some.injEq] at h
        subst h
        refine repl (here.1, e) hh o4 hhi le_rfl (by simp; omega) (by simp; omega) le_rfl fun u => ?_
        simp only
        unfold ind; split_ifs <;> omega
      · rw [if_neg c3] at h; cases h

/-- A chunk that overlaps nothing is accepted. -/
theorem mapInsert_complete {M : Map} {b e : Nat} (hM : Good M) (hs : ∀ i ∈ M, i.1 < i.2) (hbe : b < e)
    (h : ∀ u, cov M u + ind b (e - b) u ≤ 1) : ∃ M', mapInsert M b e = some M' := by
  have hlo := split_lo M e
  have hsp := List.takeWhile_append_dropWhile (p := fun i : Nat × Nat => decide (i.1 ≤ e)) (l := M)
  unfold mapInsert
  generalize List.takeWhile (fun i : Nat × Nat => decide (i.1 ≤ e)) M = lo at *
  generalize List.dropWhile (fun i : Nat × Nat => decide (i.1 ≤ e)) M = hi at *
  obtain ⟨lr, rfl⟩ : ∃ lr, lo = List.reverse lr := ⟨lo.reverse, by simp⟩
  simp only [List.reverse_reverse]
  subst hsp
  have one : ∀ i ∈ lr, ∀ u, ind i.1 (i.2 - i.1) u + ind b (e - b) u ≤ 1 := by
    intro i hi' u
    have k := h u
    obtain ⟨A, B, rfl⟩ := List.append_of_mem hi'
    simp only [cov_append, cov_reverse, cov_cons] at k
    have := cov_nonneg A u
    have := cov_nonneg B u
    have := cov_nonneg hi u
    omega
  cases lr with
  | nil => exact ⟨_, rfl⟩
  | cons here before =>
    have hh : here.1 ≤ e := hlo here (by simp)
    have hhs := hs here (by simp)
    have ho := one here (by simp)
    simp only
    by_cases c1 : here.2 < b
    · rw [if_pos c1]; exact ⟨_, rfl⟩
    rw [if_neg c1]
    by_cases c2 : here.1 = e
    · rw [if_pos c2]
      cases before with
      | nil => exact ⟨_, rfl⟩
      | cons prev rest =>
        simp only
        have hp := one prev (by simp)
        have hps := hs prev (by simp)
        have : ¬ prev.2 > b := by
          intro hc
          have hlt : prev.2 < here.1 := by
            have := hM.ord
            rw [List.pairwise_append, List.reverse_cons, List.pairwise_append] at this
            exact this.1.2.2 prev (by simp) here (by simp)
          have k1 := hp (prev.2 - 1)
          unfold ind at k1
          rw [if_pos (by omega), if_pos (by omega)] at k1
          omega
        rw [if_neg this]
        by_cases c4 : prev.2 = b
        · rw [if_pos c4]; exact ⟨_, rfl⟩
        · rw [if_neg c4]; exact ⟨_, rfl⟩
    · rw [if_neg c2]
      have : b = here.2 := by
        have k1 := ho (max b here.1)
        unfold ind at k1
        by_contra hc
        rw [if_pos (by omega), if_pos (by omega)] at k1
        omega
      rw [if_pos this]; exact ⟨_, rfl⟩

/-- A map that covers exactly one interval consists of it. -/
theorem Good.single {M : Map} (hM : Good M) (hs : ∀ i ∈ M, i.1 < i.2) {x n : Nat} (h : ∀ u, cov M u = ind x n u) :
    (n = 0 → M = []) ∧ (0 < n → M = [(x, x + n)]) := by
  cases M with
  | nil =>
    refine ⟨fun _ => rfl, fun hn => ?_⟩
    have := h x
    rw [ind_start hn] at this
    simp at this
  | cons i M =>
    have hi := hs i List.mem_cons_self
    have ho := (List.pairwise_cons.1 hM.ord).1
    have hn : 0 < n := by
      have k := h i.1
      rw [cov_cons] at k
      have := cov_nonneg M i.1
      have : ind i.1 (i.2 - i.1) i.1 = 1 := ind_start (by omega)
      by_contra hc
      have hc : n = 0 := by omega
      subst hc
      rw [ind_zero] at k
      omega
    refine ⟨fun hc => by omega, fun _ => ?_⟩
    have k1 := h i.1
    have k2 := h x
    have k3 := h i.2
    rw [cov_cons] at k1 k2 k3
    rw [cov_below ho le_rfl] at k3
    rw [cov_below ho (by omega)] at k1
    have hx : i.1 = x := by
      by_contra hc
      rw [ind_start hn] at k2
      have : cov M x = 1 ∨ i.1 ≤ x := by
        by_cases c : i.1 ≤ x
        · exact Or.inr c
        · left; unfold ind at k2; split_ifs at k2 <;> omega
      rcases this with c | c
      · by_cases c2 : x ≤ i.2
        · rw [cov_below ho c2] at c; omega
        · unfold ind at k1; split_ifs at k1 <;> omega
      · unfold ind at k1; split_ifs at k1 <;> omega
    have he : i.2 = x + n := by
      unfold ind at k3
      by_contra hc
      split_ifs at k3 with q1 q2 <;> try omega
      have k4 := h (i.2 - 1)
      rw [cov_cons, cov_below ho (by omega)] at k4
      unfold ind at k4
      split_ifs at k4 <;> omega
    have hMn : M = [] := by
      cases M with
      | nil => rfl
      | cons j M =>
        exfalso
        have hj := hs j (by simp)
        have hij := ho j (by simp)
        have k := h j.1
        rw [cov_cons, cov_cons] at k
        have := cov_nonneg M j.1
        have e1 : ind j.1 (j.2 - j.1) j.1 = 1 := ind_start (by omega)
        have := ind_nonneg i.1 (i.2 - i.1) j.1
        unfold ind at k e1
        split_ifs at k <;> omega
    rw [hMn]
    have : i = (x, x + n) := Prod.ext hx he
    rw [this]

end Fptu.Audit
