import Verif.Lemmas.BufferOrder
/-! # C85: accesses of former owners are over before a shared buffer is released or altered in place -/
namespace Fptu.Props
open Fptu.BufferOrder

/-- Executions of `n` threads under any schedule, any load of the counter seeing any value the C++ memory model allows. -/
inductive Ordered (acq : Bool) (n : Nat) : Sys → Prop
  | init : Ordered acq n initial
  | step {s s' : Sys} {t : Nat} {a : Action} (h : Ordered acq n s) (ht : t < n) (hu : ∀ u, a = .give u → u < n)
      (hs : step acq t a s = some s') : Ordered acq n s'

/-- Thread `t` owns a reference: it holds one or is inside a `detach` that has not given it up yet. -/
def Owns (s : Sys) (t : Nat) : Prop := 0 < s.held t ∨ s.pc t = .start ∨ s.pc t = .dec

/-- Thread `t` has decided to release the buffer and is doing so; `c` tells whether the decision came from the atomic
decrement. -/
def Releases (s : Sys) (t : Nat) (c : Bool) : Prop := s.pc t = .drown c ∨ s.pc t = .repay c

/-- Every access to the bytes of the buffer made so far happens before what thread `t` does next. -/
def AllBefore (s : Sys) (t : Nat) : Prop := ∀ e, e < s.events → s.know t e = true

theorem ordered_inv {acq : Bool} {n : Nat} (hn : 0 < n) {s : Sys} (h : Ordered acq n s) : Inv acq n s := by
  induction h with
  | init => exact inv_initial hn
  | step _ ht hu hs ih => exact inv_step ih ht hu hs

theorem owns_iff {s : Sys} {t : Nat} : Owns s t ↔ 0 < refs s t := by
  unfold Owns refs
  cases s.pc t <;> simp [pend]

/-- **C85 (stale loads do no harm to the count).** Even when loads of the counter see outdated values: the buffer is
handed back at most once, only one thread ever releases it, and while a thread releases it or after that nobody owns a
reference. -/
theorem C85_single_release (acq : Bool) (n : Nat) (hn : 0 < n) (s : Sys) (h : Ordered acq n s) :
    s.freed ≤ 1 ∧
    (∀ t, t < n → Owns s t → s.freed = 0 ∧ ∀ u, u < n → ∀ c, ¬ Releases s u c) ∧
    (∀ t u c d, t < n → u < n → Releases s t c → Releases s u d → t = u ∧ s.freed = 0) := by
  have hi := ordered_inv hn h
  have k1 := hi.once
  refine ⟨by omega, fun t ht ho => ?_, fun t u c d ht hu h1 h2 => ?_⟩
  · have h1 := Fptu.Buffer.le_sum (refs s) ht
    have h2 := owns_iff.1 ho
    have h3 : s.freed + Clos n s = 0 := by
      have := hi.dead
      unfold Refs at this
      omega
    refine ⟨by omega, fun u hu c hr => ?_⟩
    have := closed_one hu hr
    omega
  · have e1 := closed_one ht h1
    refine ⟨?_, by omega⟩
    by_contra hne
    have h3 := two_le (clos s) ht hu hne
    have c1 : clos s t = 1 := by rcases h1 with h | h <;> simp [clos, h, closing]
    have c2 : clos s u = 1 := by rcases h2 with h | h <;> simp [clos, h, closing]
    unfold Clos at k1
    omega

/-- **C85 (no leak).** Once no thread owns a reference or is inside `detach`, the buffer has been handed back. -/
theorem C85_released (acq : Bool) (n : Nat) (hn : 0 < n) (s : Sys) (h : Ordered acq n s)
    (hq : ∀ t, t < n → s.held t = 0 ∧ s.pc t = .idle) : s.freed = 1 := by
  have hi := ordered_inv hn h
  have e1 : Refs n s = 0 := Finset.sum_eq_zero fun t ht => by
    have := hq t (Finset.mem_range.1 ht)
    simp [refs, this.1, this.2, pend]
  have e2 : Clos n s = 0 := Finset.sum_eq_zero fun t ht => by
    have := hq t (Finset.mem_range.1 ht)
    simp [clos, this.2, closing]
  have h1 := hi.once
  have h2 := hi.live
  omega

/-- **C85 (order of the release; partial).** What a thread does to release the buffer comes after every access to it, if
the thread learned from the atomic decrement that it is the last owner.  Missing: the short cut through the plain load,
see `C85_release_refuted`. -/
theorem C85_release_partial (n : Nat) (hn : 0 < n) (s : Sys) (h : Ordered false n s) (t : Nat) (ht : t < n)
    (hr : Releases s t true) : AllBefore s t :=
  (ordered_inv hn h).closed t ht true hr (Or.inr rfl)

/-- **C85 (order of the release with ordered loads).** Were the loads of the counter acquire operations (as on x86), every
release would come after every access, whichever way it was decided. -/
theorem C85_release_acquire (n : Nat) (hn : 0 < n) (s : Sys) (h : Ordered true n s) (t : Nat) (ht : t < n) (c : Bool)
    (hr : Releases s t c) : AllBefore s t :=
  (ordered_inv hn h).closed t ht c hr (Or.inl rfl)

/-- **C85 (`is_alterable`).** An owner whose look at the counter finds one is the only owner and has seen the newest value,
however outdated loads may be; with ordered loads every access of a former owner is over as well. -/
theorem C85_alterable (acq : Bool) (n : Nat) (hn : 0 < n) (s s' : Sys) (h : Ordered acq n s) (t : Nat) (ht : t < n) (k : Nat)
    (hs : step acq t (.look k) s = some s') (hv : s.val k = 1) :
    s'.held t = 1 ∧ (∀ u, u < n → u ≠ t → ¬ Owns s' u) ∧ s'.freed = 0 ∧ (∀ u, u < n → ∀ c, ¬ Releases s' u c) ∧
    (acq = true → AllBefore s' t) := by
  have hi := ordered_inv hn h
  simp only [step] at hs
  split at hs
  · rename_i hc
    cases hs
    have hrt : refs s t = s.held t := by simp [refs, hc.1, pend]
    have ha := hi.alone ht (by omega) hc.2.2.1 hc.2.2.2 hv
    have hz : s.freed + Clos n s = 0 := by omega
    refine ⟨?_, fun u hu hne ho => ?_, ha.2.1, fun u hu c hr => ?_, fun hq e he => ?_⟩
    · show s.held t = 1
      omega
    · have ho : Owns s u := ho
      have := owns_iff.1 ho
      have := ha.2.2.2.2 u hu hne
      omega
    · have := closed_one (s := s) hu hr
      omega
    · subst hq
      show Fptu.Buffer.upd s.know t _ t e = true
      rw [upd_self, ha.1]
      exact hi.all hz ha.2.2.2.2 he
  · cases hs

/-- Run a schedule. -/
def orderSched (acq : Bool) : List (Nat × Action) → Sys → Option Sys
  | [], s => some s
  | (t, a) :: r, s => (step acq t a s).bind (orderSched acq r)

theorem ordered_of_run {acq : Bool} {n : Nat} : ∀ {l : List (Nat × Action)} {s s' : Sys}, Ordered acq n s →
    (∀ p ∈ l, p.1 < n ∧ ∀ u, p.2 = .give u → u < n) → orderSched acq l s = some s' → Ordered acq n s'
  | [], _, _, h, _, e => by cases e; exact h
  | (t, a) :: r, s, s', h, hl, e => by
    unfold orderSched at e
    cases hs : step acq t a s with
    | none => rw [hs] at e; cases e
    | some x =>
      rw [hs] at e
      have h0 := hl _ (List.mem_cons_self ..)
      exact ordered_of_run (h.step h0.1 h0.2 hs) (fun p hp => hl p (List.mem_cons_of_mem _ hp)) e

/-- Whether every thread and receiver of a schedule is below `n`. -/
def schedOk (n : Nat) (l : List (Nat × Action)) : Bool :=
  l.all fun p => p.1 < n && (match p.2 with | .give u => u < n | _ => true)

theorem schedOk_spec {n : Nat} {l : List (Nat × Action)} (h : schedOk n l = true) :
    ∀ p ∈ l, p.1 < n ∧ ∀ u, p.2 = .give u → u < n := by
  intro p hp
  have := List.all_eq_true.1 h p hp
  rw [Bool.and_eq_true] at this
  refine ⟨of_decide_eq_true this.1, fun u hu => ?_⟩
  have h2 := this.2
  rw [hu] at h2
  exact of_decide_eq_true h2

/-- A checked run of a schedule. -/
theorem order_decide {acq : Bool} {n : Nat} {l : List (Nat × Action)} (f : Sys → Bool)
    (h : (schedOk n l && (match orderSched acq l initial with | some s => f s | none => false)) = true) :
    ∃ s, Ordered acq n s ∧ f s = true := by
  rw [Bool.and_eq_true] at h
  cases e : orderSched acq l initial with
  | none => rw [e] at h; cases h.2
  | some s => exact ⟨s, ordered_of_run .init (schedOk_spec h.1) e, by rw [e] at h; exact h.2⟩

/-- Thread 0 shares the buffer with thread 1, which uses it and lets it go; then thread 0 lets it go. -/
def shareOps : List (Nat × Action) :=
  [(0, .addRef), (0, .give 1), (1, .use), (1, .detach), (1, .run 1), (1, .run 0)]

/-- **C85 (order of the release refuted).** As written, the last owner may release the buffer although the access of a
former owner is not ordered before that: a data race between the use of the buffer and its release. -/
theorem C85_release_refuted : ∃ s, Ordered false 2 s ∧ Releases s 0 false ∧ ¬ AllBefore s 0 ∧
    ∀ u, u < 2 → ¬ Owns s u := by
  obtain ⟨s, h, hf⟩ := order_decide (acq := false) (n := 2) (l := shareOps ++ [(0, .detach), (0, .run 2)])
    (fun s => s.pc 0 == .drown false && s.events == 1 && s.know 0 0 == false && s.held 0 == 0 && s.held 1 == 0 &&
      s.pc 1 == .idle) (by decide +kernel)
  simp only [Bool.and_eq_true, beq_iff_eq] at hf
  obtain ⟨⟨⟨⟨⟨h1, h2⟩, h3⟩, h4⟩, h5⟩, h6⟩ := hf
  refine ⟨s, h, Or.inl h1, fun ha => ?_, fun u hu ho => ?_⟩
  · have := ha 0 (by omega)
    rw [h3] at this
    cases this
  · have : u = 0 ∨ u = 1 := by omega
    rcases this with rfl | rfl
    · rcases ho with ho | ho | ho
      · omega
      · rw [h1] at ho; cases ho
      · rw [h1] at ho; cases ho
    · rcases ho with ho | ho | ho
      · omega
      · rw [h6] at ho; cases ho
      · rw [h6] at ho; cases ho

/-- **C85 (`is_alterable` refuted).** As written, an owner may find the buffer alterable although the access of a former
owner is not ordered before the alteration that follows. -/
theorem C85_alterable_refuted : ∃ s, Ordered false 2 s ∧ (∃ k s', step false 0 (.look k) s = some s' ∧ s.val k = 1 ∧
    s'.pc 0 = .idle ∧ s'.held 0 = 1 ∧ ¬ AllBefore s' 0) := by
  obtain ⟨s, h, hf⟩ := order_decide (acq := false) (n := 2) (l := shareOps)
    (fun s => s.pc 0 == .idle && s.events == 1 && s.know 0 0 == false && s.held 0 == 1 && s.seen 0 == 1 && s.last == 2 &&
      s.val 2 == 1) (by decide +kernel)
  simp only [Bool.and_eq_true, beq_iff_eq] at hf
  obtain ⟨⟨⟨⟨⟨⟨h1, h2⟩, h3⟩, h4⟩, h5⟩, h6⟩, h7⟩ := hf
  refine ⟨s, h, 2, load false 0 2 s, ?_, h7, h1, h4, fun ha => ?_⟩
  · simp only [step]
    rw [if_pos ⟨h1, by omega, by omega, by omega⟩]
  · have := ha 0 (by show 0 < s.events; omega)
    have h3' : (load false 0 2 s).know 0 0 = false := h3
    rw [h3'] at this
    cases this

/-- Example: the last owner looks at an outdated counter, decrements, and finds every access over. -/
example : ∃ s, Ordered false 2 s ∧ Releases s 0 true ∧ s.events = 2 := by
  obtain ⟨s, h, hf⟩ := order_decide (acq := false) (n := 2) (l := shareOps ++ [(0, .use), (0, .detach), (0, .run 1), (0, .run 0)])
    (fun s => s.pc 0 == .drown true && s.events == 2) (by decide +kernel)
  simp only [Bool.and_eq_true, beq_iff_eq] at hf
  exact ⟨s, h, Or.inl hf.1, hf.2⟩

/-- Example: with ordered loads the short cut is taken and every access is over. -/
example : ∃ s, Ordered true 2 s ∧ Releases s 0 false ∧ s.events = 2 := by
  obtain ⟨s, h, hf⟩ := order_decide (acq := true) (n := 2) (l := shareOps ++ [(0, .use), (0, .detach), (0, .run 2)])
    (fun s => s.pc 0 == .drown false && s.events == 2) (by decide +kernel)
  simp only [Bool.and_eq_true, beq_iff_eq] at hf
  exact ⟨s, h, Or.inl hf.1, hf.2⟩

end Fptu.Props
