import Verif.Model.Buffer
import Mathlib.Algebra.BigOperators.Intervals
/-! Helper lemmas: counting invariant of the reference counter. -/
set_option linter.unusedSimpArgs false
namespace Fptu.Buffer
open Finset

theorem sum_upd (f : Nat → Nat) {n t : Nat} (x : Nat) (h : t < n) :
    (∑ u ∈ range n, upd f t x u) + f t = (∑ u ∈ range n, f u) + x := by
  have hm : t ∈ range n := mem_range.2 h
  rw [← add_sum_erase (range n) (upd f t x) hm, ← add_sum_erase (range n) f hm]
  have e : ∑ u ∈ (range n).erase t, upd f t x u = ∑ u ∈ (range n).erase t, f u := by
    apply sum_congr rfl
    intro u hu
    have : u ≠ t := (mem_erase.1 hu).1
    simp [upd, this]
  rw [e]
  simp [upd]
  omega

theorem le_sum (f : Nat → Nat) {n t : Nat} (h : t < n) : f t ≤ ∑ u ∈ range n, f u :=
  by rw [← add_sum_erase (range n) f (mem_range.2 h)]; omega

/-- References still to be dropped by a thread at position `pc`. -/
def pend : Pc → Nat
  | .start | .dec => 1
  | _ => 0

/-- Threads that have decided to release the buffer. -/
def closing : Pc → Nat
  | .drown | .repay => 1
  | _ => 0

theorem pend_idle : pend .idle = 0 := rfl
theorem pend_start : pend .start = 1 := rfl
theorem pend_dec : pend .dec = 1 := rfl
theorem pend_drown : pend .drown = 0 := rfl
theorem pend_repay : pend .repay = 0 := rfl
theorem closing_idle : closing .idle = 0 := rfl
theorem closing_start : closing .start = 0 := rfl
theorem closing_dec : closing .dec = 0 := rfl
theorem closing_drown : closing .drown = 1 := rfl
theorem closing_repay : closing .repay = 1 := rfl

def Held (n : Nat) (s : Sys) : Nat := ∑ t ∈ range n, s.held t
def Pend (n : Nat) (s : Sys) : Nat := ∑ t ∈ range n, pend (s.pc t)
def Closing (n : Nat) (s : Sys) : Nat := ∑ t ∈ range n, closing (s.pc t)

/-- References owned by anyone. -/
def Refs (n : Nat) (s : Sys) : Nat := Held n s + Pend n s

theorem sum_upd_pc (g : Pc → Nat) (f : Nat → Pc) {n t : Nat} (x : Pc) (h : t < n) :
    (∑ u ∈ range n, g (upd f t x u)) + g (f t) = (∑ u ∈ range n, g (f u)) + g x := by
  have := sum_upd (fun u => g (f u)) (g x) h
  rw [← this]
  congr 1
  apply sum_congr rfl
  intro u _
  unfold upd; split <;> rfl

theorem wrap_id {x : Int} (h1 : -2147483648 ≤ x) (h2 : x < 2147483648) : wrap x = x := by
  unfold wrap; omega

/-- The invariant. -/
structure Inv (n : Nat) (s : Sys) : Prop where
  once : s.freed + Closing n s ≤ 1
  dead : s.freed + Closing n s = 1 → Refs n s = 0
  live : s.freed + Closing n s = 0 → s.cnt = (Refs n s : Int) ∧ 1 ≤ Refs n s
  noUaf : s.useAfterFree = false

theorem inv_step {n t : Nat} {a : Action} {s s' : Sys} (hi : Inv n s) (ht : t < n)
    (hu : ∀ u, a = .give u → u < n) (hb : Refs n s < 2147483647)
    (hs : step t a s = some s') : Inv n s' := by
  have hheld := le_sum s.held ht
  have hpend := le_sum (fun u => pend (s.pc u)) ht
  have hclose := le_sum (fun u => closing (s.pc u)) ht
  have hk1 := hi.once
  have hk2 := hi.dead
  have hk3 := hi.live
  have hk4 := hi.noUaf
  simp only [Refs, Held, Pend, Closing] at hk1 hk2 hk3 hb
  unfold step at hs
  cases a with
  | addRef =>
    simp only at hs
    split at hs
    · rename_i hc
      cases hs
      have e := sum_upd s.held (s.held t + 1) ht
      have hf : s.freed = 0 := by omega
      have hl := hk3 (by omega)
      constructor
      · simpa [touch, Closing] using hk1
      · simp only [touch, Refs, Held, Pend, Closing]; intro h; omega
      · simp only [touch, Refs, Held, Pend, Closing]; intro h
        rw [wrap_id (by omega) (by omega)]
        constructor <;> omega
      · simp [touch, hk4, hf]
    · cases hs
  | give u =>
    simp only at hs
    split at hs
    · rename_i hc
      cases hs
      have hun := hu u rfl
      have e1 := sum_upd s.held (s.held t - 1) ht
      have e2 := sum_upd (upd s.held t (s.held t - 1)) (s.held u + 1) hun
      have e3 : upd s.held t (s.held t - 1) u = s.held u := by
        unfold upd; rw [if_neg (fun h => hc.2.2 h.symm)]
      rw [e3] at e2
      constructor
      · simpa [Closing] using hk1
      · simp only [Refs, Held, Pend, Closing]; intro h; omega
      · simp only [Refs, Held, Pend, Closing]; intro h; omega
      · exact hk4
    · cases hs
  | detach =>
    simp only at hs
    split at hs
    · rename_i hc
      cases hs
      have e1 := sum_upd s.held (s.held t - 1) ht
      have e2 := sum_upd_pc pend s.pc .start ht
      have e3 := sum_upd_pc closing s.pc .start ht
      simp only [hc.1, pend_idle, pend_start, pend_dec, pend_drown, pend_repay,
      closing_idle, closing_start, closing_dec, closing_drown, closing_repay] at e2 e3
      constructor
      · simp only [Closing]; omega
      · simp only [Refs, Held, Pend, Closing]; intro h; omega
      · simp only [Refs, Held, Pend, Closing]; intro h; omega
      · exact hk4
    · cases hs
  | run =>
    simp only at hs
    split at hs
    · cases hs
    · rename_i hpc
      cases hs
      rw [hpc] at hpend
      simp only [pend_idle, pend_start, pend_dec, pend_drown, pend_repay] at hpend
      have hf : s.freed = 0 := by omega
      have hl := hk3 (by omega)
      by_cases h1 : s.cnt = 1
      · have e2 := sum_upd_pc pend s.pc .drown ht
        have e3 := sum_upd_pc closing s.pc .drown ht
        simp only [hpc, pend_idle, pend_start, pend_dec, pend_drown, pend_repay,
      closing_idle, closing_start, closing_dec, closing_drown, closing_repay] at e2 e3
        simp only [h1, ne_eq, not_true_eq_false, if_false]
        constructor
        · simp only [touch, Closing]; omega
        · simp only [touch, Refs, Held, Pend, Closing]; intro h; omega
        · simp only [touch, Refs, Held, Pend, Closing]; intro h; omega
        · simp [touch, hk4, hf]
      · have e2 := sum_upd_pc pend s.pc .dec ht
        have e3 := sum_upd_pc closing s.pc .dec ht
        simp only [hpc, pend_idle, pend_start, pend_dec, pend_drown, pend_repay,
      closing_idle, closing_start, closing_dec, closing_drown, closing_repay] at e2 e3
        simp only [h1, ne_eq, not_false_eq_true, if_true]
        constructor
        · simp only [touch, Closing]; omega
        · simp only [touch, Refs, Held, Pend, Closing]; intro h; omega
        · simp only [touch, Refs, Held, Pend, Closing]; intro h; omega
        · simp [touch, hk4, hf]
    · rename_i hpc
      cases hs
      rw [hpc] at hpend
      simp only [pend_idle, pend_start, pend_dec, pend_drown, pend_repay] at hpend
      have hf : s.freed = 0 := by omega
      have hl := hk3 (by omega)
      have hw : wrap (s.cnt - 1) = s.cnt - 1 := wrap_id (by omega) (by omega)
      rw [hw]
      by_cases h1 : s.cnt - 1 > 0
      · have e2 := sum_upd_pc pend s.pc .idle ht
        have e3 := sum_upd_pc closing s.pc .idle ht
        simp only [hpc, pend_idle, pend_start, pend_dec, pend_drown, pend_repay,
      closing_idle, closing_start, closing_dec, closing_drown, closing_repay] at e2 e3
        simp only [h1, if_true]
        constructor
        · simp only [touch, Closing]; omega
        · simp only [touch, Refs, Held, Pend, Closing]; intro h; omega
        · simp only [touch, Refs, Held, Pend, Closing]; intro h; omega
        · simp [touch, hk4, hf]
      · have e2 := sum_upd_pc pend s.pc .drown ht
        have e3 := sum_upd_pc closing s.pc .drown ht
        simp only [hpc, pend_idle, pend_start, pend_dec, pend_drown, pend_repay,
      closing_idle, closing_start, closing_dec, closing_drown, closing_repay] at e2 e3
        simp only [h1, if_false]
        constructor
        · simp only [touch, Closing]; omega
        · simp only [touch, Refs, Held, Pend, Closing]; intro h; omega
        · simp only [touch, Refs, Held, Pend, Closing]; intro h; omega
        · simp [touch, hk4, hf]
    · rename_i hpc
      cases hs
      rw [hpc] at hclose
      simp only [closing_idle, closing_start, closing_dec, closing_drown, closing_repay] at hclose
      have e2 := sum_upd_pc pend s.pc .repay ht
      have e3 := sum_upd_pc closing s.pc .repay ht
      simp only [hpc, pend_idle, pend_start, pend_dec, pend_drown, pend_repay,
      closing_idle, closing_start, closing_dec, closing_drown, closing_repay] at e2 e3
      have hf : s.freed = 0 := by omega
      constructor
      · simp only [touch, Closing]; omega
      · simp only [touch, Refs, Held, Pend, Closing]; intro h; omega
      · simp only [touch, Refs, Held, Pend, Closing]; intro h; omega
      · simp [touch, hk4, hf]
    · rename_i hpc
      cases hs
      rw [hpc] at hclose
      simp only [closing_idle, closing_start, closing_dec, closing_drown, closing_repay] at hclose
      have e2 := sum_upd_pc pend s.pc .idle ht
      have e3 := sum_upd_pc closing s.pc .idle ht
      simp only [hpc, pend_idle, pend_start, pend_dec, pend_drown, pend_repay,
      closing_idle, closing_start, closing_dec, closing_drown, closing_repay] at e2 e3
      have hf : s.freed = 0 := by omega
      constructor
      · simp only [touch, Closing]; omega
      · simp only [touch, Refs, Held, Pend, Closing]; intro h; omega
      · simp only [touch, Refs, Held, Pend, Closing]; intro h; omega
      · simp [touch, hk4, hf]

theorem inv_initial {n : Nat} (hn : 0 < n) : Inv n initial := by
  have e : Held n initial = 1 := by
    unfold Held initial
    simp only
    rw [← add_sum_erase (range n) _ (mem_range.2 hn)]
    rw [sum_eq_zero]
    · simp
    · intro x hx
      simp [(mem_erase.1 hx).1]
  have p : Pend n initial = 0 := by unfold Pend initial; simp [pend]
  have c : Closing n initial = 0 := by unfold Closing initial; simp [closing]
  constructor
  · rw [c]; simp [initial]
  · rw [c]; simp [initial]
  · intro _; unfold Refs; rw [e, p]; simp [initial]
  · rfl

end Fptu.Buffer
