import Verif.Model.Datetime
import Mathlib.Tactic.Ring
import Mathlib.Tactic.Linarith
/-!
# C73: the clock `fptu_now` reads is as precise as requested
-/
namespace Fptu.Props
open Fptu.Datetime

/-- The requested precision in units of 2⁻³² nanoseconds (datetime.h:66-74): nanoseconds, or 2ᵏ fractions of 2⁻³² s for `-k`, whole
seconds from `k = 32` on. -/
def requested (grain : Int) : Nat :=
  if grain < 0 then 2 ^ min (-grain).toNat 32 * 10 ^ 9 else grain.toNat * 2 ^ 32

/-- The precision of a clock is no worse than requested. -/
def Precise (grain : Int) (resolution : Nat) : Prop := resolution * 2 ^ 32 ≤ requested grain

private theorem grain_neg {k : Nat} (h0 : 0 < k) (h : k < 32) : nowGrain (-(k : Int)) = 2 ^ k := by
  unfold nowGrain
  rw [if_pos (show (-(k : Int)) < 0 by omega), if_pos (show (-(k : Int)) > -32 by omega), Nat.one_shiftLeft]
  congr 1; omega

private theorem requested_neg {k : Nat} (h0 : 0 < k) : requested (-(k : Int)) = 2 ^ min k 32 * 10 ^ 9 := by
  unfold requested
  rw [if_pos (show (-(k : Int)) < 0 by omega), show (-(-(k : Int))).toNat = k by omega]

/-- **C73 (partial).** For all resolutions below a second and all arguments which give nanoseconds (any `int` from zero) or leave no
fraction (at most -32): the coarse clock is read only if it is as precise as requested. Missing: -31 … -1, see
`C73_clock_refuted` and `C73_clock_bound`. -/
theorem C73_clock_partial {grain : Int} {resolution : Nat} (hg : grain < 2 ^ 31) (hk : 0 ≤ grain ∨ grain ≤ -32) (hr : resolution < 10 ^ 9)
    (h : nowCoarse grain resolution = true) : Precise grain resolution := by
  have h := of_decide_eq_true h
  unfold Precise
  rcases hk with hk | hk
  · unfold nowGrain at h
    rw [if_neg (show ¬ grain < 0 by omega), Int.emod_eq_of_lt hk (by omega)] at h
    unfold requested
    rw [if_neg (show ¬ grain < 0 by omega)]
    exact Nat.mul_le_mul_right _ h
  · obtain ⟨k, rfl⟩ : ∃ k : Nat, grain = -(k : Int) := ⟨(-grain).toNat, by omega⟩
    rw [requested_neg (by omega), show min k 32 = 32 by omega]
    omega

/-- **C73 (refuted).** Asked for 22 unused bits (precision 0.98 ms), `fptu_now` reads a clock with the resolution of 4 ms: it compares
the number of fractions with nanoseconds. -/
theorem C73_clock_refuted : nowCoarse (-22) (coarseResolution (some (0, 4000000))) = true ∧
    ¬ Precise (-22) (coarseResolution (some (0, 4000000))) := by
  unfold Precise
  decide

/-- **C73 (bound).** For every argument, the resolution of the coarse clock, if read, exceeds the requested one at most 4.3 times. -/
theorem C73_clock_bound {grain : Int} {resolution : Nat} (hg : grain < 2 ^ 31) (hr : resolution < 10 ^ 9)
    (h : nowCoarse grain resolution = true) : resolution * 2 ^ 32 * 10 ≤ requested grain * 43 := by
  by_cases hk : 0 ≤ grain ∨ grain ≤ -32
  · have := C73_clock_partial hg hk hr h
    unfold Precise at this
    omega
  · obtain ⟨k, rfl⟩ : ∃ k : Nat, grain = -(k : Int) := ⟨(-grain).toNat, by omega⟩
    have h := of_decide_eq_true h
    rw [grain_neg (by omega) (by omega)] at h
    rw [requested_neg (by omega), show min k 32 = k by omega]
    omega

/-- **C73 (economy).** For every argument, the coarse clock is read whenever it is as precise as requested. -/
theorem C73_clock_economy {grain : Int} {resolution : Nat} (hg : grain < 2 ^ 31) (hr : resolution < 10 ^ 9)
    (h : Precise grain resolution) : nowCoarse grain resolution = true := by
  refine decide_eq_true ?_
  unfold Precise at h
  by_cases hk : 0 ≤ grain
  · unfold nowGrain
    rw [if_neg (show ¬ grain < 0 by omega), Int.emod_eq_of_lt hk (by omega)]
    unfold requested at h
    rw [if_neg (show ¬ grain < 0 by omega)] at h
    exact Nat.le_of_mul_le_mul_right h (by decide)
  · by_cases hk' : grain ≤ -32
    · unfold nowGrain
      rw [if_pos (show grain < 0 by omega), if_neg (show ¬ grain > -32 by omega)]
      omega
    · obtain ⟨k, rfl⟩ : ∃ k : Nat, grain = -(k : Int) := ⟨(-grain).toNat, by omega⟩
      rw [grain_neg (by omega) (by omega)]
      rw [requested_neg (by omega), show min k 32 = k by omega] at h
      omega

/-- A kernel without a coarse clock, or with one of more than a second: every request in nanoseconds is served by the fine clock. -/
theorem C73_no_coarse {grain : Int} (h0 : 0 ≤ grain) (hg : grain < 2 ^ 31) {answer : Option (Nat × Nat)} (h : ∀ s n, answer = some (s, n) → s ≠ 0) :
    nowCoarse grain (coarseResolution answer) = false := by
  have e : coarseResolution answer = 0xffffFFFF := by
    cases answer with
    | none => rfl
    | some p =>
      unfold coarseResolution
      exact if_neg (h p.1 p.2 rfl)
  rw [e]
  refine decide_eq_false ?_
  unfold nowGrain
  rw [if_neg (show ¬ grain < 0 by omega), Int.emod_eq_of_lt h0 (by omega)]
  omega

example : nowCoarse 4000000 (coarseResolution (some (0, 4000000))) = true ∧ nowCoarse 3999999 (coarseResolution (some (0, 4000000))) = false := by decide
example : nowCoarse (-32) (coarseResolution (some (0, 4000000))) = true ∧ nowCoarse (-21) (coarseResolution (some (0, 4000000))) = false := by decide

end Fptu.Props
