import Verif.Model.Cpu
import Mathlib.Data.Nat.Bitwise
/-!
# C74: the search function fits the processor
-/
namespace Fptu.Props
open Fptu.Cpu

/-- Which registers of CPUID the manuals of the processors name. -/
inductive Reg where
  | ebx | ecx | edx
deriving DecidableEq

/-- The manuals: leaf, register, bit. -/
def cpuManual : Query → Nat × Reg × Nat
  | .TSC => (1, .edx, 4) | .CMPXCHG8 => (1, .edx, 8) | .CLFLUSH => (1, .edx, 19) | .SSE => (1, .edx, 25) | .SSE2 => (1, .edx, 26)
  | .SSE3 => (1, .ecx, 0) | .PCLMULQDQ => (1, .ecx, 1) | .SSSE3 => (1, .ecx, 9) | .FMA => (1, .ecx, 12) | .CMPXCHG16B => (1, .ecx, 13)
  | .SSE41 => (1, .ecx, 19) | .SSE42 => (1, .ecx, 20) | .MOVBE => (1, .ecx, 22) | .POPCNT => (1, .ecx, 23) | .AES => (1, .ecx, 25)
  | .AVX => (1, .ecx, 28) | .RDRAND => (1, .ecx, 30)
  | .BMI1 => (7, .ebx, 3) | .HLE => (7, .ebx, 4) | .AVX2 => (7, .ebx, 5) | .BMI2 => (7, .ebx, 8) | .RTM => (7, .ebx, 11)
  | .RDSEED => (7, .ebx, 18) | .ADX => (7, .ebx, 19) | .CLFLUSHOPT => (7, .ebx, 23) | .CLWB => (7, .ebx, 24) | .SHA => (7, .ebx, 29)
  | .VAES => (7, .ecx, 9) | .VPCLMULQDQ => (7, .ecx, 10)
  | .RDTSCP => (0x80000001, .edx, 27) | .ABM => (0x80000001, .ecx, 5) | .SSE4a => (0x80000001, .ecx, 6)
  | .MisalignSSE => (0x80000001, .ecx, 7) | .FMA4 => (0x80000001, .ecx, 16) | .TBM => (0x80000001, .ecx, 21)

def regOf (l : Leaf) : Reg → Nat
  | .ebx => l.ebx
  | .ecx => l.ecx
  | .edx => l.edx

/-- The processor knows the leaf: the highest one of its range is not below it. -/
def knowsLeaf (cpu : Nat → Leaf) (leaf : Nat) : Prop := leaf ≤ (cpu (if leaf < 0x80000000 then 0 else 0x80000000)).eax

/-- The processor has the feature. -/
def Supports (cpu : Nat → Leaf) (q : Query) : Prop :=
  knowsLeaf cpu (cpuManual q).1 ∧ (regOf (cpu (cpuManual q).1) (cpuManual q).2.1).testBit (cpuManual q).2.2 = true

private theorem bit_eq (r n : Nat) : bit r n = r.testBit n := by
  unfold bit
  rw [Nat.one_shiftLeft]
  cases h : r.testBit n with
  | true =>
    refine decide_eq_true fun k => ?_
    have := congrArg (fun x => x.testBit n) k
    simp [Nat.testBit_and, h, Nat.testBit_two_pow_self] at this
  | false =>
    refine decide_eq_false (not_not.2 ?_)
    apply Nat.eq_of_testBit_eq
    intro i
    rw [Nat.testBit_and, Nat.testBit_two_pow, Nat.zero_testBit]
    by_cases c : n = i
    · subst c; rw [h]; rfl
    · rw [decide_eq_false c, Bool.and_false]

private theorem fetched (cpu : Nat → Leaf) :
    ((fetch cpu).1.basicEcx = if 1 ≤ (cpu 0).eax then (cpu 1).ecx else 0) ∧ ((fetch cpu).1.basicEdx = if 1 ≤ (cpu 0).eax then (cpu 1).edx else 0) ∧
    ((fetch cpu).1.ext7Ebx = if 7 ≤ (cpu 0).eax then (cpu 7).ebx else 0) ∧ ((fetch cpu).1.ext7Ecx = if 7 ≤ (cpu 0).eax then (cpu 7).ecx else 0) ∧
    ((fetch cpu).1.ext1Ecx = if 0x80000001 ≤ (cpu 0x80000000).eax then (cpu 0x80000001).ecx else 0) ∧
    ((fetch cpu).1.ext1Edx = if 0x80000001 ≤ (cpu 0x80000000).eax then (cpu 0x80000001).edx else 0) := by
  unfold fetch
  simp only [ge_iff_le]
  by_cases h1 : 1 ≤ (cpu 0).eax <;> by_cases h7 : 7 ≤ (cpu 0).eax <;> by_cases e1 : 0x80000001 ≤ (cpu 0x80000000).eax <;>
    by_cases e7 : 0x80000007 ≤ (cpu 0x80000000).eax <;> first | omega | simp [h1, h7, e1, e7, Features.zero]

private theorem gated (c : Prop) [Decidable c] (r n : Nat) : bit (if c then r else 0) n = true ↔ c ∧ r.testBit n = true := by
  rw [bit_eq]
  by_cases h : c
  · rw [if_pos h]; exact ⟨fun k => ⟨h, k⟩, fun k => k.2⟩
  · rw [if_neg h, Nat.zero_testBit]
    exact ⟨fun k => absurd k Bool.false_ne_true, fun k => absurd k.1 h⟩

/-- **C74 (queries, partial).** For every processor, each query but `has_RDRAND` answers what the manual defines, and denies features of leaves
the processor does not know. Missing: `has_RDRAND`, see `C74_rdrand_refuted`. -/
theorem C74_queries_partial (cpu : Nat → Leaf) (q : Query) (hq : q ≠ .RDRAND) : has (fetch cpu).1 q = true ↔ Supports cpu q := by
  obtain ⟨f1, f2, f3, f4, f5, f6⟩ := fetched cpu
  unfold Supports knowsLeaf
  cases q <;> first
    | exact absurd rfl hq
    | (unfold has; simp only [f1, f2, f3, f4, f5, f6]; exact gated (_ ≤ _) _ _)

/-- A processor of 2011 under a hypervisor: it has no RDRAND (bit 30), bit 31 says that there is a hypervisor. -/
def virtual2011 (a : Nat) : Leaf := if a = 0 then ⟨1, 0, 0, 0⟩ else if a = 1 then ⟨0, 0, 2 ^ 31, 2 ^ 26⟩ else ⟨0, 0, 0, 0⟩

/-- **C74 (queries, refuted).** `has_RDRAND` looks at bit 31 instead of 30: it answers whether there is a hypervisor. -/
theorem C74_rdrand_refuted : has (fetch virtual2011).1 .RDRAND = true ∧ ¬ Supports virtual2011 .RDRAND := by
  refine ⟨by decide +kernel, fun h => ?_⟩
  exact absurd (show (virtual2011 1).ecx.testBit 30 = true from h.2) (by decide +kernel)

/-- The system saves the wide registers: OSXSAVE and bits 1, 2 of XCR0. Without it the instructions of AVX are invalid. -/
def WideOn (cpu : Nat → Leaf) (xcr0 : Nat) : Prop := (cpu 1).ecx.testBit 27 = true ∧ xcr0.testBit 1 = true ∧ xcr0.testBit 2 = true

/-- The processor can run the instructions of an implementation. -/
def Runs (cpu : Nat → Leaf) (xcr0 : Nat) : Impl → Prop
  | .avx2 => Supports cpu .AVX ∧ Supports cpu .AVX2 ∧ WideOn cpu xcr0
  | .avx => Supports cpu .AVX ∧ WideOn cpu xcr0
  | .sse2 => Supports cpu .SSE2
  | .unroll => True

/-- The order of the implementations by their width. -/
def lanes : Impl → Nat
  | .avx2 => 3
  | .avx => 2
  | .sse2 => 1
  | .unroll => 0

/-- **C74 (choice, partial).** On every processor where AVX2 comes with AVX, under every system which saves the wide registers if
the processor has them: the chosen function runs, and there is no wider one that does. Missing: systems which do not, see
`C74_choice_refuted`. -/
theorem C74_choice_partial (cpu : Nat → Leaf) (xcr0 : Nat) (h2 : Supports cpu .AVX2 → Supports cpu .AVX)
    (hw : Supports cpu .AVX → WideOn cpu xcr0) :
    Runs cpu xcr0 (resolve (fetch cpu).1) ∧ ∀ i, Runs cpu xcr0 i → lanes i ≤ lanes (resolve (fetch cpu).1) := by
  have q2 := C74_queries_partial cpu .AVX2 (by decide)
  have q1 := C74_queries_partial cpu .AVX (by decide)
  have q0 := C74_queries_partial cpu .SSE2 (by decide)
  unfold resolve
  by_cases c2 : has (fetch cpu).1 .AVX2 = true
  · rw [if_pos c2]
    have s2 := q2.1 c2
    exact ⟨⟨h2 s2, s2, hw (h2 s2)⟩, fun i _ => by cases i <;> decide⟩
  · rw [if_neg c2]
    have n2 : ¬ Runs cpu xcr0 .avx2 := fun k => c2 (q2.2 k.2.1)
    by_cases c1 : has (fetch cpu).1 .AVX = true
    · rw [if_pos c1]
      refine ⟨⟨q1.1 c1, hw (q1.1 c1)⟩, fun i hi => ?_⟩
      cases i <;> first | exact absurd hi n2 | decide
    · rw [if_neg c1]
      have n1 : ¬ Runs cpu xcr0 .avx := fun k => c1 (q1.2 k.1)
      by_cases c0 : has (fetch cpu).1 .SSE2 = true
      · rw [if_pos c0]
        refine ⟨q0.1 c0, fun i hi => ?_⟩
        cases i <;> first | exact absurd hi n2 | exact absurd hi n1 | decide
      · rw [if_neg c0]
        refine ⟨trivial, fun i hi => ?_⟩
        cases i <;> first | exact absurd hi n2 | exact absurd hi n1 | exact absurd (q0.2 hi) c0 | decide

/-- A processor with AVX under a system that does not save the wide registers. -/
def plainSystem (a : Nat) : Leaf := if a = 0 then ⟨7, 0, 0, 0⟩ else if a = 1 then ⟨0, 0, 2 ^ 28, 2 ^ 26⟩ else ⟨0, 0, 0, 0⟩

/-- **C74 (choice, refuted).** OSXSAVE and XCR0 are not looked at: under a system that does not save the wide registers the function for
AVX is chosen and every search is an invalid instruction, although the one for SSE2 would run. -/
theorem C74_choice_refuted : resolve (fetch plainSystem).1 = .avx ∧ (∀ xcr0, ¬ Runs plainSystem xcr0 .avx) ∧
    ∀ xcr0, Runs plainSystem xcr0 .sse2 := by
  refine ⟨by decide +kernel, fun xcr0 h => ?_, fun xcr0 => ⟨?_, ?_⟩⟩
  · exact absurd (show (plainSystem 1).ecx.testBit 27 = true from h.2.1) (by decide +kernel)
  · show 1 ≤ (plainSystem 0).eax; decide +kernel
  · show (plainSystem 1).edx.testBit 26 = true; decide +kernel

/-- **C74 (early).** If the function is chosen before the constructor of the global variable has run, as by a loader that resolves
indirect functions first, the choice runs on every processor. -/
theorem C74_early (cpu : Nat → Leaf) (xcr0 : Nat) : Runs cpu xcr0 (resolve Features.zero) := by
  have : resolve Features.zero = .unroll := by decide +kernel
  rw [this]; trivial

/-- A processor with AVX2 under a system that saves the wide registers meets the hypotheses; AVX2 is chosen. -/
def haswell (a : Nat) : Leaf :=
  if a = 0 then ⟨13, 0, 0, 0⟩ else if a = 1 then ⟨0, 0, 2 ^ 28 + 2 ^ 27, 2 ^ 26⟩ else if a = 7 then ⟨0, 2 ^ 5, 0, 0⟩ else ⟨0, 0, 0, 0⟩

example : Supports haswell .AVX ∧ Supports haswell .AVX2 ∧ WideOn haswell 7 ∧ resolve (fetch haswell).1 = .avx2 := by
  refine ⟨⟨?_, ?_⟩, ⟨?_, ?_⟩, ⟨?_, ?_, ?_⟩, ?_⟩
  · show 1 ≤ (haswell 0).eax; decide +kernel
  · show (haswell 1).ecx.testBit 28 = true; decide +kernel
  · show 7 ≤ (haswell 0).eax; decide +kernel
  · show (haswell 7).ebx.testBit 5 = true; decide +kernel
  all_goals decide +kernel

end Fptu.Props
