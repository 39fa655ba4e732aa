/-!
# Features of the processor and the choice of the search function

Model of `details/cpu_features.h`, `src/cpu_features_ia32.cxx` (GCC and clang) and `src/scan_ifunc.cxx` for x86.
-/
namespace Fptu.Cpu

/-- The registers after the instruction CPUID. -/
structure Leaf where
  eax : Nat
  ebx : Nat
  ecx : Nat
  edx : Nat
deriving DecidableEq

/-- cpu_features.h:26-48 `ia32_cpu_features`. -/
structure Features where
  basicEbx : Nat
  basicEcx : Nat
  basicEdx : Nat
  ext7Ebx : Nat
  ext7Ecx : Nat
  ext7Edx : Nat
  ext1Ecx : Nat
  ext1Edx : Nat
  powerEcx : Nat
  powerEdx : Nat
deriving DecidableEq

/-- cpu_features_ia32.cxx:70 `clear`; also the contents before the constructor of the global variable (line 26) has run: static
storage is zeroed first. -/
def Features.zero : Features := ⟨0, 0, 0, 0, 0, 0, 0, 0, 0, 0⟩

/-- cpu_features_ia32.cxx:72-97 `fetch`: the contents and the result. `cpu` gives the registers for a value of `eax` (`ecx = 0`). -/
def fetch (cpu : Nat → Leaf) : Features × Bool :=
  let max := (cpu 0).eax
  let f := if max ≥ 1 then
      let f := { Features.zero with basicEbx := (cpu 1).ebx, basicEcx := (cpu 1).ecx, basicEdx := (cpu 1).edx }
      if max ≥ 7 then { f with ext7Ebx := (cpu 7).ebx, ext7Ecx := (cpu 7).ecx, ext7Edx := (cpu 7).edx } else f
    else Features.zero
  let max' := (cpu 0x80000000).eax
  let f := if max' ≥ 0x80000001 then
      let f := { f with ext1Ecx := (cpu 0x80000001).ecx, ext1Edx := (cpu 0x80000001).edx }
      if max' ≥ 0x80000007 then { f with powerEcx := (cpu 0x80000007).ecx, powerEdx := (cpu 0x80000007).edx } else f
    else f
  (f, decide (max ≥ 1 ∨ max' ≥ 0x80000001))

/-- `(r & (1 << n)) != 0`. -/
def bit (r n : Nat) : Bool := decide (r &&& (1 <<< n) ≠ 0)

/-- The queries of cpu_features.h:60-147, in order; `TBM` is spelt `has_TMB` there. -/
inductive Query where
  | TSC | CMPXCHG8 | CLFLUSH | SSE | SSE2 | SSE3 | PCLMULQDQ | SSSE3 | FMA | CMPXCHG16B | SSE41 | SSE42 | MOVBE | POPCNT | AES | AVX | RDRAND
  | BMI1 | HLE | AVX2 | BMI2 | RTM | RDSEED | ADX | CLFLUSHOPT | CLWB | SHA | VAES | VPCLMULQDQ | RDTSCP | ABM | SSE4a | MisalignSSE | FMA4 | TBM
deriving DecidableEq

/-- cpu_features.h:60-147 `has_…`. -/
def has (f : Features) : Query → Bool
  | .TSC => bit f.basicEdx 4
  | .CMPXCHG8 => bit f.basicEdx 8
  | .CLFLUSH => bit f.basicEdx 19
  | .SSE => bit f.basicEdx 25
  | .SSE2 => bit f.basicEdx 26
  | .SSE3 => bit f.basicEcx 0
  | .PCLMULQDQ => bit f.basicEcx 1
  | .SSSE3 => bit f.basicEcx 9
  | .FMA => bit f.basicEcx 12
  | .CMPXCHG16B => bit f.basicEcx 13
  | .SSE41 => bit f.basicEcx 19
  | .SSE42 => bit f.basicEcx 20
  | .MOVBE => bit f.basicEcx 22
  | .POPCNT => bit f.basicEcx 23
  | .AES => bit f.basicEcx 25
  | .AVX => bit f.basicEcx 28
  | .RDRAND => bit f.basicEcx 31
  | .BMI1 => bit f.ext7Ebx 3
  | .HLE => bit f.ext7Ebx 4
  | .AVX2 => bit f.ext7Ebx 5
  | .BMI2 => bit f.ext7Ebx 8
  | .RTM => bit f.ext7Ebx 11
  | .RDSEED => bit f.ext7Ebx 18
  | .ADX => bit f.ext7Ebx 19
  | .CLFLUSHOPT => bit f.ext7Ebx 23
  | .CLWB => bit f.ext7Ebx 24
  | .SHA => bit f.ext7Ebx 29
  | .VAES => bit f.ext7Ecx 9
  | .VPCLMULQDQ => bit f.ext7Ecx 10
  | .RDTSCP => bit f.ext1Edx 27
  | .ABM => bit f.ext1Ecx 5
  | .SSE4a => bit f.ext1Ecx 6
  | .MisalignSSE => bit f.ext1Ecx 7
  | .FMA4 => bit f.ext1Ecx 16
  | .TBM => bit f.ext1Ecx 21

/-- The implementations of the search (details/scan.h). -/
inductive Impl where
  | avx2 | avx | sse2 | unroll
deriving DecidableEq

/-- scan_ifunc.cxx:37-52 `fptu_scan_resolver`. -/
def resolve (f : Features) : Impl :=
  if has f .AVX2 then .avx2 else if has f .AVX then .avx else if has f .SSE2 then .sse2 else .unroll

end Fptu.Cpu
