import Verif.Model.Scan
/-!
# The comparison of the AVX search

`scan_AVX.cxx:43-52` compares the entries of the index as floating-point numbers, `_mm256_cmp_ps(.., _CMP_EQ_OQ)`, of which `Model/Scan`
has the result only. Here is the comparison itself, on bit patterns of `float` (IEEE 754 binary32), in both modes of the processor: as usual, or
with the flag "denormals are zeros" of `MXCSR`, which programs built with `-ffast-math` set when they start.
-/
namespace Fptu.Scan

/-- An operand as the processor takes it: with the flag, a number whose exponent field is zero is a zero of its sign. -/
def flushed (daz : Bool) (x : Nat) : Nat := if daz && decide (x / 2 ^ 23 % 256 = 0) then x / 2 ^ 31 * 2 ^ 31 else x

/-- A NaN. -/
def isNan32 (x : Nat) : Bool := decide (x / 2 ^ 23 % 256 = 255 ∧ x % 2 ^ 23 ≠ 0)

/-- One lane of `_mm256_cmp_ps(a, b, _CMP_EQ_OQ)`: equal numbers, both zeros are equal, NaN equals nothing. -/
def cmpEqPs (daz : Bool) (a b : Nat) : Bool :=
  !isNan32 a && !isNan32 b &&
    (decide (flushed daz a = flushed daz b) || decide (flushed daz a % 2 ^ 31 = 0 ∧ flushed daz b % 2 ^ 31 = 0))

/-- scan_AVX.cxx:45-50: the lane of an entry, 4 bytes from its third byte on, `and` 0x0000ffff. -/
def lanePs (m : Mem) (i : Nat) : Nat := ((m (2 * i + 1)).getD 0 + 65536 * (m (2 * i + 2)).getD 0) &&& 0xffff

/-- scan_AVX.cxx:43-52 `cmp2mask`; the pattern has `genus_and_id` in every lane (81-89). -/
def cmp2maskPs (daz : Bool) (m : Mem) (key scan : Nat) : Option Nat :=
  if (List.range 16).all (fun j => (m (2 * scan + 1 + j)).isSome) then
    some (maskOf 1 0 ((List.range 8).map fun j => cmpEqPs daz key (lanePs m (scan + j))))
  else none

/-- scan_AVX.cxx:54-66 `mask2ptr`. -/
def ptrPs (mask scan : Nat) : Out := if mask = 0 then .notFound else .found (scan + ctz mask)

/-- scan_AVX.cxx:68-75 `STEP_x8`. -/
def stepPs (daz : Bool) (m : Mem) (key scan : Nat) : Out :=
  match cmp2maskPs daz m key scan with
  | none => .fault
  | some mask => ptrPs mask scan

/-- `n` times `STEP_x8`. -/
def stepsPs (daz : Bool) (m : Mem) (key : Nat) : Nat → Nat → Out
  | 0, _ => .notFound
  | n + 1, scan =>
    match stepPs daz m key scan with
    | .notFound => stepsPs daz m key n (scan + 8)
    | r => r

/-- scan_AVX.cxx:133-160: `case 8` to `case 0`. -/
def tailPs (daz : Bool) (m : Mem) (key e : Nat) : Nat → Nat → Out
  | 0, _ => .notFound
  | c + 1, scan =>
    match stepsPs daz m key c scan with
    | .notFound => stepPs daz m key (e - 8)
    | r => r

/-- scan_AVX.cxx:117-131: `default:`, `while (scan < end - 63)`. -/
def bulkPs (daz : Bool) (m : Mem) (key bytes e scan : Nat) : Out :=
  match stepsPs daz m key 8 scan with
  | .notFound =>
    if scan + 64 + 63 < e then bulkPs daz m key bytes e (scan + 64)
    else tailPs daz m key e ((bytes % 256 + 31) / 32) (scan + 64)
  | r => r
termination_by e - scan

/-- scan_AVX.cxx:77-162 `fptu_scan_AVX`, with the comparison as the processor does it in either mode. -/
def scanAvx (daz : Bool) (m : Mem) (key b e : Nat) : Out :=
  if e < b + 8 then
    if e < b + 1 then .notFound
    else if 8 ≤ b % 1024 then
      match cmp2maskPs daz m key (e - 8) with
      | none => .fault
      | some mask => ptrPs (mask >>> (8 - (e - b))) b
    else
      match cmp2maskPs daz m key b with
      | none => .fault
      | some mask => ptrPs ((255 >>> (8 - (e - b))) &&& mask) b
  else
    let chunks := (4 * (e - b) + 31) / 32
    if chunks ≤ 8 then tailPs daz m key e chunks b else bulkPs daz m key (4 * (e - b)) e b

end Fptu.Scan
