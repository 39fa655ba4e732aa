/-!
# Word-wise memory helpers: `pollute`, `is_zeroed`, `log2size`

Model of `src/1Hippeus/utils.cxx` on a little-endian 64-bit machine. Memory is a function from word index
to 64-bit word; the byte at address `a` is byte `a % 8` of word `a / 8`.
-/
namespace Fptu.Mem

/-- `whole = ~machine_word(0)` (utils.cxx:84). -/
def whole : Nat := 2 ^ 64 - 1

/-- utils.cxx:59-68 `aheadmask`. -/
def aheadmask (bytes : Nat) : Nat := whole >>> (8 * (8 - bytes))

/-- utils.cxx:102-112: the loop over whole words and the final partial word. A call `functor(ptr)` is
recorded with the mask `whole` (both functor overloads agree on it). -/
def bulk (ptr : Nat) (bytes : Int) : List (Nat × Nat) :=
  if bytes ≥ 8 then (ptr, whole) :: bulk (ptr + 1) (bytes - 8)
  else if bytes > 0 then [(ptr, aheadmask bytes.toNat)] else []
termination_by bytes.toNat
decreasing_by omega

/-- utils.cxx:82-116 `uintptr_applier`: the calls of the functor as pairs (word index, mask). The shift
amount `unalign - bytes` is computed in `size_t` by the code (modulo 2^64). -/
def plan (p : Nat) (bytes : Int) : List (Nat × Nat) :=
  let unalign := p % 8
  if unalign ≠ 0 then
    let ptr := (p - unalign) / 8
    let bytes := bytes - ((8 - unalign : Nat) : Int)
    let gatemask := if bytes < 0 then whole >>> ((((unalign : Int) - bytes) % 2 ^ 64).toNat * 8) else whole
    let gatemask := (gatemask <<< (unalign * 8)) % 2 ^ 64
    (ptr, gatemask) :: bulk (ptr + 1) bytes
  else bulk (p / 8) bytes

/-- utils.h:37-39 `linear_congruential`. -/
def linearCongruential (v : Nat) : Nat := (v * 6364136223846793005 + 1442695040888963407) % 2 ^ 64

def upd (m : Nat → Nat) (i x : Nat) : Nat → Nat := fun j => if j = i then x else m j

/-- utils.cxx:118-146 `pollute_functor` applied to each planned word. -/
def runPollute (cong : Bool) : List (Nat × Nat) → Nat → (Nat → Nat) → (Nat → Nat)
  | [], _, m => m
  | (w, mask) :: rest, value, m =>
    let value := if cong then linearCongruential value else value
    runPollute cong rest value (upd m w (m w ^^^ (value &&& mask)))

/-- utils.cxx:195-207 `pollute`. -/
def pollute (m : Nat → Nat) (ptr : Nat) (bytes : Int) (xormask : Nat) : Nat → Nat :=
  if bytes > 0 then
    if xormask ≠ 0 then runPollute false (plan ptr bytes) xormask m
    else runPollute true (plan ptr bytes) (bytes.toNat ^^^ ptr) m
  else m

/-- utils.cxx:148-158 `probe4zero_functor` and 209-213 `is_zeroed` (the walk stops at the first nonzero
word, hence `any`). -/
def isZeroed (m : Nat → Nat) (ptr : Nat) (bytes : Int) : Bool :=
  decide (bytes > 0) && !(plan ptr bytes).any (fun e => (m e.1 &&& e.2) != 0)

/-- utils.cxx:229-233: loop of `log2size`; `none` means the loop does not stop within `fuel` steps.
`result <<= log2step` in 64 bits. -/
def log2loop (value upper step : Nat) : Nat → Nat → Option Nat
  | 0, _ => none
  | fuel + 1, result =>
    if value > result then
      let result := (result <<< step) % 2 ^ 64
      if result ≥ upper then some upper else log2loop value upper step fuel result
    else some result

/-- utils.cxx:215-235 `log2size`. -/
def log2size (fuel value log2min log2max log2step : Nat) : Option Nat :=
  log2loop value (1 <<< log2max) log2step fuel (1 <<< log2min)

end Fptu.Mem
