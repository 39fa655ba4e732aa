/-!
# erthink arithmetic helpers

Model of `fast_positive/erthink/erthink_{u2a,misc,mul,carryadd,clz,bswap}.h`.
Fixed-width unsigned values are `Nat` with explicit `% 2^n`; signed values are `Int`.
-/
namespace Fptu.Arith

/-! ## Integer to text, erthink_u2a.h -/

/-- erthink_u2a.h:83-94 `digits_00_99` (character codes). -/
def digits_00_99 : List Nat := [
    48, 48, 48, 49, 48, 50, 48, 51, 48, 52, 48, 53, 48, 54, 48, 55, 48, 56, 48,
    57, 49, 48, 49, 49, 49, 50, 49, 51, 49, 52, 49, 53, 49, 54, 49, 55, 49, 56,
    49, 57, 50, 48, 50, 49, 50, 50, 50, 51, 50, 52, 50, 53, 50, 54, 50, 55, 50,
    56, 50, 57, 51, 48, 51, 49, 51, 50, 51, 51, 51, 52, 51, 53, 51, 54, 51, 55,
    51, 56, 51, 57, 52, 48, 52, 49, 52, 50, 52, 51, 52, 52, 52, 53, 52, 54, 52,
    55, 52, 56, 52, 57, 53, 48, 53, 49, 53, 50, 53, 51, 53, 52, 53, 53, 53, 54,
    53, 55, 53, 56, 53, 57, 54, 48, 54, 49, 54, 50, 54, 51, 54, 52, 54, 53, 54,
    54, 54, 55, 54, 56, 54, 57, 55, 48, 55, 49, 55, 50, 55, 51, 55, 52, 55, 53,
    55, 54, 55, 55, 55, 56, 55, 57, 56, 48, 56, 49, 56, 50, 56, 51, 56, 52, 56,
    53, 56, 54, 56, 55, 56, 56, 56, 57, 57, 48, 57, 49, 57, 50, 57, 51, 57, 52,
    57, 53, 57, 54, 57, 55, 57, 56, 57, 57]

/-- Table access. -/
def dig (i : Nat) : Nat := digits_00_99[i]?.getD 0

/-- `*ptr = c; ptr += adv`: the output buffer as the list of characters up to `ptr`.
A character that is not advanced over is overwritten by the next store (there always is one). -/
def put (out : List Nat) (c : Nat) (adv : Bool) : List Nat := if adv then out ++ [c] else out

/-- erthink_u2a.h:96-104 `dec2`. -/
def dec2 (v : Nat) (out : List Nat) (force : Bool) : List Nat :=
  let out := put out (dig (2 * v)) (force || decide (v > 9))
  put out (dig (2 * v + 1)) true

/-- erthink_u2a.h:106-118 `dec3`. -/
def dec3 (v : Nat) (out : List Nat) (force : Bool) : List Nat :=
  let hi := v / 10
  let lo := v % 10
  let out := put out (dig (2 * hi)) (force || decide (v > 99))
  let out := put out (dig (2 * hi + 1)) (force || decide (v > 9))
  put out (lo + 48) true

/-- erthink_u2a.h:120-134 `dec4`. -/
def dec4 (v : Nat) (out : List Nat) (force : Bool) : List Nat :=
  let hi := v / 100
  let lo := v % 100
  let out := put out (dig (2 * hi)) (force || decide (v > 999))
  let out := put out (dig (2 * hi + 1)) (force || decide (v > 99))
  let out := put out (dig (2 * lo)) (force || decide (v > 9))
  put out (dig (2 * lo + 1)) true

/-- erthink_u2a.h:138-158 `u2a(uint32_t)`. -/
def u2a32 (u : Nat) (out : List Nat) : List Nat :=
  if u < 10000 then dec4 u out false
  else if u ≥ 100000000 then
    let out := dec2 (u / 100000000) out false
    let u := u % 100000000
    let out := dec4 (u / 10000) out true
    let u := u % 10000
    dec4 u out true
  else
    let out := dec4 (u / 10000) out false
    let u := u % 10000
    dec4 u out true

/-- erthink_u2a.h:160-190 `u2a(uint64_t)`; `static_cast<unsigned>` keeps the low 32 bits. -/
def u2a64 (u : Nat) (out : List Nat) : List Nat :=
  let u32 := u % 2 ^ 32
  if u = u32 then u2a32 u32 out
  else
    let (u, out) :=
      if u ≥ 10 ^ 12 then
        let (u, out, force) :=
          if u ≥ 10 ^ 16 then (u % 10 ^ 16, dec4 (u / 10 ^ 16 % 2 ^ 32) out false, true)
          else (u, out, false)
        let out := dec4 (u / 10 ^ 12 % 2 ^ 32) out force
        let u := u % 10 ^ 12
        let out := dec4 (u / 10 ^ 8 % 2 ^ 32) out true
        (u % 10 ^ 8, out)
      else
        (u % 10 ^ 8, dec4 (u / 10 ^ 8 % 2 ^ 32) out false)
    let out := dec4 (u % 2 ^ 32 / 10000) out true
    dec4 (u % 2 ^ 32 % 10000) out true

/-- erthink_misc.h:40-57 `branchless_abs<intN_t>`: `(expanded_sign, unsigned_abs)`.
`value + expanded_sign` is signed arithmetic: for the minimal value it overflows, which is undefined
behaviour (outcome `none`).  `x ^ -1 = -x - 1` in two's complement. -/
def branchlessAbs (bits : Nat) (v : Int) : Option (Int × Nat) :=
  let sign : Int := if v < 0 then -1 else 0
  let sum := v + sign
  if sum < -(2 ^ (bits - 1) : Int) then none
  else
    let x : Int := if sign = -1 then -sum - 1 else sum
    some (sign, (x % (2 ^ bits : Int)).toNat)

/-- The same with wrap-around signed addition (`-fwrapv`, the usual machine behaviour). -/
def branchlessAbsWrap (bits : Nat) (v : Int) : Int × Nat :=
  let sign : Int := if v < 0 then -1 else 0
  let sum := (v + sign + 2 ^ (bits - 1)) % (2 ^ bits) - 2 ^ (bits - 1)
  let x : Int := if sign = -1 then -sum - 1 else sum
  (sign, (x % (2 ^ bits : Int)).toNat)

/-- erthink_u2a.h:192-201 `i2a(int32_t)`. -/
def i2a32 (v : Int) : Option (List Nat) :=
  (branchlessAbs 32 v).map fun (sign, a) => u2a32 a (put [] 45 (sign = -1))

/-- erthink_u2a.h:203-213 `i2a(int64_t)`. -/
def i2a64 (v : Int) : Option (List Nat) :=
  (branchlessAbs 64 v).map fun (sign, a) => u2a64 a (put [] 45 (sign = -1))

/-! ## Carry arithmetic, erthink_carryadd.h and erthink_mul.h -/

/-- erthink_carryadd.h:139-140 (portable branch) `add64carry_first`: `(carry, sum)`. -/
def add64carryFirst (base addend : Nat) : Nat × Nat :=
  let sum := (base + addend) % 2 ^ 64
  (if sum < addend then 1 else 0, sum)

/-- erthink_carryadd.h:153-154 (portable branch) `add64carry_next`. -/
def add64carryNext (carry base addend : Nat) : Nat × Nat :=
  let sum := (base + addend + carry) % 2 ^ 64
  (if sum < addend ∨ (carry ≠ 0 ∧ sum = addend) then 1 else 0, sum)

/-- erthink_carryadd.h:167 (portable branch) `add64carry_last`. -/
def add64carryLast (carry base addend : Nat) : Nat := (base + addend + carry) % 2 ^ 64

/-- erthink_mul.h:61-65. -/
def mul32x32_64 (a b : Nat) : Nat := (a % 2 ^ 32) * (b % 2 ^ 32)

/-- erthink_mul.h:83-92 (portable branch) `mul_64x64_128`: `(low, high)`. -/
def mul64x64_128 (a b : Nat) : Nat × Nat :=
  let ll := mul32x32_64 a b
  let lh := mul32x32_64 (a >>> 32) b
  let hl := mul32x32_64 a (b >>> 32)
  let hh := mul32x32_64 (a >>> 32) (b >>> 32)
  let (c1, low) := add64carryFirst ll ((lh <<< 32) % 2 ^ 64)
  let high := add64carryLast c1 hh (lh >>> 32)
  let (c2, low) := add64carryFirst low ((hl <<< 32) % 2 ^ 64)
  let high := add64carryLast c2 high (hl >>> 32)
  (low, high)

/-! ## Count leading zeros, erthink_clz.h -/

/-- erthink_clz.h:46-48. -/
def deBruijnClz32 : List Nat :=
  [31, 22, 30, 21, 18, 10, 29, 2, 20, 17, 15, 13, 9, 6, 28, 1,
   23, 19, 11, 3, 16, 14, 7, 24, 12, 4, 8, 25, 5, 26, 27, 0]

/-- erthink_clz.h:63-67. -/
def deBruijnClz64 : List Nat :=
  [63, 16, 62, 7, 15, 36, 61, 3, 6, 14, 22, 26, 35, 47, 60, 2,
   9, 5, 28, 11, 13, 21, 42, 19, 25, 31, 34, 40, 46, 52, 59, 1,
   17, 8, 37, 4, 23, 27, 48, 10, 29, 12, 43, 20, 32, 41, 53, 18,
   38, 24, 49, 30, 44, 33, 54, 39, 50, 45, 55, 51, 56, 57, 58, 0]

/-- One line `v |= v >> k`. -/
def smear (k v : Nat) : Nat := v ||| (v >>> k)

/-- erthink_clz.h:40-50 `fallback_clz32`. -/
def clz32 (v : Nat) : Nat :=
  let v := smear 16 (smear 8 (smear 4 (smear 2 (smear 1 v))))
  deBruijnClz32[(v * 0x07C4ACDD % 2 ^ 32) >>> 27]?.getD 0

/-- erthink_clz.h:52-70 (64-bit branch) `fallback_clz64`. -/
def clz64 (v : Nat) : Nat :=
  let v := smear 32 (smear 16 (smear 8 (smear 4 (smear 2 (smear 1 v)))))
  deBruijnClz64[(v * 0x03F79D71B4CB0A89 % 2 ^ 64) >>> 58]?.getD 0

/-- erthink_clz.h:53-55 (32-bit branch) `fallback_clz64`. -/
def clz64on32 (v : Nat) : Nat :=
  let hi := v >>> 32
  (if hi ≠ 0 then 0 else 32) + clz32 (if hi ≠ 0 then hi else v % 2 ^ 32)

/-! ## Byte swap, erthink_bswap.h -/

/-- erthink_bswap.h:50-55 (portable branch) `bswap64`. -/
def bswap64 (v : Nat) : Nat :=
  (v <<< 56) % 2 ^ 64 ||| v >>> 56 ||| ((v <<< 40) % 2 ^ 64 &&& 0x00ff000000000000) |||
  ((v <<< 24) % 2 ^ 64 &&& 0x0000ff0000000000) ||| ((v <<< 8) % 2 ^ 64 &&& 0x000000ff00000000) |||
  (v >>> 8 &&& 0x00000000ff000000) ||| (v >>> 24 &&& 0x0000000000ff0000) |||
  (v >>> 40 &&& 0x000000000000ff00)

/-- erthink_bswap.h:70-71 (portable branch) `bswap32`. -/
def bswap32 (v : Nat) : Nat :=
  (v <<< 24) % 2 ^ 32 ||| v >>> 24 ||| ((v <<< 8) % 2 ^ 32 &&& 0x00ff0000) ||| (v >>> 8 &&& 0x0000ff00)

end Fptu.Arith
