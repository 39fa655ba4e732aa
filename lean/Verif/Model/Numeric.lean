import Verif.Model.TupleRW
import Mathlib.Data.Rat.Defs
import Mathlib.Algebra.Order.Field.Rat
/-!
# Numbers: generic setters and getters, tables of types

Model of `set_integer`, `set_unsigned`, `set_int128`, `set_uint128`, `set_number` of `accessor_rw`
(`fast_positive/tuples/details/rw.h`), of the `insert_*` functions with the same bodies (`src/rw.cxx`), of
`get_integer`, `get_unsigned`, `get_int128`, `get_uint128`, `get_number_as_ieee754double`
(`fast_positive/tuples/details/getter.h`), and of the masks and conversion table of the types
(`essentials.h`, `details/meta.h`, `src/tablets.cxx`).

A C++ integer is an `Int` in the range of its type. Simplifications: `double` results are given by their value (`none`:
infinity or NaN); storing a `float`/`double` argument into a floating-point field is in `Model/Real.lean`, into a decimal field
not modelled.
-/
namespace Fptu.Num
open Fptu.Gear Fptu.Rw

/-- Width of the C++ integer type of a genus, in bits. -/
def width (g : Genus) : Nat := 8 * g.preplacedBytes

/-- The genera whose C++ type is a signed integer (meta.h:288, 302, 320, 360). -/
def signedInt : Genus → Bool
  | .i8 | .i16 | .i32 | .i64 => true
  | _ => false
/-- The genera whose C++ type is an unsigned integer (meta.h:295, 311, 331, 373). -/
def unsignedInt : Genus → Bool
  | .u8 | .u16 | .u32 | .u64 => true
  | _ => false

/-- Little-endian number of the bytes. -/
def leNat : List Nat → Nat
  | [] => 0
  | b :: bs => b + 256 * leNat bs

/-- `n` units, little-endian. -/
def natCells : Nat → Nat → List Cell
  | 0, _ => []
  | n + 1, x => ⟨x % 65536, x / 65536 % 65536⟩ :: natCells n (x / 4294967296)

/-- The object of the C++ type of the genus (8, 16, 32 or 64 bits) with the bit pattern `x`. -/
def bitsVal (g : Genus) (x : Nat) : Val :=
  if g.isInplaced then .inline x else .units (natCells g.looseUnits x)

/-- Bit pattern of an integer in `w` bits. -/
def pattern (w : Nat) (n : Int) : Nat := (n % (2 ^ w : Int)).toNat

/-- The number represented by the bit pattern. -/
def signExtend (w x : Nat) : Int := if x < 2 ^ (w - 1) then x else (x : Int) - 2 ^ w

/-- `static_cast<intN_t>(value)`, `static_cast<uintN_t>(value)`. -/
def castInt (g : Genus) (n : Int) : Int :=
  if signedInt g then signExtend (width g) (pattern (width g) n) else pattern (width g) n

/-- The argument of `set_i8` ... `set_u64`: an object of the C++ type with the given number. -/
def intVal (g : Genus) (n : Int) : Val := bitsVal g (pattern (width g) n)

/-- essentials.h:84-90 `safe64_number_max`, `safe32_number_max`. -/
def safe64 : Int := 0x1FFFFFFFFFFFFF
def safe32 : Int := 0x1FFFFF

/-- `static_cast<float>(n)` (`p` = 23, `bias` = 127) or `static_cast<double>(n)` (`p` = 52, `bias` = 1023) of a natural number:
the bit pattern, rounded to nearest, ties to even (IEEE 754, binary interchange formats). -/
def ieeeOfNat (p bias n : Nat) : Nat :=
  if n = 0 then 0
  else
    let e := Nat.log2 n
    if e ≤ p then (e + bias - 1) * 2 ^ p + n * 2 ^ (p - e)
    else
      let d := 2 ^ (e - p)
      let q := n / d
      let r := n % d
      (e + bias - 1) * 2 ^ p + (if 2 * r < d ∨ (2 * r = d ∧ q % 2 = 0) then q else q + 1)

/-- The same for integers; `w` is the width of the format. -/
def ieeeOfInt (p bias w : Nat) (n : Int) : Nat :=
  if n < 0 then 2 ^ (w - 1) + ieeeOfNat p bias n.natAbs else ieeeOfNat p bias n.natAbs

/-- Value of an IEEE 754 bit pattern with `p` fraction bits and `e` exponent bits; `none`: infinity or NaN. -/
def ieeeValue (p e x : Nat) : Option Rat :=
  let sign : Rat := if x / 2 ^ (p + e) % 2 = 1 then -1 else 1
  let expo := x / 2 ^ p % 2 ^ e
  let frac := x % 2 ^ p
  let bias : Int := 2 ^ (e - 1) - 1
  if expo = 2 ^ e - 1 then none
  else if expo = 0 then some (sign * (frac : Rat) * 2 ^ (1 - bias - (p : Int)))
  else some (sign * ((2 ^ p + frac : Nat) : Rat) * 2 ^ ((expo : Int) - bias - (p : Int)))

/-- `static_cast<float>(value)` as the argument of `set_f32`. -/
def f32OfInt (n : Int) : Val := bitsVal .f32 (ieeeOfInt 23 127 32 n)
/-- `static_cast<double>(value)` as the argument of `set_f64`. -/
def f64OfInt (n : Int) : Val := bitsVal .f64 (ieeeOfInt 52 1023 64 n)

/-! ## What the setters pass on for a field of genus `g` -/

/-- rw.h:476-496, rw.cxx:263-283 `set_integer(int64_t)`, `insert_integer`. -/
def integerArg (g : Genus) (value : Int) : Except Exc Val :=
  match g with
  | .i8 => if value ≠ castInt .i8 value then .error .valueRange else .ok (intVal .i8 (castInt .i8 value))
  | .i16 => if value ≠ castInt .i16 value then .error .valueRange else .ok (intVal .i16 (castInt .i16 value))
  | .i32 => if value ≠ castInt .i32 value then .error .valueRange else .ok (intVal .i32 (castInt .i32 value))
  | .i64 => .ok (intVal .i64 value)
  | _ => .error .typeMismatch

/-- rw.h:498-502, rw.cxx:285-290 `set_integer(uint64_t)`. -/
def integerArgU (g : Genus) (value : Int) : Except Exc Val :=
  if value > 2 ^ 63 - 1 then .error .valueRange else integerArg g (castInt .i64 value)

/-- rw.h:504-524, rw.cxx:292-312 `set_unsigned(uint64_t)`. -/
def unsignedArg (g : Genus) (value : Int) : Except Exc Val :=
  match g with
  | .u8 => if value ≠ castInt .u8 value then .error .valueRange else .ok (intVal .u8 (castInt .u8 value))
  | .u16 => if value ≠ castInt .u16 value then .error .valueRange else .ok (intVal .u16 (castInt .u16 value))
  | .u32 => if value ≠ castInt .u32 value then .error .valueRange else .ok (intVal .u32 (castInt .u32 value))
  | .u64 => .ok (intVal .u64 value)
  | _ => .error .typeMismatch

/-- rw.h:526-530, rw.cxx:314-319 `set_unsigned(int64_t)`: calls `set_integer`. -/
def unsignedArgS (g : Genus) (value : Int) : Except Exc Val :=
  if value < 0 then .error .valueRange else integerArgU g (castInt .u64 value)

/-- rw.h:532-537, rw.cxx:321-327 `set_int128`; `value` is the signed 128-bit number, `int64_t(value)` its low half. -/
def int128Arg (g : Genus) (value : Int) : Except Exc Val :=
  if g = .bin128 then .ok (.units (natCells 4 (pattern 128 value))) else integerArg g (castInt .i64 value)

/-- rw.h:539-544, rw.cxx:329-335 `set_uint128`. -/
def uint128Arg (g : Genus) (value : Int) : Except Exc Val :=
  if g = .bin128 then .ok (.units (natCells 4 (pattern 128 value))) else unsignedArg g (castInt .u64 value)

/-- `if (value < lo || value > hi) throw_value_range(); return set_<g>(static_cast<TYPE>(value))`. -/
def ranged (g : Genus) (lo hi value : Int) : Except Exc Val :=
  if value < lo ∨ value > hi then .error .valueRange else .ok (intVal g (castInt g value))

/-- rw.h:546-584, rw.cxx:337-377 `set_number(int32_t)`. -/
def numberArgS32 (g : Genus) (value : Int) : Except Exc Val :=
  match g with
  | .f32 => if value < -safe32 ∨ value > safe32 then .error .valueRange else .ok (f32OfInt value)
  | .f64 => .ok (f64OfInt value)
  | .i8 => ranged .i8 (-128) 127 value
  | .i16 => ranged .i16 (-32768) 32767 value
  | .i32 => .ok (intVal .i32 value)
  | .i64 => .ok (intVal .i64 value)
  | .u8 => ranged .u8 0 255 value
  | .u16 => ranged .u16 0 65535 value
  | .u32 => if value < 0 then .error .valueRange else .ok (intVal .u32 (castInt .u32 value))
  | .u64 => if value < 0 then .error .valueRange else .ok (intVal .u64 (castInt .u64 value))
  | _ => .error .typeMismatch

/-- `if (value > hi) throw_value_range(); return set_<g>(static_cast<TYPE>(value))`. -/
def capped (g : Genus) (hi value : Int) : Except Exc Val :=
  if value > hi then .error .valueRange else .ok (intVal g (castInt g value))

/-- rw.h:586-622, rw.cxx:379-417 `set_number(uint32_t)`. -/
def numberArgU32 (g : Genus) (value : Int) : Except Exc Val :=
  match g with
  | .f32 => if value > safe32 then .error .valueRange else .ok (f32OfInt value)
  | .f64 => .ok (f64OfInt value)
  | .i8 => capped .i8 127 value
  | .i16 => capped .i16 32767 value
  | .i32 => capped .i32 (2 ^ 31 - 1) value
  | .i64 => .ok (intVal .i64 (castInt .i64 value))
  | .u8 => capped .u8 255 value
  | .u16 => capped .u16 65535 value
  | .u32 => .ok (intVal .u32 value)
  | .u64 => .ok (intVal .u64 value)
  | _ => .error .typeMismatch

/-- rw.h:624-666, rw.cxx:419-463 `set_number(int64_t)`. -/
def numberArgS64 (g : Genus) (value : Int) : Except Exc Val :=
  match g with
  | .f32 => if value < -safe32 ∨ value > safe32 then .error .valueRange else .ok (f32OfInt value)
  | .f64 => if value < -safe64 ∨ value > safe64 then .error .valueRange else .ok (f64OfInt value)
  | .i8 => ranged .i8 (-128) 127 value
  | .i16 => ranged .i16 (-32768) 32767 value
  | .i32 => ranged .i32 (-2 ^ 31) (2 ^ 31 - 1) value
  | .i64 => .ok (intVal .i64 value)
  | .u8 => ranged .u8 0 255 value
  | .u16 => ranged .u16 0 65535 value
  | .u32 => ranged .u32 0 (2 ^ 32 - 1) value
  | .u64 => if value < 0 then .error .valueRange else .ok (intVal .u64 (castInt .u64 value))
  | _ => .error .typeMismatch

/-- rw.h:668-709, rw.cxx:465-509 `set_number(uint64_t)`. -/
def numberArgU64 (g : Genus) (value : Int) : Except Exc Val :=
  match g with
  | .f32 => if value > safe32 then .error .valueRange else .ok (f32OfInt value)
  | .f64 => if value > safe64 then .error .valueRange else .ok (f64OfInt value)
  | .i8 => capped .i8 127 value
  | .i16 => capped .i16 32767 value
  | .i32 => capped .i32 (2 ^ 31 - 1) value
  | .i64 => capped .i64 (2 ^ 63 - 1) value
  | .u8 => capped .u8 255 value
  | .u16 => capped .u16 65535 value
  | .u32 => capped .u32 (2 ^ 32 - 1) value
  | .u64 => .ok (intVal .u64 value)
  | _ => .error .typeMismatch

/-- A `float` or `double` argument. -/
inductive Flt where
  | nan
  | inf (negative : Bool)
  | fin (q : Rat)

/-- `value < q`, `value > q` of a `float`/`double` with an exactly represented bound; comparisons with NaN are false. -/
def Flt.lt (x : Flt) (q : Rat) : Bool :=
  match x with | .nan => false | .inf n => n | .fin r => decide (r < q)
def Flt.gt (x : Flt) (q : Rat) : Bool :=
  match x with | .nan => false | .inf n => !n | .fin r => decide (q < r)
def Flt.ge (x : Flt) (q : Rat) : Bool :=
  match x with | .nan => false | .inf n => !n | .fin r => decide (q ≤ r)
def Flt.le (x : Flt) (q : Rat) : Bool :=
  match x with | .nan => false | .inf n => n | .fin r => decide (r ≤ q)

/-- `static_cast<intN_t>(value)` of a floating-point value: truncation towards zero, `none` (undefined behaviour) when the
truncated value is not in the range of the type. -/
def Flt.toInt (g : Genus) (x : Flt) : Option Int :=
  match x with
  | .fin q =>
    let t := q.num.tdiv q.den
    if castInt g t = t then some t else none
  | _ => none

/-- rw.h:41-118 `roundtrip_bounds<double, TYPE>` and `roundtrip_bounds<float, TYPE>` (lower, upper). -/
def roundtripBounds (double : Bool) (g : Genus) : Int × Int :=
  match g with
  | .i32 => if double then (-2 ^ 31 + 1, 2 ^ 31 - 1) else (-2 ^ 31 + 128, 2 ^ 31 - 1 - 127)
  | .u32 => if double then (0, 2 ^ 32 - 1) else (0, 2 ^ 32 - 1 - 255)
  | .i64 => if double then (-2 ^ 63 + 1024, 2 ^ 63 - 1 - 1023) else (-2 ^ 63 + 549755813888, 2 ^ 63 - 1 - 549755813887)
  | .u64 => if double then (0, 2 ^ 64 - 1 - 2047) else (0, 2 ^ 64 - 1 - 1099511627775)
  | _ => (0, 0)

/-- Outcome of a numeric setter with a floating-point argument, before the value is stored. -/
inductive FltArg where
  | ok (v : Val)
  | exc (e : Exc)
  | ub
  deriving DecidableEq

/-- The conversion `static_cast<TYPE>(value)` and the call of `set_<g>`. -/
def realCast (g : Genus) (value : Flt) : FltArg :=
  match value.toInt g with
  | some n => .ok (intVal g n)
  | none => .ub

/-- `if (value < lo || value > hi) throw_value_range(); return set_<g>(static_cast<TYPE>(value))`. -/
def realRanged (g : Genus) (lo hi : Int) (value : Flt) : FltArg :=
  if value.lt lo || value.gt hi then .exc .valueRange else realCast g value

/-- `if (!is_safe_roundtrip<g>(value)) throw_value_range(); return set_<g>(static_cast<TYPE>(value))` (rw.h:120-126). -/
def realSafe (double : Bool) (g : Genus) (value : Flt) : FltArg :=
  if !(value.ge (roundtripBounds double g).1 && value.le (roundtripBounds double g).2) then .exc .valueRange
  else realCast g value

/-- rw.h:711-757 `set_number(float)`, 759-808 `set_number(double)`, rw.cxx:511-605, for integer fields. -/
def numberArgReal (double : Bool) (g : Genus) (value : Flt) : FltArg :=
  match value with
  | .nan => .exc .valueRange
  | value =>
    match g with
    | .i8 => realRanged .i8 (-128) 127 value
    | .i16 => realRanged .i16 (-32768) 32767 value
    | .i32 => realSafe double .i32 value
    | .i64 => realSafe double .i64 value
    | .u8 => realRanged .u8 0 255 value
    | .u16 => realRanged .u16 0 65535 value
    | .u32 => realSafe double .u32 value
    | .u64 => realSafe double .u64 value
    | _ => .exc .typeMismatch

/-! ## Setters and inserters of a tuple -/

/-- `tuple_rw::set_*(token, value)` (rw.cxx:139-187): `at` refuses collections, then the accessor stores what
`arg` yields for the type of the field. -/
def setWith (F : Fix) (s : RW) (tag : Nat) (arg : Genus → Except Exc Val) : Out Unit :=
  if isLooseCollection tag then .exc .collectionUnallowed s
  else match arg (tag2genus tag) with
    | .error e => .exc e s
    | .ok v => setField F s tag (tag2genus tag) v

/-- `tuple_rw::insert_*(token, value)` (rw.cxx:263-605). -/
def insertWith (F : Fix) (s : RW) (tag : Nat) (arg : Genus → Except Exc Val) : Out (Option Nat) :=
  match arg (tag2genus tag) with
  | .error e => .exc e s
  | .ok v => insertField F s tag (tag2genus tag) v

def setInteger (F : Fix) (s : RW) (tag : Nat) (n : Int) : Out Unit := setWith F s tag (integerArg · n)
def setIntegerU (F : Fix) (s : RW) (tag : Nat) (n : Int) : Out Unit := setWith F s tag (integerArgU · n)
def setUnsigned (F : Fix) (s : RW) (tag : Nat) (n : Int) : Out Unit := setWith F s tag (unsignedArg · n)
def setUnsignedS (F : Fix) (s : RW) (tag : Nat) (n : Int) : Out Unit := setWith F s tag (unsignedArgS · n)
def setInt128 (F : Fix) (s : RW) (tag : Nat) (n : Int) : Out Unit := setWith F s tag (int128Arg · n)
def setUint128 (F : Fix) (s : RW) (tag : Nat) (n : Int) : Out Unit := setWith F s tag (uint128Arg · n)

/-- `set_number(float)`, `set_number(double)` of an integer field. -/
def setReal (F : Fix) (s : RW) (tag : Nat) (double : Bool) (x : Flt) : Out Unit :=
  if isLooseCollection tag then .exc .collectionUnallowed s
  else match numberArgReal double (tag2genus tag) x with
    | .exc e => .exc e s
    | .ub => .ub
    | .ok v => setField F s tag (tag2genus tag) v

/-! ## Getters -/

/-- The bytes of the fixed-size value returned by `get<g>()` (getter.h:123-152) for a token of either placement. -/
def getFixed (s : RW) (tag : Nat) (g : Genus) : Except Exc (List Nat) :=
  if isPreplaced tag then getPreplacedFixed s tag g
  else (getLoose s tag g).map fun v => (v.map (·.bytes g)).getD []

/-- The integer with the given object representation. -/
def intOf (g : Genus) (bytes : List Nat) : Int :=
  if signedInt g then signExtend (width g) (leNat bytes) else leNat bytes

/-- getter.h:386-399 `get_integer`. -/
def getInteger (s : RW) (tag : Nat) : Except Exc Int :=
  match tag2genus tag with
  | .i8 => (getFixed s tag .i8).map (intOf .i8)
  | .i16 => (getFixed s tag .i16).map (intOf .i16)
  | .i32 => (getFixed s tag .i32).map (intOf .i32)
  | .i64 => (getFixed s tag .i64).map (intOf .i64)
  | _ => .error .typeMismatch

/-- getter.h:401-414 `get_unsigned`. -/
def getUnsigned (s : RW) (tag : Nat) : Except Exc Int :=
  match tag2genus tag with
  | .u8 => (getFixed s tag .u8).map (intOf .u8)
  | .u16 => (getFixed s tag .u16).map (intOf .u16)
  | .u32 => (getFixed s tag .u32).map (intOf .u32)
  | .u64 => (getFixed s tag .u64).map (intOf .u64)
  | _ => .error .typeMismatch

/-- getter.h:416-421 `get_int128`. -/
def getInt128 (s : RW) (tag : Nat) : Except Exc Int :=
  if tag2genus tag = .bin128 then (getFixed s tag .bin128).map fun b => signExtend 128 (leNat b) else getInteger s tag

/-- getter.h:422-428 `get_uint128`. -/
def getUint128 (s : RW) (tag : Nat) : Except Exc Int :=
  if tag2genus tag = .bin128 then (getFixed s tag .bin128).map fun b => (leNat b : Int) else getUnsigned s tag

/-- `static_cast<double>(value)` of an integer, as the value of the result. -/
def doubleOfInt (n : Int) : Option Rat := ieeeValue 52 11 (ieeeOfInt 52 1023 64 n)

/-- getter.h:354-384 `get_number_as_ieee754double`. -/
def getNumber (s : RW) (tag : Nat) : Except Exc (Option Rat) :=
  match tag2genus tag with
  | .f32 => (getFixed s tag .f32).map fun b => ieeeValue 23 8 (leNat b)
  | .f64 => (getFixed s tag .f64).map fun b => ieeeValue 52 11 (leNat b)
  | .i8 => (getFixed s tag .i8).map fun b => doubleOfInt (intOf .i8 b)
  | .i16 => (getFixed s tag .i16).map fun b => doubleOfInt (intOf .i16 b)
  | .i32 => (getFixed s tag .i32).map fun b => doubleOfInt (intOf .i32 b)
  | .i64 => (getFixed s tag .i64).bind fun b =>
      if intOf .i64 b < -safe64 ∨ intOf .i64 b > safe64 then .error .valueRange else .ok (doubleOfInt (intOf .i64 b))
  | .u8 => (getFixed s tag .u8).map fun b => doubleOfInt (intOf .u8 b)
  | .u16 => (getFixed s tag .u16).map fun b => doubleOfInt (intOf .u16 b)
  | .u32 => (getFixed s tag .u32).map fun b => doubleOfInt (intOf .u32 b)
  | .u64 => (getFixed s tag .u64).bind fun b =>
      if intOf .u64 b > safe64 then .error .valueRange else .ok (doubleOfInt (intOf .u64 b))
  | _ => .error .typeMismatch

/-! ## Tables of the types -/

/-- `meta::physique_kind` (meta.h:48, members `physique` of 50-622). -/
inductive Physique where | inplaced | fixed | stretchy
  deriving DecidableEq

/-- The template from which `genus_traits<G>` is derived (meta.h:288-619): size of the C++ object in units (0: in place). -/
def physique : Genus → Physique
  | .text | .varbin | .nested | .property => .stretchy
  | .i8 | .u8 | .i16 | .u16 => .inplaced
  | _ => .fixed

/-- essentials.h:375-389 masks of genera. -/
def mask (gs : List Genus) : Nat := gs.foldl (fun m g => m ||| 2 ^ g.code) 0
def maskInteger : Nat := mask [.i8, .u8, .i16, .u16, .i32, .u32, .i64, .u64]
def maskFloat : Nat := mask [.f32, .f64, .d64]
def maskSigned : Nat := mask [.i8, .i16, .i32, .i64] ||| maskFloat
def maskUnsigned : Nat := maskInteger &&& (2 ^ 32 - 1 - maskSigned)
def maskNumber : Nat := maskInteger ||| maskFloat

/-- `genus_traits<G>::trivially_convertible_from` (meta.h:290-619); the members which refer to each other first. -/
def fromI8 : Nat := mask [.i8]
def fromU8 : Nat := mask [.i8]
def fromI16 : Nat := mask [.i16] ||| fromI8 ||| fromU8
def fromU16 : Nat := mask [.u16] ||| fromU8
def fromI32 : Nat := mask [.i32] ||| fromI16 ||| fromU16
def fromU32 : Nat := mask [.u32] ||| fromU16
def fromF32 : Nat := mask [.f32] ||| fromI16 ||| fromU16
def convertibleFrom : Genus → Nat
  | .i8 => fromI8
  | .u8 => fromU8
  | .i16 => fromI16
  | .u16 => fromU16
  | .i32 => fromI32
  | .u32 => fromU32
  | .f32 => fromF32
  | .t32 => mask [.t32, .t64]
  | .i64 => mask [.i64] ||| fromI32 ||| fromU32
  | .u64 => mask [.u64] ||| fromU32
  | .f64 => mask [.i32, .u32, .f64] ||| fromF32
  | .t64 => mask [.t32, .t64]
  | .ipnet => mask [.ip, .ipnet]
  | g => mask [g]

/-- tablets.cxx:46-162: the arrays indexed by genus. -/
def looseUnitsArray : List Nat := ((List.range 31).map fun n => (Genus.ofCode n).looseUnits) ++ [0]
def preplacedBytesArray : List Nat := ((List.range 31).map fun n => (Genus.ofCode n).preplacedBytes) ++ [0]
def convertibleArray : List Nat := ((List.range 31).map fun n => convertibleFrom (Genus.ofCode n)) ++ [mask [.hole]]

/-- meta.h:639-642 `is_trivially_convertible_dynamic(from, to)`. -/
def isConvertible (src dst : Genus) : Bool := (convertibleArray.getD dst.code 0).testBit src.code

end Fptu.Num
