import Verif.Model.Numeric
import Verif.Model.Datetime
/-!
# Real numbers, dates and booleans in fields

Model of `set_float`, `set_number(float)`, `set_number(double)`, `set_datetime`, `set_bool`, `set_enum` of `accessor_rw`
(`fast_positive/tuples/details/rw.h`), of `insert_float`, `insert_datetime`, `insert_bool` (`src/rw.cxx`) and of `get_float`,
`get_datetime`, `get_bool`, `get_enum` (`details/getter.h`).

A `float` or `double` is its bit pattern (IEEE 754 binary32, binary64). The conversions between them are those of IEEE 754 in
the default rounding mode (to nearest, ties to even); the standard leaves the payload of a NaN open, the model keeps its leading bits
and makes it quiet, as x86-64 does.
-/
namespace Fptu.Real
open Fptu.Gear Fptu.Rw Fptu.Num

/-- `m / d` rounded to the nearest integer, ties to the even one. -/
def roundHalfEven (m d : Nat) : Nat :=
  if 2 * (m % d) < d ∨ (2 * (m % d) = d ∧ m / d % 2 = 0) then m / d else m / d + 1

/-- Biased exponent and fraction of the floating-point number nearest to `m * 2 ^ e`; `p` is the number of fraction bits,
`2 ^ tmin` the least positive number of the format. -/
def roundBits (p : Nat) (tmin : Int) (m : Nat) (e : Int) : Nat :=
  if m = 0 then 0
  else
    let t := max tmin (e + Nat.log2 m - p)
    (t - tmin).toNat * 2 ^ p + (if t ≤ e then m * 2 ^ (e - t).toNat else roundHalfEven m (2 ^ (t - e).toNat))

/-- `static_cast<float>(double)`. -/
def f64to32 (x : Nat) : Nat :=
  let sign : Nat := x / 2 ^ 63 % 2 * 2 ^ 31
  let expo : Nat := x / 2 ^ 52 % 2 ^ 11
  let frac : Nat := x % 2 ^ 52
  if expo = 2047 then sign + (255 * 2 ^ 23 + (if frac = 0 then 0 else 2 ^ 22 + frac / 2 ^ 29 % 2 ^ 22))
  else if expo = 0 then sign + min (roundBits 23 (-149) frac (-1074)) (255 * 2 ^ 23)
  else sign + min (roundBits 23 (-149) (2 ^ 52 + frac) ((expo : Int) - 1075)) (255 * 2 ^ 23)

/-- `static_cast<double>(float)`. -/
def f32to64 (x : Nat) : Nat :=
  let sign : Nat := x / 2 ^ 31 % 2 * 2 ^ 63
  let expo : Nat := x / 2 ^ 23 % 2 ^ 8
  let frac : Nat := x % 2 ^ 23
  if expo = 255 then sign + (2047 * 2 ^ 52 + (if frac = 0 then 0 else 2 ^ 51 + frac % 2 ^ 22 * 2 ^ 29))
  else if expo = 0 then sign + roundBits 52 (-1074) frac (-149)
  else sign + roundBits 52 (-1074) (2 ^ 23 + frac) ((expo : Int) - 150)

/-- The number which a bit pattern with `p` fraction bits and `E` exponent bits stands for. -/
def fltOf (p E x : Nat) : Flt :=
  match ieeeValue p E x with
  | some q => .fin q
  | none => if x % 2 ^ p = 0 then .inf (decide (x / 2 ^ (p + E) % 2 = 1)) else .nan

/-- `std::numeric_limits<float>::max()`. -/
def fltMax : Rat := (2 ^ 24 - 1) * 2 ^ 104

/-- `!std::isinf(value) && (value > std::numeric_limits<float>::max() || value < std::numeric_limits<float>::lowest())`. -/
def beyondFloat (value : Flt) : Bool :=
  match value with
  | .inf _ => false
  | value => value.gt fltMax || value.lt (-fltMax)

/-- rw.h:465-474 `set_float(double)`, rw.cxx:250-261 `insert_float`: the genus of the setter which is called, and its argument. -/
def floatArg (g : Genus) (x : Nat) : Except Exc (Genus × Val) :=
  if g = .f32 then
    if beyondFloat (fltOf 52 11 x) then .error .valueRange else .ok (.f32, bitsVal .f32 (f64to32 x))
  else .ok (.f64, bitsVal .f64 x)

/-- The genera of `base::is_float()` (token.h:170-172, essentials.h:381-382): `mask_float`. -/
def isFloatMask (g : Genus) : Bool := decide (maskFloat / 2 ^ g.code % 2 = 1)

/-- rw.h:711-720 `set_number(float)`, rw.cxx:511-522, for fields that are not integers. -/
def numberArgF32 (g : Genus) (x : Nat) : Except Exc (Genus × Val) :=
  match fltOf 23 8 x, isFloatMask g with
  | .nan, false => .error .valueRange
  | _, _ =>
    match g with
    | .f32 => .ok (.f32, bitsVal .f32 x)
    | .f64 => .ok (.f64, bitsVal .f64 (f32to64 x))
    | _ => .error .typeMismatch

/-- rw.h:759-772 `set_number(double)`, rw.cxx:559-573, for fields that are not integers. -/
def numberArgF64 (g : Genus) (x : Nat) : Except Exc (Genus × Val) :=
  match fltOf 52 11 x, isFloatMask g with
  | .nan, false => .error .valueRange
  | _, _ =>
    match g with
    | .f32 => if beyondFloat (fltOf 52 11 x) then .error .valueRange else .ok (.f32, bitsVal .f32 (f64to32 x))
    | .f64 => .ok (.f64, bitsVal .f64 x)
    | _ => .error .typeMismatch

/-- rw.h:444-448 `set_datetime`. -/
def datetimeArg (g : Genus) (d : Nat) : Except Exc (Genus × Val) :=
  if g = .t32 then .ok (.t32, bitsVal .t32 (Datetime.utcSeconds d)) else .ok (.t64, bitsVal .t64 d)

/-- rw.cxx:231 `insert_datetime`: the type of the field does not matter. -/
def datetimeInsertArg (_ : Genus) (d : Nat) : Except Exc (Genus × Val) := .ok (.t64, bitsVal .t64 d)

/-- rw.h:429 `set_bool`; essentials.h:105: the genus is `i8`. -/
def boolArg (_ : Genus) (b : Bool) : Except Exc (Genus × Val) := .ok (.i8, bitsVal .i8 (if b then 1 else 0))

/-- rw.h:430 `set_enum`; essentials.h:110: the genus is `i16`. -/
def enumArg (_ : Genus) (n : Int) : Except Exc (Genus × Val) := .ok (.i16, intVal .i16 n)

/-- `tuple_rw::set_*(token, value)` (rw.cxx:139-187): `at` refuses collections, then the accessor calls the setter of a genus. -/
def setBy (F : Fix) (s : RW) (tag : Nat) (arg : Genus → Except Exc (Genus × Val)) : Out Unit :=
  if isLooseCollection tag then .exc .collectionUnallowed s
  else match arg (tag2genus tag) with
    | .error e => .exc e s
    | .ok (g, v) => setField F s tag g v

/-- `set_number(float)` (`double = false`) and `set_number(double)` of a field of any type; `x` is the bit pattern of the argument. -/
def setNumber (F : Fix) (s : RW) (tag : Nat) (double : Bool) (x : Nat) : Out Unit :=
  if signedInt (tag2genus tag) || unsignedInt (tag2genus tag) then
    setReal F s tag double (if double then fltOf 52 11 x else fltOf 23 8 x)
  else setBy F s tag fun g => if double then numberArgF64 g x else numberArgF32 g x

/-- `tuple_rw::insert_*(token, value)` (rw.cxx:205-261). -/
def insertBy (F : Fix) (s : RW) (tag : Nat) (arg : Genus → Except Exc (Genus × Val)) : Out (Option Nat) :=
  match arg (tag2genus tag) with
  | .error e => .exc e s
  | .ok (g, v) => insertField F s tag g v

/-- getter.h:350-352 `get_float`: the bit pattern of the `double`. -/
def getFloat (s : RW) (tag : Nat) : Except Exc Nat :=
  if tag2genus tag = .f32 then (getFixed s tag .f32).map fun b => f32to64 (leNat b) else (getFixed s tag .f64).map leNat

/-- getter.h:298-301 `get_datetime`. -/
def getDatetime (s : RW) (tag : Nat) : Except Exc Nat :=
  if tag2genus tag = .t32 then (getFixed s tag .t32).map fun b => Datetime.fromSeconds (leNat b) else (getFixed s tag .t64).map leNat

/-- getter.h:285 `get_bool`. -/
def getBool (s : RW) (tag : Nat) : Except Exc Bool := (getFixed s tag .i8).map fun b => decide (intOf .i8 b ≠ 0)

/-- getter.h:286 `get_enum`. -/
def getEnum (s : RW) (tag : Nat) : Except Exc Int := (getFixed s tag .i16).map (intOf .i16)

end Fptu.Real
