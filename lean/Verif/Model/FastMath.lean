import Verif.Model.Real
/-!
# Numbers in sources compiled with `-ffast-math`

`src/CMakeLists.txt:226-228` compiles the library (not the programs that include its headers) with `-ffast-math` when the compiler has
the option. It implies `-ffinite-math-only`: the compiler assumes that no argument or result is an infinity or a NaN. So
`std::isnan` and `std::isinf` are the constant `false`, and a comparison with a NaN may have either answer, since `a < b` may be compiled
as `!(a >= b)`. Comparisons with infinities are taken to have their usual answer. The other effects of the option (signs of zeros,
order of additions) do not matter for the functions here, which compare and convert only.
-/
namespace Fptu.Real
open Fptu.Gear Fptu.Rw Fptu.Num

/-- How a source is compiled: with `-ffinite-math-only` or not, and, if so, how the comparisons with a NaN come out. -/
structure Math where
  finiteOnly : Bool
  nanLt : Bool
  nanGt : Bool
  nanGe : Bool
  nanLe : Bool

/-- Without the option: IEEE 754. -/
def Math.strict : Math := ⟨false, false, false, false, false⟩

/-- `std::isnan`, `std::isinf`. -/
def Math.isNan (M : Math) (x : Flt) : Bool := !M.finiteOnly && (match x with | .nan => true | _ => false)
def Math.isInf (M : Math) (x : Flt) : Bool := !M.finiteOnly && (match x with | .inf _ => true | _ => false)

/-- `x < q`, `x > q`, `x >= q`, `x <= q`. -/
def Math.lt (M : Math) (x : Flt) (q : Rat) : Bool := match x with | .nan => M.finiteOnly && M.nanLt | x => x.lt q
def Math.gt (M : Math) (x : Flt) (q : Rat) : Bool := match x with | .nan => M.finiteOnly && M.nanGt | x => x.gt q
def Math.ge (M : Math) (x : Flt) (q : Rat) : Bool := match x with | .nan => M.finiteOnly && M.nanGe | x => x.ge q
def Math.le (M : Math) (x : Flt) (q : Rat) : Bool := match x with | .nan => M.finiteOnly && M.nanLe | x => x.le q

/-- rw.h:467-469, 766-768, rw.cxx:253-255, 565-567. -/
def Math.beyondFloat (M : Math) (x : Flt) : Bool := !M.isInf x && (M.gt x fltMax || M.lt x (-fltMax))

/-- rw.h:465-474 `set_float`, rw.cxx:250-261 `insert_float`; `x` is the bit pattern of the `double`. -/
def Math.floatArg (M : Math) (g : Genus) (x : Nat) : Except Exc (Genus × Val) :=
  if g = .f32 then
    if M.beyondFloat (fltOf 52 11 x) then .error .valueRange else .ok (.f32, bitsVal .f32 (f64to32 x))
  else .ok (.f64, bitsVal .f64 x)

/-- rw.h:759-772 `set_number(double)`, rw.cxx:559-573, for fields that are not integers. -/
def Math.numberArgF64 (M : Math) (g : Genus) (x : Nat) : Except Exc (Genus × Val) :=
  if M.isNan (fltOf 52 11 x) && !isFloatMask g then .error .valueRange
  else match g with
    | .f32 => if M.beyondFloat (fltOf 52 11 x) then .error .valueRange else .ok (.f32, bitsVal .f32 (f64to32 x))
    | .f64 => .ok (.f64, bitsVal .f64 x)
    | _ => .error .typeMismatch

/-- `if (value < lo || value > hi) throw_value_range(); return set_<g>(static_cast<TYPE>(value))`. -/
def Math.ranged (M : Math) (g : Genus) (lo hi : Int) (x : Flt) : FltArg :=
  if M.lt x lo || M.gt x hi then .exc .valueRange else realCast g x

/-- `if (!is_safe_roundtrip<g>(value)) throw_value_range(); return set_<g>(static_cast<TYPE>(value))` (rw.h:120-126). -/
def Math.safe (M : Math) (double : Bool) (g : Genus) (x : Flt) : FltArg :=
  if !(M.ge x (roundtripBounds double g).1 && M.le x (roundtripBounds double g).2) then .exc .valueRange else realCast g x

/-- rw.h:711-757 `set_number(float)`, 759-808 `set_number(double)`, rw.cxx:511-605, for integer fields. -/
def Math.numberArgReal (M : Math) (double : Bool) (g : Genus) (x : Flt) : FltArg :=
  if M.isNan x then .exc .valueRange
  else match g with
    | .i8 => M.ranged .i8 (-128) 127 x
    | .i16 => M.ranged .i16 (-32768) 32767 x
    | .i32 => M.safe double .i32 x
    | .i64 => M.safe double .i64 x
    | .u8 => M.ranged .u8 0 255 x
    | .u16 => M.ranged .u16 0 65535 x
    | .u32 => M.safe double .u32 x
    | .u64 => M.safe double .u64 x
    | _ => .exc .typeMismatch

/-- `tuple_rw::set_float(token, double)` (rw.cxx:139-187). -/
def Math.setFloat (M : Math) (F : Fix) (s : RW) (tag x : Nat) : Out Unit := setBy F s tag fun g => M.floatArg g x

/-- `tuple_rw::set_number(token, float)`, `set_number(token, double)` of an integer field. -/
def Math.setReal (M : Math) (F : Fix) (s : RW) (tag : Nat) (double : Bool) (x : Flt) : Out Unit :=
  if isLooseCollection tag then .exc .collectionUnallowed s
  else match M.numberArgReal double (tag2genus tag) x with
    | .exc e => .exc e s
    | .ub => .ub
    | .ok v => setField F s tag (tag2genus tag) v

end Fptu.Real
