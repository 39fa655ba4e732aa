import Verif.Model.Datetime
import Verif.Model.Real
/-!
# datetime_t as a floating-point number

Model of `datetime_t::seconds()` and `fractional_seconds()` (`fast_positive/tuples/types/datetime.h`). A `double` is its bit pattern
(IEEE 754 binary64); conversion of an integer, `std::ldexp` and addition round to nearest, ties to even, as the standard requires
in the default rounding mode. All operands are non-negative and finite here, so signs, infinities and NaN are left out.
-/
namespace Fptu.Datetime
open Fptu.Real

/-- A non-negative finite `double` as an integer times a power of two. -/
def parts (x : Nat) : Nat × Int :=
  if x / 2 ^ 52 % 2 ^ 11 = 0 then (x % 2 ^ 52, -1074) else (2 ^ 52 + x % 2 ^ 52, ((x / 2 ^ 52 % 2 ^ 11 : Nat) : Int) - 1075)

/-- The `double` nearest to `m * 2 ^ e`. -/
def toDouble (m : Nat) (e : Int) : Nat := roundBits 52 (-1074) m e

/-- `std::ldexp(x, k)` (a non-negative finite `x`). -/
def ldexp (x : Nat) (k : Int) : Nat := toDouble (parts x).1 ((parts x).2 + k)

/-- `x + y` of non-negative finite `double`s. -/
def addDouble (x y : Nat) : Nat :=
  let e := min (parts x).2 (parts y).2
  toDouble ((parts x).1 * 2 ^ ((parts x).2 - e).toNat + (parts y).1 * 2 ^ ((parts y).2 - e).toNat) e

/-- datetime.h:163-165 `fractional_seconds`: the 32-bit fraction is converted to `double` for `std::ldexp`. -/
def fractionalSeconds (d : Nat) : Nat := ldexp (toDouble (fractional d) 0) (-32)

/-- datetime.h:166 `seconds`: the 32-bit seconds are converted to `double` for the addition. -/
def seconds (d : Nat) : Nat := addDouble (fractionalSeconds d) (toDouble (utcSeconds d) 0)

end Fptu.Datetime
