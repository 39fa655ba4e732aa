import Verif.Model.Datetime
/-!
# Text of moments, names of types and of comparison results

Model of `std::to_string` of datetimes, comparison results (`src/debug.cxx`) and types (`src/misc.cxx`). A character is its byte value. The functions of the C library are modelled by what
the C and POSIX standards say about them: `snprintf` for the formats used here (rounding to nearest,
ties to even, as the default rounding mode asks) and `gmtime_r` (the Gregorian calendar without leap
seconds, `time_t` wide enough for 2^32).
-/
namespace Fptu.Print

/-- The `w` lowest decimal digits of `n`, the highest first (part of the model of `snprintf`). -/
def digits : Nat → Nat → List Nat
  | 0, _ => []
  | w + 1, n => digits w (n / 10) ++ [48 + n % 10]

/-- How many decimal digits `n` has (part of the model of `snprintf`); the first argument bounds the
recursion. -/
def decLen : Nat → Nat → Nat
  | 0, _ => 1
  | f + 1, n => if n < 10 then 1 else decLen f (n / 10) + 1

/-- `snprintf("%0<w>d", n)` for a value that is not negative: at least `w` digits (debug.cxx:330). -/
def padDec (w n : Nat) : List Nat := digits (max w (decLen n n)) n

/-- What `snprintf(buffer, cap, ..)` leaves in the buffer, without the final zero (debug.cxx:314, 330). -/
def snprintf (cap : Nat) (text : List Nat) : List Nat := text.take (cap - 1)

/-- Nearest integer to `num / den`, ties to even: the rounding of the last digit by `snprintf("%.9f")`. -/
def roundEven (num den : Nat) : Nat :=
  let q := num / den
  let r := num % den
  if 2 * r < den then q else if 2 * r > den then q + 1 else q + q % 2

/-- debug.cxx:314, datetime.h:163-165: `"%.9f"` of `fractional * 2^-32`, a value below one that a double
holds exactly. -/
def fracText (fractional : Nat) : List Nat :=
  let n := roundEven (fractional * 1000000000) (2 ^ 32)
  snprintf 16 (padDec 1 (n / 1000000000) ++ [46] ++ digits 9 (n % 1000000000))

/-- The fields of `struct tm` that debug.cxx:330-332 prints. -/
structure Tm where
  year : Nat
  mon : Nat
  mday : Nat
  hour : Nat
  min : Nat
  sec : Nat
deriving DecidableEq, Repr

/-- The Gregorian rule (part of the model of `gmtime_r`). -/
def leap (y : Nat) : Bool := y % 4 == 0 && (y % 100 != 0 || y % 400 == 0)

/-- Days in year `y` (part of the model of `gmtime_r`). -/
def yearLen (y : Nat) : Nat := if leap y then 366 else 365

/-- Days in month `m` (0 is January) of year `y` (part of the model of `gmtime_r`). -/
def monthLen (y m : Nat) : Nat :=
  if m = 1 then (if leap y then 29 else 28)
  else if m = 3 ∨ m = 5 ∨ m = 8 ∨ m = 10 then 30 else 31

/-- Year and day of the year of the day `d` counted from the first of January of year `y` (part of the
model of `gmtime_r`). -/
def walkYears : Nat → Nat → Nat → Nat × Nat
  | 0, y, d => (y, d)
  | f + 1, y, d => if d < yearLen y then (y, d) else walkYears f (y + 1) (d - yearLen y)

/-- Month and day of the month, both from 0, of the day `d` counted from the start of month `m` of year
`y` (part of the model of `gmtime_r`). -/
def walkMonths : Nat → Nat → Nat → Nat → Nat × Nat
  | 0, _, m, d => (m, d)
  | f + 1, y, m, d => if d < monthLen y m then (m, d) else walkMonths f y (m + 1) (d - monthLen y m)

/-- `gmtime_r` for seconds since the first of January 1970 (debug.cxx:326). -/
def gmtime (t : Nat) : Tm :=
  let days := t / 86400
  let s := t % 86400
  let (y, d) := walkYears days 1970 days
  let (m, d) := walkMonths 11 y 0 d
  ⟨y - 1900, m, d + 1, s / 3600, s % 3600 / 60, s % 60⟩

/-- debug.cxx:311-339 `to_string(const fptu_datetime_t &)` of the moment with the 32.32 fixed point
value `t`. The leading character of the fraction, `0` or `1`, is carried into the seconds. -/
def dateText (t : Nat) : List Nat :=
  let fractional := fracText (Datetime.fractional t)
  let utc := Datetime.utcSeconds t + fractional.headD 0 - 48
  let tm := gmtime utc
  snprintf 64 (padDec 4 (tm.year + 1900) ++ [45] ++ padDec 2 (tm.mon + 1) ++ [45] ++ padDec 2 tm.mday ++
      [90] ++ padDec 2 tm.hour ++ [58] ++ padDec 2 tm.min ++ [58] ++ padDec 2 tm.sec)
    ++ fractional.drop 1

/-- misc.cxx:211-245 `to_string(const fptu::genus)`. -/
def typeName (g : Nat) : Option String :=
  ["text", "varbin", "nested", "property", "i8", "u8", "i16", "u16", "i32", "u32", "f32", "t32", "i64", "u64",
    "f64", "d64", "t64", "bin96", "bin128", "bin160", "bin192", "bin224", "bin256", "bin320", "bin384", "bin512",
    "app_reserved_64", "app_reserved_128", "mac", "ip", "ipnet", "hole"][g]?

/-- debug.cxx:290-309 `to_string(const fptu_lge)` (`fptu_lge` values from legacy.h:718-726). -/
def lgeName (v : Nat) : String :=
  if v = 1 then "><" else if v = 2 then "==" else if v = 4 then "<" else if v = 8 then ">"
  else if v = 13 then "!=" else if v = 6 then "<=" else if v = 10 then ">="
  else "invalid(fptu_lge)" ++ toString v

end Fptu.Print
