/-!
# datetime_t

Model of `fast_positive/tuples/types/datetime.h` and of the rounding in `src/time.cxx` `fptu_now`.
A datetime is its 64-bit fixed point 32.32 value (`fptu_datetime_C::fixedpoint`, a union whose high
half is `utc` and whose low half is `fractional`, datetime.h:30-60).
-/
namespace Fptu.Datetime

/-- datetime.h:108-111. -/
def nsPerSecond : Nat := 1000000000
def usPerSecond : Nat := 1000000
def msPerSecond : Nat := 1000
def ns100PerSecond : Nat := nsPerSecond / 100

/-- datetime.h:115-119 (argument and result are `uint_fast32_t`, 64-bit on LP64; with a value below
2^32 the shift does not overflow). -/
def units2fractional (value factor : Nat) : Nat := ((value <<< 32) % 2 ^ 64) / factor

/-- datetime.h:121-124. -/
def scaleIn (value factor : Nat) : Nat :=
  (((value / factor) <<< 32) % 2 ^ 64) ||| units2fractional (value % factor) factor

/-- datetime.h:126-130. -/
def fractional2units (value factor : Nat) : Nat := ((value * factor) % 2 ^ 64) >>> 32

/-- datetime.h:167-168 accessors of the union. -/
def utcSeconds (d : Nat) : Nat := d / 2 ^ 32
def fractional (d : Nat) : Nat := d % 2 ^ 32

/-- datetime.h:198-200 `from_seconds`. -/
def fromSeconds (utc : Nat) : Nat := (utc <<< 32) % 2 ^ 64
/-- datetime.h:202-216 `from_milliseconds`, `from_usec`, `from_nsec`, `from_100ns`. -/
def fromMilliseconds (v : Nat) : Nat := scaleIn v msPerSecond
def fromUsec (v : Nat) : Nat := scaleIn v usPerSecond
def fromNsec (v : Nat) : Nat := scaleIn v nsPerSecond
def from100ns (v : Nat) : Nat := scaleIn v ns100PerSecond

/-- datetime.h:219-222 constructor from `timespec` (`tv_sec` in the 32-bit range, `tv_nsec` below one
second). -/
def fromTimespec (sec nsec : Nat) : Nat :=
  ((sec <<< 32) % 2 ^ 64) ||| units2fractional nsec nsPerSecond

/-- datetime.h:254-271 comparison operators. -/
def eq (a b : Nat) : Bool := a == b
def lt (a b : Nat) : Bool := decide (a < b)
def gt (a b : Nat) : Bool := lt b a
def le (a b : Nat) : Bool := !gt a b
def ge (a b : Nat) : Bool := !lt a b

/-- time.cxx:99-109 and 130: the mask applied to the fraction by `fptu_now` (LP64: `uint_fast32_t` has 64 bits,
the final `&=` stores 32 bits). -/
def nowMask (grain : Int) : Nat :=
  if grain < 0 then (if grain > -32 then (0xffffFFFF <<< (-grain).toNat) % 2 ^ 64 else 0) else 0xffffFFFF

/-- time.cxx:58-70: `coarse_resolution_ns` from the answer of `clock_getres`: seconds and nanoseconds, or nothing if it fails. -/
def coarseResolution (answer : Option (Nat × Nat)) : Nat :=
  match answer with
  | some (sec, nsec) => if sec = 0 then nsec else 0xffffFFFF
  | none => 0xffffFFFF

/-- time.cxx:101-109: `grain` (LP64: `uint_fast32_t` has 64 bits). -/
def nowGrain (grain : Int) : Nat :=
  if grain < 0 then (if grain > -32 then 1 <<< (-grain).toNat else 2 ^ 64 - 1) else (grain % 2 ^ 32).toNat

/-- time.cxx:127-128: whether `fptu_now` reads the coarse clock. -/
def nowCoarse (grain : Int) (resolution : Nat) : Bool := decide (nowGrain grain ≥ resolution)

/-- time.cxx:128-131: `fptu_now` applied to the clock reading `raw`. -/
def nowRounded (grain : Int) (raw : Nat) : Nat :=
  utcSeconds raw * 2 ^ 32 + (fractional raw &&& nowMask grain) % 2 ^ 32

end Fptu.Datetime
