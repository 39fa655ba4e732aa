import Mathlib.Data.Nat.Bitwise
/-!
# Small helpers: tests of all bytes of an object, powers of two, rounding, hexadecimal text, network addresses

Model of `fast_positive/tuples/details/utils.h`, of `hexadecimal` (`src/misc.cxx`), and of the types of network addresses and their
storage (`types/ip_address.h`, `details/meta.h` `unit_n`). The machine is little-endian with 64-bit `intptr_t`; an object is the list
of its bytes, an `intptr_t` its two's complement, a number below 2^64.
-/
namespace Fptu.Utils

/-- Byte `i` of the object; reading beyond its end is not an issue for the sizes used (`C60_*` theorems ask for enough bytes). -/
def byte (p : List Nat) (i : Nat) : Nat := p.getD i 0

/-- Sign extension of a `bits`-bit pattern to `intptr_t` (the implicit conversion of `int8_t`, `int16_t`, `int32_t`). -/
def extend (bits v : Nat) : Nat := if v < 2 ^ (bits - 1) then v else v + (2 ^ 64 - 2 ^ bits)

/-- `*static_cast<const int8_t *>(ptr + i)` and so on. -/
def load8 (p : List Nat) (i : Nat) : Nat := extend 8 (byte p i)
def load16 (p : List Nat) (i : Nat) : Nat := extend 16 (byte p i + 256 * byte p (i + 1))
def load32 (p : List Nat) (i : Nat) : Nat :=
  extend 32 (byte p i + 256 * byte p (i + 1) + 65536 * byte p (i + 2) + 16777216 * byte p (i + 3))
def load64 (p : List Nat) (i : Nat) : Nat :=
  (byte p i + 256 * byte p (i + 1) + 65536 * byte p (i + 2) + 16777216 * byte p (i + 3)) +
    4294967296 * (byte p (i + 4) + 256 * byte p (i + 5) + 65536 * byte p (i + 6) + 16777216 * byte p (i + 7))

/-- utils.h:78-122 (`op` is `|`) and 129-173 (`op` is `&`): `bytes_disjunction<bytes>`, `bytes_conjunction<bytes>`.
No specialization for 0 bytes: a compile-time error (`none`). -/
def fold (op : Nat → Nat → Nat) : Nat → List Nat → Option Nat
  | 0, _ => none
  | 1, p => some (load8 p 0)
  | 2, p => some (load16 p 0)
  | 3, p => some (op (load16 p 0) (load8 p 2))
  | 4, p => some (load32 p 0)
  | 5, p => some (op (load32 p 0) (load8 p 4))
  | 6, p => some (op (load32 p 0) (load16 p 4))
  | 7, p => some (op (op (load32 p 0) (load16 p 4)) (load8 p 6))
  | 8, p => some (load64 p 0)
  | n + 9, p => (fold op (n + 1) (p.drop 8)).map (op (load64 p 0))

/-- utils.h:177-179. -/
def isZero (n : Nat) (p : List Nat) : Option Bool := (fold (· ||| ·) n p).map (· == 0)
/-- utils.h:181-183. -/
def isAllOnes (n : Nat) (p : List Nat) : Option Bool := (fold (· &&& ·) n p).map (· == 2 ^ 64 - 1)

/-- utils.h:187-190 for `size_t`. -/
def isPower2 (v : Nat) : Bool := v &&& ((v + (2 ^ 64 - 1)) % 2 ^ 64) == 0 && decide (0 < v)

/-- `~(align - 1)` of an `intptr_t`, as a 64-bit pattern (utils.h:201, 207); `align > 0`. -/
def mask (align : Nat) : Nat := (2 ^ 64 - 1) ^^^ (align - 1)

/-- utils.h:198-202. -/
def floor (value align : Nat) : Nat := value &&& mask align
/-- utils.h:204-208 for `size_t`, wrapping around. -/
def ceil (value align : Nat) : Nat := ((value + align - 1) % 2 ^ 64) &&& mask align

/-- misc.cxx:84-87: one hexadecimal digit. -/
def hexDigit (d : Nat) : Nat := if d < 10 then d + 48 else d - 10 + 97
/-- misc.cxx:77-92 `hexadecimal`: the characters of the text. -/
def hexadecimal (data : List Nat) : List Nat := data.flatMap fun b => [hexDigit (b >>> 4), hexDigit (b &&& 15)]

/-! ## Network addresses -/

/-- ip_address.h:30-31 constructor from an IPv4 address in network byte order: the words of the address. The second word of the mapped
prefix is `h2be(0xffff)`, that is `bswap32(0xffff)`. -/
def ipWords (ipv4be : Nat) : List Nat := [0, 0, if ipv4be ≠ 0 then 0xffff0000 else 0, ipv4be]
/-- Bytes of a 32-bit word. -/
def wordBytes (w : Nat) : List Nat := [w % 256, w / 256 % 256, w / 65536 % 256, w / 16777216 % 256]
/-- The 16 bytes of `ip_address_t(ipv4_be)`. -/
def ipBytes (ipv4be : Nat) : List Nat := (ipWords ipv4be).flatMap wordBytes
/-- ip_address.h:42-43: the 17 bytes of `ip_net_t(ipv4_be)`. -/
def ipNetBytes (ipv4be : Nat) : List Nat := ipBytes ipv4be ++ [if ipv4be ≠ 0 then 128 else 0]

/-- meta.h:241-248, 257-276 `unit_n<N, TYPE>::write`: the `4 * N` bytes of the field. `around` is what follows the argument in memory:
`memcpy` takes `4 * N` bytes starting at the argument, then the excess is zeroed. -/
def unitWrite (n : Nat) (value around : List Nat) : List Nat :=
  let copied := (value ++ around).take (4 * n)
  if 4 * n ≠ value.length then copied.take value.length ++ List.replicate (4 * n - value.length) 0 else copied
/-- Number of bytes that this `memcpy` reads beyond the end of the argument. -/
def unitOverread (n : Nat) (value : List Nat) : Nat := 4 * n - value.length
/-- meta.h:219-227 `read`: the object of `size` bytes at the field. -/
def unitRead (size : Nat) (field : List Nat) : List Nat := field.take size

end Fptu.Utils
