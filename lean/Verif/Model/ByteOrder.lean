import Mathlib.Logic.Function.Basic
/-!
# Byte order conversions

Model of `erthink_bswap.h` (the portable branches; the others are compiler built-ins) and of `erthink_endian.h`.
-/
namespace Fptu.ByteOrder

/-- erthink_bswap.h:50-56. -/
def bswap64 (v : BitVec 64) : BitVec 64 :=
  v <<< 56 ||| v >>> 56 ||| ((v <<< 40) &&& 0x00ff000000000000) ||| ((v <<< 24) &&& 0x0000ff0000000000) |||
    ((v <<< 8) &&& 0x000000ff00000000) ||| ((v >>> 8) &&& 0x00000000ff000000) ||| ((v >>> 24) &&& 0x0000000000ff0000) |||
    ((v >>> 40) &&& 0x000000000000ff00)

/-- erthink_bswap.h:70-71. -/
def bswap32 (v : BitVec 32) : BitVec 32 :=
  v <<< 24 ||| v >>> 24 ||| ((v <<< 8) &&& 0x00ff0000) ||| ((v >>> 8) &&& 0x0000ff00)

/-- erthink_bswap.h:85: computed in `int`, of 32 bits, and truncated. The text says `return return`; taken as one `return`. -/
def bswap16 (v : BitVec 16) : BitVec 16 :=
  let w := v.setWidth 32
  (w <<< 8 ||| w >>> 8).setWidth 16

/-- The order in which a machine keeps the bytes of a number. -/
inductive Endian | little | big
  deriving DecidableEq

/-- erthink_endian.h:74: the branch the preprocessor takes: `true` for the one of little-endian machines. `none`: the macro is not defined, and the
preprocessor takes 0 for it. -/
def littleBranch (byteOrder littleEndian : Option Nat) : Bool := byteOrder.getD 0 = littleEndian.getD 0

/-- erthink_endian.h:76-106, 125-147: `htobe16`, `be16toh` and so on; `swap` is the `bswap` of the width. -/
def beConv {w : Nat} (branch : Bool) (swap : BitVec w → BitVec w) (v : BitVec w) : BitVec w := if branch then swap v else v

/-- erthink_endian.h:76-106, 125-147: `htole16`, `le16toh` and so on. -/
def leConv {w : Nat} (branch : Bool) (swap : BitVec w → BitVec w) (v : BitVec w) : BitVec w := if branch then v else swap v

/-- ip_address.h:32-33: the four words of an IPv6 address that holds the IPv4 address `v4`, whose bytes are in the order of the network. -/
def mapped (branch : Bool) (v4 : BitVec 32) : List (BitVec 32) := [0, 0, if v4 ≠ 0 then beConv branch bswap32 0xffff else 0, v4]

end Fptu.ByteOrder
