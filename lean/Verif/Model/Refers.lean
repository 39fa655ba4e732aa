import Verif.Model.Numeric
/-!
# The memory which getters read and refer to

`getFixed` (Model/Numeric) gives the bytes of a fixed-size value. The code gets them by casting the address of the field to the
address of an object of the C++ type of the field: values of up to 8 bytes are then copied, for longer ones the getters return a
reference to that object (meta.h:50-283). Here: the address, size and alignment of the object, and which getters return references.
Addresses are byte addresses relative to the first unit of the tuple's buffer (`area_`); sizes and alignments are those of
x86-64 (System V ABI).
-/
namespace Fptu.Refers
open Fptu Fptu.Gear Fptu.Rw

/-- What a getter of a fixed-size type reads or refers to. -/
inductive Place
  /-- an object at a byte address within the tuple -/
  | tuple (at_ : Nat)
  /-- an object at the beginning of `zeroed_cacheline` (tablets.cxx:29: 64 zeros, aligned to 64) -/
  | zeros
  /-- no memory: a value made on the spot (`return_type(0)`, meta.h:75-77, 127-129, 178-180, 413-415) -/
  | made
deriving DecidableEq, Repr

/-- `sizeof(zeroed_cacheline)` (meta.h:40, tablets.cxx:29). -/
def zeroedSize : Nat := 64

/-- `return_type` of the traits is a reference: `unit_n` (meta.h:207-209; the genera 423-466, 592-600, 618). -/
def byRef (g : Genus) : Bool := decide (2 < g.looseUnits)

/-- `sizeof(value_type)`: meta.h:50-53, 109-112, 160-163, 207-211; `ip_net_t` is packed and has 17 bytes (ip_address.h:37-47). -/
def cxxSize : Genus → Nat
  | .ipnet => 17
  | g => g.preplacedBytes

/-- `alignof(value_type)`: the fixed binaries and `ip_net_t` are packed (fixed_binary.h:24-89, ip_address.h:37-47), `ip_address_t`
and `mac_address_t` are not and have 64-bit members (ip_address.h:25-35, mac_address.h:23-26), `app_reserved_128` is an array of
`uint32_t` (meta.h:207, 618). -/
def cxxAlign : Genus → Nat
  | .i16 | .u16 => 2
  | .i32 | .u32 | .f32 | .t32 | .app128 => 4
  | .i64 | .u64 | .f64 | .d64 | .t64 | .app64 | .mac | .ip => 8
  | _ => 1

/-- The place of the object `get<g>()` reads or refers to: getter.h:123-152 for a token of either placement, `read` and `empty` of the
traits (meta.h:62-77, 117-129, 168-180, 218-231), after `at` (getter.h:565-587). -/
def referred (s : RW) (tag : Nat) (g : Genus) : Except Exc Place :=
  if isPreplaced tag then
    if tag2genus tag ≠ g then .error .typeMismatch
    else if isDiscernible tag ∧ s.mem.readBytes (4 * s.pivot + tag2offset tag) g.preplacedBytes = denilBytes g then .error .fieldAbsent
    else .ok (.tuple (4 * s.pivot + tag2offset tag))
  else if isLooseCollection tag then .error .collectionUnallowed
  else if tag2genus tag ≠ g then .error .typeMismatch
  else match s.lookup (tag2gid tag) with
    | some a => .ok (.tuple (if g.isInplaced then 4 * a else 4 * s.start a))
    | none =>
      if isDiscernible tag then .error .fieldAbsent
      else .ok (if byRef g then .zeros else .made)

/-- The address of the object `get_int128`/`get_uint128` read for a field of 128 bits: the one of `get<bin128>()` cast to `__int128`
(getter.h:416-428, integer128.h:26-27). -/
def referred128 (s : RW) (tag : Nat) : Except Exc Place := referred s tag .bin128

/-- `alignof(__int128)`. -/
def align128 : Nat := 16

/-- An access to an object at this address (the buffer beginning at `base`) is defined only if the address is a multiple of the
alignment of the type; `zeroed_cacheline` is aligned to 64, values made on the spot to whatever they need. -/
def accessOk (base align : Nat) : Place → Bool
  | .tuple p => (base + p) % align == 0
  | .zeros => 64 % align == 0
  | .made => true

/-! ## Return types -/

/-- How a function gives its result: an object of its own, or a reference to an object that exists elsewhere. -/
inductive Ret
  | value | ref
deriving DecidableEq, Repr

/-- A getter: how the results are given by `get<genus>()` it is based on (meta.h), by the accessor (getter.h:278-428), by the
tuple (getter.h:614-651, ro.cxx:209-252, rw.cxx:49-92) and by the handles (tuples.h:247-291, 613-657; `get_nested` is not among
those: `none`). -/
structure Getter where
  name : String
  source : Ret
  accessor : Ret
  tuple : Ret
  handle : Option Ret

/-- Getters all of whose levels return values. -/
def plain (name : String) : Getter := ⟨name, .value, .value, .value, some .value⟩

/-- Getters all of whose levels return references. -/
def refs (name : String) : Getter := ⟨name, .ref, .ref, .ref, some .ref⟩

/-- The getters in the order of getter.h:614-650 with the return types declared there, in getter.h:278-428 and in tuples.h:255-290. -/
def getters : List Getter :=
  [⟨"get_nested", .value, .value, .value, none⟩, plain "get_string", plain "get_varbinary", plain "get_property", plain "get_bool",
   plain "get_enum", plain "get_i8", plain "get_u8", plain "get_i16", plain "get_u16", plain "get_i32", plain "get_u32", plain "get_i64",
   plain "get_u64", plain "get_f32", plain "get_f64", plain "get_decimal", plain "get_datetime", refs "get_uuid",
   ⟨"get_int128", .ref, .value, .value, some .ref⟩, ⟨"get_uint128", .ref, .value, .value, some .ref⟩,
   refs "get_bin96", refs "get_bin128", refs "get_bin160", refs "get_bin192", refs "get_bin224", refs "get_bin256", refs "get_bin320",
   refs "get_bin384", refs "get_bin512", refs "get_ip_address", plain "get_mac_address", refs "get_ip_net", plain "get_integer",
   plain "get_unsigned", plain "get_float", plain "get_number_as_ieee754double"]

/-- Where the object is that a call returns, or refers to. -/
inductive Holds
  /-- the caller has a value of its own -/
  | own
  /-- a reference to the field in the tuple (or to the zeros) -/
  | field
  /-- a reference to a temporary of a function that has returned -/
  | dangling
deriving DecidableEq, Repr

/-- `return inner();` in a function which gives its result in the stated way: a reference bound to a value returned by `inner` refers
to a temporary that ends with the return statement. -/
def pass : Ret → Holds → Holds
  | .value, .dangling => .dangling
  | .value, _ => .own
  | .ref, .own => .dangling
  | .ref, h => h

/-- What the caller of the accessor, the tuple and the handle holds. -/
def Getter.source' (g : Getter) : Holds := pass g.source .field
def Getter.viaAccessor (g : Getter) : Holds := pass g.accessor g.source'
def Getter.viaTuple (g : Getter) : Holds := pass g.tuple g.viaAccessor
def Getter.viaHandle (g : Getter) : Option Holds := g.handle.map fun r => pass r g.viaTuple

end Fptu.Refers
