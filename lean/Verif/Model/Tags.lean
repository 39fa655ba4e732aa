/-!
# Tags and tokens

Model of `fast_positive/tuples/essentials.h` (constants, tag packing) and of the
constructors and comparisons of `fast_positive/tuples/token.h`.

A `tag_t` is a `uint32_t`; here it is a `Nat`, and the places where the code casts to
`tag_t`/`uint16_t` are written as `% 2^32` / `% 2^16`.
-/
deriving instance DecidableEq for Except

namespace Fptu

/-- essentials.h:31-32 `unit_size`. -/
def unitSize : Nat := 4
/-- essentials.h:34 `max_tuple_units_brutto`. -/
def maxTupleUnitsBrutto : Nat := 65535
/-- essentials.h:71 `max_tuple_units_netto`. -/
def maxTupleUnitsNetto : Nat := maxTupleUnitsBrutto - 1
/-- essentials.h:72 `max_tuple_bytes_netto`. -/
def maxTupleBytesNetto : Nat := 4 * maxTupleUnitsNetto
/-- essentials.h:75 `max_fields = (1 << (16 - tuple_flags_bits)) - 1`. -/
def maxFields : Nat := 2 ^ (16 - 3) - 1
/-- essentials.h:76-77 `buffer_enough` (64-bit `size_t`). -/
def bufferEnough : Nat := 8 * 16 + maxTupleBytesNetto + maxFields * 4
/-- essentials.h:78 `buffer_limit`. -/
def bufferLimit : Nat := maxTupleBytesNetto * 2

/-- essentials.h:160-162 `bytes2units`. -/
def bytes2units (bytes : Nat) : Nat := (bytes + 4 - 1) >>> 2
/-- essentials.h:163-165 `units2bytes`. -/
def units2bytes (units : Nat) : Nat := units <<< 2

/-- The 32 genera, essentials.h:97-151.  The number of a constructor is the C++ enum value. -/
inductive Genus where
  | text | varbin | nested | property
  | i8 | u8 | i16 | u16
  | i32 | u32 | f32 | t32
  | i64 | u64 | f64 | d64 | t64
  | bin96 | bin128 | bin160 | bin192 | bin224 | bin256 | bin320 | bin384 | bin512
  | app64 | app128 | mac | ip | ipnet
  | hole
  deriving DecidableEq, Repr

namespace Genus
/-- All genera in enum order. -/
def all : List Genus :=
  [text, varbin, nested, property, i8, u8, i16, u16, i32, u32, f32, t32, i64, u64, f64, d64, t64,
   bin96, bin128, bin160, bin192, bin224, bin256, bin320, bin384, bin512,
   app64, app128, mac, ip, ipnet, hole]
/-- Enum value, essentials.h:97-151. -/
def code (g : Genus) : Nat := g.ctorIdx
/-- Inverse of `code` (a C++ cast `genus(n)`), total over 5-bit values. -/
def ofCode (n : Nat) : Genus := (all[n]?).getD hole
end Genus

/-- essentials.h:196 `inlay_flag`. -/
def inlayFlag : Nat := 2 ^ 10
/-- essentials.h:201. -/
def discernibleFlag : Nat := 2 ^ 16
/-- essentials.h:202. -/
def saturationFlag : Nat := 2 ^ 17
/-- essentials.h:203. -/
def collectionFlag : Nat := 2 ^ 18
/-- essentials.h:207 `max_preplaced_offset = (1u << 14) - 3u`. -/
def maxPreplacedOffset : Nat := 2 ^ 14 - 3
/-- essentials.h:208 `max_ident`. -/
def maxIdent : Nat := 2 ^ 11 - 1
/-- essentials.h:209 `loose_threshold`. -/
def looseThreshold : Nat := (maxPreplacedOffset + 1) * 2 ^ 18
/-- essentials.h:210 `inlay_pattern`. -/
def inlayPattern : Nat := looseThreshold + inlayFlag
/-- essentials.h:211 `collection_threshold`. -/
def collectionThreshold : Nat := looseThreshold + collectionFlag

/-- essentials.h:231-233 `is_fixed_size(tag)`. -/
def tagIsFixedSize (tag : Nat) : Bool := (tag &&& 0xE000) != 0
/-- essentials.h:240-243 `tag2genus_and_id`. -/
def tag2gid (tag : Nat) : Nat := tag % 2 ^ 16
/-- essentials.h:245-247 `tag2genus` (as enum number). -/
def tag2genusCode (tag : Nat) : Nat := (tag % 2 ^ 16) >>> 11
def tag2genus (tag : Nat) : Genus := Genus.ofCode (tag2genusCode tag)
/-- essentials.h:235-238 `is_inplaced(genus)`. -/
def Genus.isInplaced : Genus → Bool
  | .i8 | .u8 | .i16 | .u16 => true
  | _ => false
/-- essentials.h:249-251 `is_inplaced(tag)`. -/
def tagIsInplaced (tag : Nat) : Bool := (tag2genus tag).isInplaced
/-- essentials.h:226-229 `is_fixed_size(genus)`: `type > property`. -/
def Genus.isFixed (g : Genus) : Bool := g.code > 3
/-- essentials.h:253-255. -/
def isLoose (tag : Nat) : Bool := tag ≥ looseThreshold
/-- essentials.h:257-259. -/
def isPreplaced (tag : Nat) : Bool := tag < looseThreshold
/-- essentials.h:261-263. -/
def isSaturated (tag : Nat) : Bool := (tag &&& saturationFlag) != 0
/-- essentials.h:270-272. -/
def isLooseInlay (tag : Nat) : Bool := (tag &&& inlayPattern) == inlayPattern
/-- essentials.h:274-276. -/
def isLooseCollection (tag : Nat) : Bool := tag ≥ collectionThreshold
/-- essentials.h:278-280. -/
def isDiscernible (tag : Nat) : Bool := (tag &&& discernibleFlag) != 0
/-- essentials.h:282-285. -/
def tag2offset (tag : Nat) : Nat := tag >>> 18
/-- essentials.h:287-290. -/
def tag2indysize (tag : Nat) : Nat := tag &&& maxIdent
/-- essentials.h:292-295. -/
def tag2id (tag : Nat) : Nat := tag &&& maxIdent

/-- essentials.h:307-317 `make_tag(genus,id,...)`. -/
def makeTag (g : Genus) (id : Nat) (collection discernible saturated : Bool) : Nat :=
  (looseThreshold + g.code * 2 ^ 11 + id
    + (if collection then collectionFlag else 0)
    + (if discernible then discernibleFlag else 0)
    + (if saturated then saturationFlag else 0)) % 2 ^ 32

/-- essentials.h:319-328 `make_tag(descriptor,...)`. -/
def makeTagFromDescriptor (d : Nat) (collection discernible saturated : Bool) : Nat :=
  (looseThreshold + d
    + (if collection then collectionFlag else 0)
    + (if discernible then discernibleFlag else 0)
    + (if saturated then saturationFlag else 0)) % 2 ^ 32

/-- essentials.h:330-335 `make_hole`. -/
def makeHole (units : Nat) : Nat := (collectionThreshold + 31 * 2 ^ 11 + units) % 2 ^ 32

/-- essentials.h:337-349 `tag_from_offset`. -/
def tagFromOffset (offset : Nat) (g : Genus) (indysize : Nat) (discernible saturated : Bool) : Nat :=
  (g.code * 2 ^ 11 + offset * 2 ^ 18 + indysize
    + (if discernible then discernibleFlag else 0)
    + (if saturated then saturationFlag else 0)) % 2 ^ 32

/-- essentials.h:351-363 `normalize_tag`. -/
def normalizeTag (tag : Nat) : Nat :=
  tag ||| (if isPreplaced tag then discernibleFlag ||| saturationFlag
           else discernibleFlag ||| saturationFlag ||| collectionFlag)

/-- essentials.h:365-367. -/
def tagLess (a b : Nat) : Bool := normalizeTag a < normalizeTag b
/-- essentials.h:369-371. -/
def tagSame (a b : Nat) : Bool := normalizeTag a == normalizeTag b

/-- Exceptions thrown by the library that the model distinguishes
(`details/exceptions.h`, `src/except.cxx`). -/
inductive Exc where
  | invalidArgument | typeMismatch | fieldAbsent | valueRange | valueTooLong
  | insufficientSpace (items units : Nat)
  | tupleBad | tupleHollow | tupleTooLarge | indexCorrupted | collectionRequired | collectionUnallowed
  | schemaMismatch | schemaNoSuchField | schemaBadDefinition | badAlloc | tupleOverflow
  | bug
  deriving DecidableEq, Repr

/-- Size in bytes which a preplaced field of a genus occupies in the preplaced area,
`details::preplaced_bytes` (tablets.cxx:52-162, meta.h `genus_traits::preplaced_bytes`). -/
def Genus.preplacedBytes : Genus → Nat
  | .text | .varbin | .nested | .property => 4
  | .i8 | .u8 => 1
  | .i16 | .u16 => 2
  | .i32 | .u32 | .f32 | .t32 => 4
  | .i64 | .u64 | .f64 | .d64 | .t64 => 8
  | .bin96 => 12 | .bin128 => 16 | .bin160 => 20 | .bin192 => 24 | .bin224 => 28
  | .bin256 => 32 | .bin320 => 40 | .bin384 => 48 | .bin512 => 64
  | .app64 => 8 | .app128 => 16
  | .mac => 8 | .ip => 16 | .ipnet => 20
  | .hole => 0

/-- token.h:392-396 public constructor of a loose token, with the validation of 349-358. -/
def tokenLoose (typeCode id : Nat) (collection discernible saturated : Bool) : Except Exc Nat :=
  if typeCode ≥ 31 then .error .invalidArgument
  else if id > maxIdent then .error .invalidArgument
  else .ok (makeTag (Genus.ofCode typeCode) id collection discernible saturated)

/-- token.h:398-403 public constructor of a preplaced token, with the validation of 359-370;
`offset` is a `ptrdiff_t` converted to `size_t` (so negative offsets become huge). -/
def tokenPreplaced (offset : Int) (typeCode : Nat) (discernible saturated : Bool) : Except Exc Nat :=
  if (offset % (2 ^ 64 : Int)).toNat > maxPreplacedOffset then .error .invalidArgument
  else if typeCode > 31 then .error .invalidArgument
  else .ok (tagFromOffset (offset % (2 ^ 64 : Int)).toNat (Genus.ofCode typeCode)
              (Genus.ofCode typeCode).preplacedBytes discernible saturated)

/-- token.h:204-207. -/
def enforceDiscernible (tag : Nat) (v : Bool) : Nat :=
  if v then tag ||| discernibleFlag else tag &&& (2 ^ 32 - 1 - discernibleFlag)
/-- token.h:209-212. -/
def enforceSaturation (tag : Nat) (v : Bool) : Nat :=
  if v then tag ||| saturationFlag else tag &&& (2 ^ 32 - 1 - saturationFlag)

/-- token.h:245-251 hash (64-bit `size_t`). -/
def tokenHash (tag : Nat) : Nat :=
  let m := (normalizeTag tag * 2709533891) % 2 ^ 64
  m ^^^ (m >>> 19)

end Fptu
