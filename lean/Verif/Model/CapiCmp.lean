import Verif.Model.CapiRw
/-!
# C API: searching serialized tuples, reading single fields, comparing fields with values, tags

Model of `src/compat_ro.cxx` (lookup, comparisons), `src/compat_field.cxx` (getters of a field), and of the functions on tags and names of types
(`src/compat_common.cxx`, `fast_positive/tuples/details/legacy_compat.h`).
-/
namespace Fptu.CapiCmp
open Fptu.Gear Fptu.Rw Fptu.Audit Fptu.Serial Fptu.CapiRw

/-- legacy.h:197-251 the constants `fptu_uint16`, …, `fptu_nested`; legacy_compat.h:23-25 `genus2legacy`. -/
def legacyType (g : Genus) (column : Nat := 0) : Nat := makeTag g column true true false

/-- compat_ro.cxx:46-62 `fptu_begin_ro`, `fptu_end_ro` and 64-72 `fptu_lookup_ro`: the entry found, `none` is the null pointer. For a hollow
tuple both ends are null pointers and nothing is found. -/
def lookupRo (m : Memory) (bytes column tf : Nat) : Option Nat :=
  if isHollow m bytes then none
  else
    let e := 1 + Nested.indexSize (m 0)
    let pf := Capi.first (fun i => (m i).hi % 65536) 1 e column tf
    if pf ≠ e then some pf else none

/-- getter.h:73-104 `details::get<GENUS>(pf, true)` and compat_field.cxx:58-100 `fptu_field_*`: the value, or the code of the error, which is
only seen by `fptu_last_error_code` (the value returned is the default one). -/
def fieldGet (m : Memory) (pf : Option Nat) (g : Genus) : Except Code (Option Val) :=
  match pf with
  | some a =>
    if cellGenus (m a) ≠ g then .error (codeOf .typeMismatch)
    else if g.isInplaced then .ok (some (.inline (inlineRead g (m a).lo)))
    else if g.isFixed ∨ (m a).lo ≠ 0 then .ok (readPayload g m (a + (m a).lo))
    else .error (codeOf .fieldAbsent)
  | none => .error (codeOf .fieldAbsent)

/-- The answer of a comparison; `none` is `fptu_ic` (incomparable). -/
abbrev Answer := Option Capi.Lge

/-- legacy_compat.h:171-174 `cmpbin`. -/
def cmpbin (a b : List Nat) (n : Nat) : Capi.Lge := Capi.diff2lge (Capi.memcmp (a.take n) (b.take n))

/-- compat_ro.cxx:137-152 `fptu_cmp_96`, …, `fptu_cmp_256` (`n` bytes); `none` is a null pointer as value. -/
def cmpFixed (g : Genus) (n : Nat) (m : Memory) (bytes column : Nat) (value : Option (List Nat)) : Answer :=
  match value with
  | none => none
  | some w =>
    match lookupRo m bytes column (legacyType g) with
    | none => none
    | some a => some (cmpbin (m.readBytes (4 * (a + (m a).lo)) n) w n)

/-- The bytes of the `iovec` that `fptu_field_opaque` returns (compat_field.cxx:79-80); after an error it is empty. -/
def fieldOpaque (m : Memory) (a : Nat) : List Nat :=
  match fieldGet m (some a) .varbin with
  | .ok (some (.varbin v)) => v
  | _ => []

/-- compat_ro.cxx:154-163 `fptu_cmp_opaque`. -/
def cmpOpaque (m : Memory) (bytes column : Nat) (value : List Nat) : Answer :=
  match lookupRo m bytes column (legacyType .varbin) with
  | none => if value.length ≠ 0 then none else some .eq
  | some a => some (Capi.cmpBinary (fieldOpaque m a) value)

/-! ## Tags -/

/-- legacy_compat.h:102-104, compat_common.cxx:228-230 `fptu_get_colnum`; `fptu_tag_t` is `uint_fast16_t`, 64 bits wide here, cut to 32. -/
def getColnum (tag : Nat) : Nat := tag2id (tag % 2 ^ 32)
/-- legacy_compat.h:106-109 `fptu_get_type`. -/
def getType (tag : Nat) : Nat := legacyType (tag2genus (tag % 2 ^ 32))
/-- legacy_compat.h:119-121 `fptu_make_tag`. -/
def makeTagC (column type : Nat) : Nat := legacyType (tag2genus type) column
/-- legacy_compat.h:111-113 `fptu_tag_is_fixedsize`. -/
def isFixedsize (tag : Nat) : Bool := tagIsFixedSize (tag % 2 ^ 32)
/-- legacy_compat.h:115-117 `fptu_tag_is_deleted`. -/
def isDeleted (tag : Nat) : Bool := tag2genus (tag % 2 ^ 32) == .hole

/-- compat_field.cxx:22-31 `fptu_field_is_dead`, `fptu_field_type`, `fptu_field_column` (`none` is the null pointer). -/
def fieldIsDead (m : Memory) (pf : Option Nat) : Bool :=
  match pf with
  | none => true
  | some a => cellGenus (m a) == .hole
def fieldType (m : Memory) (pf : Option Nat) : Nat :=
  match pf with
  | none => 2 ^ 32 - 1
  | some a => legacyType (cellGenus (m a))
def fieldColumn (m : Memory) (pf : Option Nat) : Int :=
  match pf with
  | none => -1
  | some a => ((m a).hi % 2048 : Nat)

/-- legacy.h:197-251: the types which the C API names (without aliases). -/
def namedTypes : List Genus :=
  [.u16, .i8, .i32, .u32, .f32, .i64, .u64, .f64, .t64, .bin96, .bin128, .bin160, .bin256, .ip, .mac, .ipnet, .text, .varbin, .nested]

/-- compat_common.cxx:186-222 `fptu_type_name`; `none` is the text "invalid(fptu_type)…". -/
def typeName (type : Nat) : Option String :=
  if type = legacyType .u16 then some "uint16"
  else if type = legacyType .i32 then some "int32"
  else if type = legacyType .u32 then some "uint32"
  else if type = legacyType .f32 then some "fp32"
  else if type = legacyType .i64 then some "int64"
  else if type = legacyType .u64 then some "uint64"
  else if type = legacyType .f64 then some "fp64"
  else if type = legacyType .t64 then some "datetime"
  else if type = legacyType .bin96 then some "b96"
  else if type = legacyType .bin128 then some "b128"
  else if type = legacyType .bin160 then some "b160"
  else if type = legacyType .bin256 then some "b256"
  else if type = legacyType .text then some "cstr"
  else if type = legacyType .varbin then some "opaque"
  else if type = legacyType .nested then some "nested"
  else none

/-! ## Error reporting -/

/-- legacy_compat.h:59-84 `error_guard`: what is stored through `error` by a getter, and the last error of the thread, by its result. -/
def guardError {α : Type} (last : Code) (r : Except Code α) : Code × Code :=
  match r with
  | .ok _ => (.ok, last)
  | .error c => (c, c)

/-- compat_ro.cxx:122-132 `fptu_get_cstr`: what is stored through `error` (it held `prev`); `found` is the result of the search. -/
def cstrError (prev : Code) (found : Option Nat) : Code :=
  match found with
  | some _ => prev
  | none => .nofield

end Fptu.CapiCmp
