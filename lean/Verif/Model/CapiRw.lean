import Verif.Model.Capi
import Verif.Model.Handle
import Verif.Model.Numeric
/-!
# Legacy C API: modifying tuples, reading fields, loading serialized tuples

Model of `src/compat_rw.cxx`, `src/compat_ro.cxx:26-134`, `src/compat_field.cxx` and `src/compat_common.cxx:34-54, 163-182`
on top of `Model/TupleRW.lean`, `Model/Serial.lean` and `Model/Audit.lean`.

Simplifications: the thread-local "last error" is the returned code. `overhead` is `pure_tuple_size()`. An exception leaving a
`noexcept` function terminates the process; this is the result `none` where it is possible. The callers' buffers are not
null where the code does not test for it. `int_fast32_t`, `uint_fast32_t` are 64-bit types, as with glibc on 64-bit platforms.
-/
namespace Fptu.CapiRw
open Fptu.Gear Fptu.Rw Fptu.Audit Fptu.Serial Fptu.Handle Fptu.Num

/-- legacy.h:100-130 `fptu_error`. -/
inductive Code where
  | ok | nofield | inval | nospace | nomem
  deriving DecidableEq, Repr

/-- compat_common.cxx:34-48 `fptu_set_error(const std::exception &)`. -/
def codeOf : Exc → Code
  | .insufficientSpace _ _ => .nospace
  | .badAlloc => .nomem
  | .fieldAbsent => .nofield
  | _ => .inval

/-- The result of a modifying function: the code and the tuple afterwards. -/
inductive Reply where
  | code (c : Code) (s : RW)
  | ub

/-- `try { ...; return FPTU_OK; } catch (const std::exception &e) { return fptu_set_error(e).first; }` -/
def reply {α : Type} : Out α → Reply
  | .ok _ s => .code .ok s
  | .exc e s => .code (codeOf e) s
  | .ub => .ub

/-- The same when the arguments are computed first. -/
def guarded {α β : Type} (s : RW) (a : Except Exc β) (f : β → Out α) : Reply :=
  match a with
  | .error e => .code (codeOf e) s
  | .ok b => reply (f b)

/-- The token of the C API for column `column`: compat_rw.cxx:255, 321, ... -/
def capiToken (g : Genus) (column : Nat) (collection discernible : Bool) : Except Exc Nat :=
  tokenLoose g.code column collection discernible false

/-- compat_rw.cxx:251-340 `fptu_upsert_*` (numbers, datetime, binaries, string, opaque). -/
def upsert (F : Fix) (s : RW) (g : Genus) (column : Nat) (v : Val) : Reply :=
  guarded s (capiToken g column false true) fun tag => setField F s tag g v

/-- compat_rw.cxx:272-281 `fptu_upsert_null`: stores the "no value" pattern of `enumeration` (= `i16`). -/
def upsertNull (F : Fix) (s : RW) (column : Nat) : Reply :=
  guarded s (capiToken .i16 column false false) fun tag => setField F s tag .i16 (.inline 32768)

/-- `fptu_ro` passed to `*_nested`: a buffer with a tuple; `set_nested` gets the units of the tuple. -/
def nestedArg (ptr : Option Memory) (bytes : Nat) : Except Exc Val :=
  (makeFromBuffer ptr bytes none false).map fun r => .nested (r.map fun m => m.readCells 0 (m 0).lo)

/-- compat_rw.cxx:342-352 `fptu_upsert_nested`. The code makes a token for `varbin` (`g = .varbin`); the other functions
for nested tuples make one for `nested`. -/
def upsertNestedWith (g : Genus) (F : Fix) (s : RW) (column : Nat) (ptr : Option Memory) (bytes : Nat) : Reply :=
  guarded s ((capiToken g column false true).bind fun tag => (nestedArg ptr bytes).map fun v => (tag, v))
    fun a => setField F s a.1 .nested a.2
def upsertNested := upsertNestedWith .varbin

/-- compat_rw.cxx:356-445 `fptu_insert_*`: the token distinguishes NULLs (`discernible = true`), except for binaries of 96 to
256 bits (compat_rw.cxx:385). -/
def insertWithToken (discernible : Bool) (F : Fix) (s : RW) (g : Genus) (column : Nat) (v : Val) : Reply :=
  guarded s (capiToken g column true discernible) fun tag => insertField F s tag g v
def isCapiBinary : Genus → Bool
  | .bin96 | .bin128 | .bin160 | .bin256 => true
  | _ => false
def insert (F : Fix) (s : RW) (g : Genus) (column : Nat) (v : Val) : Reply :=
  insertWithToken (!isCapiBinary g) F s g column v

/-- compat_rw.cxx:434-445 `fptu_insert_nested`. -/
def insertNested (F : Fix) (s : RW) (column : Nat) (ptr : Option Memory) (bytes : Nat) : Reply :=
  guarded s ((capiToken .nested column true true).bind fun tag => (nestedArg ptr bytes).map fun v => (tag, v))
    fun a => insertField F s a.1 .nested a.2

/-- rw.h:1213-1220 `legacy_update_*`: the accessor may have a token of a collection (getter.h:580). -/
def legacyUpdate (F : Fix) (s : RW) (tag : Nat) (g : Genus) (v : Val) : Out Unit :=
  match s.lookup (tag2gid tag) with
  | none => .exc .fieldAbsent s
  | some a =>
    if g.isFixed then (assignLooseFixed F s tag (some a) g v).bind fun _ s => .ok () s
    else (assignStretchy F s tag (some a) g v).bind fun _ s => .ok () s

/-- compat_rw.cxx:449-520 `fptu_update_*`. -/
def update (F : Fix) (s : RW) (g : Genus) (column : Nat) (v : Val) : Reply :=
  guarded s (capiToken g column true true) fun tag => legacyUpdate F s tag g v

/-- compat_rw.cxx:522-533 `fptu_update_nested`. -/
def updateNested (F : Fix) (s : RW) (column : Nat) (ptr : Option Memory) (bytes : Nat) : Reply :=
  guarded s ((capiToken .nested column true true).bind fun tag => (nestedArg ptr bytes).map fun v => (tag, v))
    fun a => legacyUpdate F s a.1 .nested a.2

/-- The parameter types of `fptu_upsert_int32` and `fptu_upsert_uint32` are `int_fast32_t`, `uint_fast32_t`; the argument of
`set_i32`, `set_u32` is `int32_t`, `uint32_t` (compat_rw.cxx:265-266, rw.h:1224-1225): an implicit conversion. -/
def upsertInt (F : Fix) (s : RW) (g : Genus) (column : Nat) (n : Int) : Reply := upsert F s g column (intVal g n)

/-- compat_field.cxx:33-36 `fptu_erase_field` of an index entry. -/
def eraseField (s : RW) (a : Nat) : Out Unit :=
  if s.isHole a then .ok () s else eraseEntry s a

/-- compat_common.cxx:163-182: the loop of `fptu_erase`. `end` is taken before the loop. -/
def eraseLoop (column tf e : Nat) (s : RW) (pf count : Nat) : Out Nat :=
  if h : pf < e then
    match eraseField s pf with
    | .ok _ s' =>
      if Capi.isFilter tf then
        let b := Capi.next (fun i => (s'.mem i).hi % 65536) pf e column tf
        if hb : pf < b then eraseLoop column tf e s' b (count + 1) else .ub
      else .ok (count + 1) s'
    | .exc x s' => .exc x s'
    | .ub => .ub
  else .ok count s
termination_by e - pf
decreasing_by omega

/-- compat_common.cxx:163-182 `fptu_erase`: the number of erased fields, or `-EINVAL`. -/
def eraseFields (s : RW) (column tf : Nat) : Out (Except Code Nat) :=
  if column > maxIdent then .ok (.error .inval) s
  else (eraseLoop column tf s.pivot s (Capi.first (fun i => (s.mem i).hi % 65536) s.head s.pivot column tf) 0).bind fun n s => .ok (.ok n) s

/-! ## Reading -/

/-- field.h:319-337 `stretchy.length(type)`. -/
def stretchyLength (g : Genus) (m : Memory) (p : Nat) : Nat :=
  match g with
  | .text => Str.length m p
  | .varbin => Varbin.length m p
  | .nested => Nested.length m p
  | .property => Property.wholeLength m p
  | _ => 0

/-- compat_field.cxx:40-55 `fptu_field_as_iovec` of an index entry: byte address and length; `none` is the null pointer.
`inplaced` is the low half of the entry. -/
def asIovec (m : Memory) (a : Nat) : Option (Nat × Nat) :=
  let g := cellGenus (m a)
  if g.isInplaced then some (4 * a, g.looseUnits)
  else if g.isFixed then some (4 * (a + (m a).lo), g.looseUnits)
  else if (m a).lo ≠ 0 then some (4 * (a + (m a).lo), stretchyLength g m (a + (m a).lo))
  else none

/-- The bytes an `iovec` describes. -/
def iovecBytes (m : Memory) (v : Option (Nat × Nat)) : List Nat :=
  match v with
  | none => []
  | some (p, n) => m.readBytes p n

/-- compat_ro.cxx:26-30 `is_hollow`. -/
def isHollow (m : Memory) (bytes : Nat) : Bool := decide (bytes < 4 ∨ units2bytes (m 0).lo ≠ bytes)

/-- compat_ro.cxx:32-37 `fptu_is_empty_ro`. -/
def isEmptyRo (m : Memory) (bytes : Nat) : Bool := if isHollow m bytes then true else decide (Nested.indexSize (m 0) < 1)

/-- The serialized tuple in the terms of the layout of a mutable tuple (header at unit 0). -/
def roTuple (m : Memory) : RW :=
  { mem := m, head := 1, pivot := 1 + Nested.indexSize (m 0), pre := 0, tail := (m 0).lo, lim := (m 0).lo, jc := 0, jv := 0 }

/-- compat_ro.cxx:75-120 `fptu_get_*`: the value, or the code stored through `error`. Absent fields give the default value of
the type with `FPTU_OK`. For sorted indexes `lookup` is a binary search with the same result (C03). -/
def getC (m : Memory) (bytes : Nat) (g : Genus) (column : Nat) : Except Code (Option Val) :=
  match capiToken g column false false with
  | .error e => .error (codeOf e)
  | .ok tag =>
    if isHollow m bytes then .error (codeOf .tupleHollow)
    else match getLoose (roTuple m) tag g with
      | .ok v => .ok v
      | .error e => .error (codeOf e)

/-- The C string at byte address `p`: the bytes before the first zero byte, at most `n`. -/
def cString (m : Memory) (p : Nat) : Nat → List Nat
  | 0 => []
  | n + 1 => if m.byte p = 0 then [] else m.byte p :: cString m (p + 1) n

/-- What `fptu_field_cstr` returns: the null pointer, a pointer into the tuple (byte address; `room` bytes are left in the
field), or a pointer to the text in the `static thread_local std::string holder`. -/
inductive CStr where
  | null
  | inside (p room : Nat)
  | holder
  deriving DecidableEq

/-- The characters the caller sees through the pointer, the holder having the given content at that time. -/
def CStr.view (m : Memory) (held : List Nat) : CStr → Option (List Nat)
  | .null => none
  | .inside p room => some (cString m p room)
  | .holder => some (held.takeWhile (· ≠ 0))

/-- compat_field.cxx:104-137 `fptu_field_cstr` of a text entry, and the content of the holder afterwards: the null
pointer for the empty string (`FPTU_DENIL_CSTR` is `nullptr`, legacy_compat.h:94); a pointer into the tuple when a byte is left
after the text in the last unit; a copy otherwise. -/
def fieldCstr (m : Memory) (a : Nat) (held : List Nat) : CStr × List Nat :=
  let p := a + (m a).lo
  match (if (m a).lo = 0 then some [] else Str.read m p) with
  | none => (.null, held)
  | some v =>
    if v = [] then (.null, held)
    else
      let e := Str.begin_ m p + v.length
      let fieldEnd := 4 * (p + Str.bruttoUnits m p)
      if e < fieldEnd then (.inside (Str.begin_ m p) (fieldEnd - Str.begin_ m p), held)
      else (.holder, v)

/-! ## Creating and loading -/

/-- compat_rw.cxx:20-24 `fptu_space`; `none`: the process terminates. -/
def space (overhead items data : Nat) : Option Nat :=
  match estimate overhead (min items Audit.maxFields) (min data maxBytesNetto) 0 false with
  | .ok n => some n
  | .error _ => none

/-- compat_rw.cxx:26-39 `fptu_init` in a buffer of `size` bytes; `none`: null pointer. -/
def init (overhead : Nat) (mem : Memory) (size items : Nat) : Option RW :=
  match construct overhead mem size items 0 [] with
  | .ok s => some s
  | .error _ => none

/-- compat_rw.cxx:41-48 `fptu_alloc`; `malloc` does not fail. -/
def alloc (overhead : Nat) (mem : Memory) (items data : Nat) : Option RW :=
  if items > Audit.maxFields ∨ data > maxBytesNetto then none
  else (space overhead items data).bind fun n => init overhead mem n items

/-- compat_rw.cxx:55-65 `fptu_clear` of a tuple. -/
def clear (s : RW) : Reply :=
  match reset s [] with
  | .ok t => .code .ok t
  | .error e => .code (codeOf e) s

/-- What `fptu_check_and_get_buffer_size_ex` stores: the holes found. -/
structure Cbfs where
  holesCount : Nat
  holesVolume : Nat

/-- compat_rw.cxx:198-230 `fptu_check_and_get_buffer_size_ex`: the size and the filled `cbfs`, or the error. -/
def checkEx (overhead : Nat) (m : Memory) (bytes moreItems moreData : Nat) : Except Code (Nat × Cbfs) :=
  match auditRo none m bytes with
  | .pass st =>
    match estimateRo overhead (m 0) moreItems moreData 0 with
    | .ok n => .ok (n, ⟨st.hc % 65536, st.hv % 65536⟩)
    | .error e => .error (codeOf e)
  | _ => .error .inval

/-- compat_rw.cxx:170-196 `fptu_fetch_ex`; `none`: null pointer. -/
def fetchEx (overhead : Nat) (mem : Memory) (m : Memory) (size moreItems : Nat) (cbfs : Cbfs) : Option RW :=
  match constructRo overhead mem cbfs.holesCount cbfs.holesVolume m size moreItems 0 with
  | .ok t => some t
  | .error _ => none

/-- compat_rw.cxx:97-119 `fptu_check_and_get_buffer_size`: the size, `none` when an error is reported. -/
def checkSize (overhead : Nat) (m : Memory) (bytes moreItems moreData : Nat) : Option Nat :=
  match auditRo none m bytes with
  | .pass _ =>
    match estimateRo overhead (m 0) moreItems moreData 0 with
    | .ok n => some n
    | .error _ => none
  | _ => none

/-- compat_rw.cxx:121-158 `fptu_fetch`: an empty buffer stands for the empty tuple; the holes of the tuple are not counted. -/
def fetch (overhead : Nat) (mem : Memory) (m : Memory) (bytes size moreItems : Nat) : Option RW :=
  let stub : Memory := fun _ => ⟨1, 0⟩
  let src := if bytes = 0 then stub else m
  let len := if bytes = 0 then 4 else bytes
  match liteCheckup src len with
  | some _ => none
  | none =>
    match constructRo overhead mem 0 0 src size moreItems 0 with
    | .ok t => some t
    | .error _ => none

/-- compat_rw.cxx:160-166 `fptu_get_buffer_size`, which is `noexcept`; `none`: the process terminates. -/
def getBufferSize (overhead : Nat) (m : Memory) (moreItems moreData : Nat) : Option Nat :=
  match estimateRo overhead (m 0) moreItems moreData 0 with
  | .ok n => some n
  | .error _ => none

end Fptu.CapiRw
