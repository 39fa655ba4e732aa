import Verif.Model.Gear
import Verif.Model.Stretchy
/-!
# Operations of a modifiable tuple

Model of `tuple_rw` (`fast_positive/tuples/details/rw.h`, `src/rw.cxx`) and of the accessors
(`fast_positive/tuples/details/getter.h`) on top of the allocator of `Model/Gear.lean`.

A token is its 32-bit tag (`Model/Tags.lean`). Values are `Val`; which `Val` may be passed to the setter of a genus
(the static C++ type of the argument) is `Val.fits`.

Simplifications: `debug_check()` (rw.h:1071-1075) is absent, as in release builds. The index of a modifiable tuple is
never treated as sorted (`is_sorted()` rw.h:1203 returns `false`), so `details::lookup` is `RW.lookup`.
-/
namespace Fptu

/-- `genus_traits<G>::loose_units` (meta.h:51-622, tablets.cxx:126-161). -/
def Genus.looseUnits : Genus → Nat
  | .text | .varbin | .nested | .property => 0
  | .i8 | .u8 | .i16 | .u16 => 0
  | .i32 | .u32 | .f32 | .t32 => 1
  | .i64 | .u64 | .f64 | .d64 | .t64 => 2
  | .bin96 => 3 | .bin128 => 4 | .bin160 => 5 | .bin192 => 6 | .bin224 => 7
  | .bin256 => 8 | .bin320 => 10 | .bin384 => 12 | .bin512 => 16
  | .app64 => 2 | .app128 => 4
  | .mac => 2 | .ip => 4 | .ipnet => 5
  | .hole => 0

namespace Rw
open Fptu.Gear

/-- Which of three defects of `src/gear.cxx` are repaired. `Fix.code` is the code as it is. -/
structure Fix where
  /-- gear.cxx:300 moves the rest of a partially used hole by its excess. -/
  loose : Bool
  /-- gear.cxx:591 compares the beginning of the swapped chunk with the end of the data. -/
  swap : Bool
  /-- gear.cxx:393 counts the released volume before an exception of line 416 may be thrown. -/
  rel : Bool
def Fix.code : Fix := ⟨false, false, false⟩
def Fix.repaired : Fix := ⟨true, true, true⟩

/-- A value passed to a setter or returned by a getter. `inline x`: the bit pattern of an 8- or 16-bit value;
`units`: the units of a fixed-size value (for `ip_net_t`, 17 bytes, padded with zeros as meta.h:241-243 does). -/
inductive Val where
  | inline (x : Nat)
  | units (cs : List Cell)
  | text (v : List Nat)
  | varbin (v : List Nat)
  | property (v : List Nat) (id : Nat)
  | nested (v : Option (List Cell))
  deriving DecidableEq, Repr

def Cell.ok (c : Cell) : Bool := c.lo < 65536 && c.hi < 65536

/-- 8-bit genera. -/
def is8 (g : Genus) : Bool := match g with | .i8 | .u8 => true | _ => false

/-- The argument types of the setters (rw.h:416-463): the value is of the C++ type of the genus. -/
def Val.fits (g : Genus) : Val → Bool
  | .inline x => g.isInplaced && decide (x < if is8 g then 256 else 65536)
  | .units cs => g.isFixed && !g.isInplaced && decide (g ≠ .hole) && decide (cs.length = g.looseUnits) && cs.all Cell.ok
  | .text v => decide (g = .text) && v.all (· < 256)
  | .varbin v => decide (g = .varbin) && v.all (· < 256)
  | .property v id => decide (g = .property) && v.all (· < 256) && decide (id < 256)
  | .nested none => decide (g = .nested)
  | .nested (some v) => decide (g = .nested) && decide (v ≠ [] ∧ (v.headD .zero).lo = v.length) && v.all Cell.ok

/-- `genus_traits<G>::is_empty` (meta.h:78-80, 133-135, 184-186, 243-245, 357-405, 481-483, 512-514, 544-546, 576-578).
Floating-point zeros of both signs are empty. -/
def Val.isEmpty (g : Genus) : Val → Bool
  | .inline x => decide (x = 0)
  | .units cs =>
    match g, cs with
    | .f32, [c] => decide (c.lo = 0 ∧ c.hi % 32768 = 0)
    | .f64, [c, d] => decide (c = .zero ∧ d.lo = 0 ∧ d.hi % 32768 = 0)
    | _, cs => cs.all (· = .zero)
  | .text v => v.isEmpty
  | .varbin v => v.isEmpty
  | .property v id => v.isEmpty && decide (id = 0)
  | .nested none => true
  | .nested (some v) => decide ((v.headD .zero).lo < 2)

/-- `genus_traits<G>::empty` (meta.h:74-77, 129-131, 180-182, 238-241, 478-480, 509-511, 538, 566-568). -/
def Val.empty (g : Genus) : Val :=
  match g with
  | .text => .text []
  | .varbin => .varbin []
  | .property => .property [] 0
  | .nested => .nested none
  | g => if g.isInplaced then .inline 0 else .units (List.replicate g.looseUnits .zero)

/-- `genus_traits<G>::estimate_space` of the stretchy genera; 0 for the others. -/
def Val.estimate : Val → Except Exc Nat
  | .text v => Str.estimate v.length
  | .varbin v => Varbin.estimate v.length
  | .property v _ => Property.estimate v.length
  | .nested v => .ok (Nested.estimate v)
  | _ => .ok 0

/-- `loose->inplaced = static_cast<int16_t>(value)` (meta.h:86-93): `int8_t` is sign-extended. -/
def inlineStore (g : Genus) (x : Nat) : Nat := if g = .i8 ∧ x ≥ 128 then 65280 + x else x
/-- `*(const TYPE *)&loose->inplaced` (meta.h:64-70), little-endian. -/
def inlineRead (g : Genus) (lo : Nat) : Nat := if is8 g then lo % 256 else lo

/-- `genus_traits<G>::write` of a payload at unit `p` (meta.h:146-151, 197-202, 262-277, 488-491, 518-521, 550-553, 582-585). -/
def Val.write (m : Memory) (p : Nat) : Val → Memory
  | .inline _ => m
  | .units cs => m.writeCells p cs
  | .text v => Str.store m p v
  | .varbin v => Varbin.store m p v
  | .property v id => Property.store m p v id
  | .nested v => Nested.store m p v

/-- field.h:301-317 `stretchy.brutto_units(type)`. -/
def brutto (g : Genus) (m : Memory) (p : Nat) : Nat :=
  match g with
  | .text => Str.bruttoUnits m p
  | .varbin => Varbin.bruttoUnits m p
  | .nested => Nested.bruttoUnits m p
  | .property => Property.bruttoUnits m p
  | _ => 0

/-- Payload units of the field at cell `a` of genus `g`: `loose_units(type)` or `stretchy_units()`
(rw.h:357-366, field.h:440-444). -/
def fieldUnits (m : Memory) (g : Genus) (a : Nat) : Nat :=
  if g.isFixed then g.looseUnits else if (m a).lo = 0 then 0 else brutto g m (a + (m a).lo)

/-- field.h:423 `type()`. -/
def cellGenus (c : Cell) : Genus := Genus.ofCode (c.hi / 2048)

/-- Preplaced part of a schema: the genus of the stretchy field whose relative offset lies in the given unit of the
preplaced area, if any. Stretchy preplaced fields are 4 bytes and unit-aligned (schema.cxx:196-217). -/
abbrev Sch := Nat → Option Genus

/-- Payload units of the owner `a`, read from the tuple itself. -/
def lenOf (σ : Sch) (s : RW) (a : Nat) : Nat :=
  if a < s.pivot then fieldUnits s.mem (cellGenus (s.mem a)) a
  else match σ (a - s.pivot) with
    | some g => fieldUnits s.mem g a
    | none => 0

def RW.withMem (s : RW) (m : Memory) : RW := { s with mem := m }

/-- gear.cxx:85-90 `release_data(chunk, units)`; the repaired version restores the counter when it throws. -/
def releaseDataF (F : Fix) (s : RW) (chunk units : Nat) : Out Unit :=
  match releaseData s chunk units with
  | .exc e s' => .exc e (if F.rel then s else s')
  | o => o

/-- rw.h:1319-1362 `assign_field_value` of a loose fixed-size field; `field` is the entry found by `at`. -/
def assignLooseFixed (F : Fix) (s : RW) (tag : Nat) (field : Option Nat) (g : Genus) (v : Val) : Out (Option Nat) :=
  if tag2genus tag ≠ g then .exc .typeMismatch s
  else
    (match field with
      | none =>
        if ¬ isDiscernible tag ∧ v.isEmpty g then Out.ok none s
        else (allocLooseWith F.loose s tag g.looseUnits).bind fun a s => .ok (some a) s
      | some a =>
        if a ≥ s.pivot ∨ cellGenus (s.mem a) ≠ g then .exc .indexCorrupted s
        else if ¬ isDiscernible tag ∧ v.isEmpty g then
          (releaseLoose s a g.looseUnits).bind fun _ s => .ok none s
        else .ok (some a) s).bind fun r s =>
    match r with
    | none => .ok none s
    | some a => .ok (some a) (match v with
        | .inline x => s.setLo a (inlineStore g x)
        | v => RW.withMem s (v.write s.mem (s.start a)))

/-- rw.h:1371-1375: the space needed for a value, 0 when the value is to be dropped. -/
def neededUnits (tag : Nat) (g : Genus) (v : Val) : Except Exc Nat :=
  if isDiscernible tag ∨ ¬ v.isEmpty g then v.estimate else .ok 0

/-- rw.h:1364-1442 `assign_field_value` of a stretchy field: `field` is the unit with the relative offset (an index
entry, or the preplaced field). -/
def assignStretchy (F : Fix) (s : RW) (tag : Nat) (field : Option Nat) (g : Genus) (v : Val) : Out (Option Nat) :=
  if tag2genus tag ≠ g then .exc .typeMismatch s
  else
    match neededUnits tag g v with
    | .error e => .exc e s
    | .ok needed =>
      match field with
      | none =>
        if needed = 0 then .ok none s
        else (allocLooseWith F.loose s tag needed).bind fun a s =>
          .ok (some a) (RW.withMem s (v.write s.mem (s.start a)))
      | some a =>
        if isLoose tag ∧ (a ≥ s.pivot ∨ cellGenus (s.mem a) ≠ g) then .exc .indexCorrupted s
        else if (s.mem a).lo ≠ 0 then
          let have_ := brutto g s.mem (s.start a)
          if needed ≠ have_ then
            if needed = 0 then
              if isLoose tag then (releaseLoose s a have_).bind fun _ s => .ok none s
              else (releaseDataF F s (s.start a) have_).bind fun _ s => .ok (some a) (s.setLo a 0)
            else (reallocDataWith F.swap s a have_ needed).bind fun p s =>
              .ok (some a) (RW.withMem s (v.write s.mem p))
          else .ok (some a) (RW.withMem s (v.write s.mem (s.start a)))
        else if needed = 0 then .ok (some a) s
        else (allocData s needed).bind fun p s =>
          .ok (some a) (RW.withMem (s.setPayload a p) (v.write (s.setPayload a p).mem p))

/-- Bytes of a unit, little-endian. -/
def cellBytes (c : Cell) : List Nat := [c.lo % 256, c.lo / 256, c.hi % 256, c.hi / 256]
/-- Bytes which `genus_traits<G>::write(field_preplaced *, value)` stores (meta.h:81-85, 141-145, 192-196, 250-257). -/
def Val.bytes (g : Genus) : Val → List Nat
  | .inline x => if is8 g then [x] else [x % 256, x / 256]
  | .units cs => cs.flatMap cellBytes
  | _ => []

/-- rw.h:1319-1337: preplaced fixed-size field (`is_prohibited_nil` is always false, meta.h:81-85). -/
def assignPreplacedFixed (s : RW) (tag : Nat) (g : Genus) (v : Val) : Out Unit :=
  if tag2genus tag ≠ g then .exc .typeMismatch s
  else .ok () (RW.withMem s (s.mem.writeBytes (4 * s.pivot + tag2offset tag) (v.bytes g)))

/-- `tuple_rw::set_*(token, value)`: rw.cxx:139-187 through `at` (getter.h:565-587) and `accessor_rw::assign`
(rw.h:1505-1511), `v` being the argument and `g` the genus of the setter. -/
def setField (F : Fix) (s : RW) (tag : Nat) (g : Genus) (v : Val) : Out Unit :=
  if isPreplaced tag then
    if g.isFixed then assignPreplacedFixed s tag g v
    else (assignStretchy F s tag (some (s.pivot + tag2offset tag / 4)) g v).bind fun _ s => .ok () s
  else if isLooseCollection tag then .exc .collectionUnallowed s
  else if g.isFixed then (assignLooseFixed F s tag (s.lookup (tag2gid tag)) g v).bind fun _ s => .ok () s
  else (assignStretchy F s tag (s.lookup (tag2gid tag)) g v).bind fun _ s => .ok () s

/-- `tuple_rw::insert_*(token, value)`: rw.cxx:205-249 and `append_field` (rw.h:1446-1501). -/
def insertField (F : Fix) (s : RW) (tag : Nat) (g : Genus) (v : Val) : Out (Option Nat) :=
  if tag2genus tag ≠ g then .exc .typeMismatch s
  else if ¬ isLooseCollection tag then .exc .collectionRequired s
  else if ¬ isDiscernible tag ∧ v.isEmpty g then .ok none s
  else if g.isFixed then
    (allocLooseWith F.loose s tag g.looseUnits).bind fun a s =>
      .ok (some a) (match v with
        | .inline x => s.setLo a (inlineStore g x)
        | v => RW.withMem s (v.write s.mem (s.start a)))
  else
    match v.estimate with
    | .error e => .exc e s
    | .ok needed =>
      (allocLooseWith F.loose s tag needed).bind fun a s =>
        .ok (some a) (if needed ≠ 0 then RW.withMem s (v.write s.mem (s.start a)) else s)

/-- rw.h:357-366 `erase(field_loose *)`. -/
def eraseEntry (s : RW) (a : Nat) : Out Unit := releaseLoose s a (fieldUnits s.mem (cellGenus (s.mem a)) a)

/-- `details::next` (specified by C03): the next entry with the word, searching from `a + 1`. -/
def nextEntry (s : RW) (word a : Nat) : Option Nat := lookupFrom s.mem word s.pivot (a + 1)

/-- rw.cxx:119-137 `erase(begin, end)` over the collection: `field` is the current entry. The iterator keeps pointing
at the erased entry while `++it` looks further. -/
def eraseRange (s : RW) (word : Nat) (field : Option Nat) (count : Nat) : Out Nat :=
  match field with
  | none => .ok count s
  | some a =>
    if h : a < s.pivot then
      match eraseEntry s a with
      | .ok _ s' =>
        if hp : s'.pivot = s.pivot then
          match hn : nextEntry s' word a with
          | none => .ok (count + 1) s'
          | some b => if hb : a < b then eraseRange s' word (some b) (count + 1) else .ub
        else .ub
      | .exc e s' => .exc e s'
      | .ub => .ub
    else .ub
termination_by s.pivot - field.getD 0
decreasing_by simp_all; omega

/-- `tuple_rw::erase(token)` of loose fields: rw.cxx:113-116, rw.h:1045-1053 `remove`, 1513-1528. Returns the number of
erased values (the code returns whether it is positive). -/
def eraseLoose (s : RW) (tag : Nat) : Out Nat :=
  if isLooseCollection tag then eraseRange s (tag2gid tag) (s.lookup (tag2gid tag)) 0
  else match s.lookup (tag2gid tag) with
    | none => .ok 0 s
    | some a =>
      if cellGenus (s.mem a) ≠ tag2genus tag then .exc .indexCorrupted s
      else (eraseEntry s a).bind fun _ s => .ok 1 s

/-- DENIL of the fixed-size genera as the bytes stored (meta.h:290-405); all other genera use zero. -/
def denilBytes : Genus → List Nat
  | .i8 => [128]
  | .i16 => [0, 128]
  | .i32 => [0, 0, 0, 128]
  | .i64 => [0, 0, 0, 0, 0, 0, 0, 128]
  | .f32 => List.replicate 4 255
  | .f64 | .d64 => List.replicate 8 255
  | g => List.replicate g.preplacedBytes 0

/-- tablets.cxx:164-212 `field_preplaced::is_null` (stretchy genera inherit `is_denil` of `unit_1<uint32_t, 0>`). -/
def preplacedIsNull (s : RW) (tag : Nat) : Bool :=
  let g := tag2genus tag
  (!g.isFixed || isDiscernible tag) &&
    decide (s.mem.readBytes (4 * s.pivot + tag2offset tag) g.preplacedBytes = denilBytes g)

/-- getter.h:212-217 `exist` of a preplaced field: the code returns `is_null`. -/
def preplacedExist (s : RW) (tag : Nat) : Bool := preplacedIsNull s tag

/-- rw.h:339-350 `erase(field_preplaced *, ...)`; `preplaced_erase` writes DENIL or zeros. -/
def erasePreplacedAt (F : Fix) (s : RW) (tag : Nat) : Out Unit :=
  let g := tag2genus tag
  if g.isFixed then
    .ok () (RW.withMem s (s.mem.writeBytes (4 * s.pivot + tag2offset tag)
      (if isDiscernible tag then denilBytes g else List.replicate g.preplacedBytes 0)))
  else
    let a := s.pivot + tag2offset tag / 4
    if (s.mem a).lo ≠ 0 then
      (releaseDataF F s (s.start a) (brutto g s.mem (s.start a))).bind fun _ s => .ok () (s.setLo a 0)
    else .ok () s

/-- `tuple_rw::erase(token)` of a preplaced field (rw.cxx:113-116, rw.h:1045-1053). -/
def erasePreplaced (F : Fix) (s : RW) (tag : Nat) : Out Bool :=
  if preplacedExist s tag then (erasePreplacedAt F s tag).bind fun _ s => .ok true s else .ok false s

/-- Typed value of the payload at `p` (meta.h `read`); `none`: the string-pool placeholder. -/
def readPayload (g : Genus) (m : Memory) (p : Nat) : Option Val :=
  match g with
  | .text => (Str.read m p).map .text
  | .varbin => some (.varbin (Varbin.read m p))
  | .property => some (.property (Property.read m p).1 (Property.read m p).2)
  | .nested => some (.nested (some (Nested.read m p)))
  | g => some (.units (m.readCells p g.looseUnits))

/-- getter.h:123-179 `accessor_ro::get<GENUS>` of a loose entry. -/
def getEntry (s : RW) (tag : Nat) (g : Genus) (field : Option Nat) : Except Exc (Option Val) :=
  if tag2genus tag ≠ g then .error .typeMismatch
  else match field with
    | some a =>
      if g.isInplaced then .ok (some (.inline (inlineRead g (s.mem a).lo)))
      else if g.isFixed ∨ (s.mem a).lo ≠ 0 then .ok (readPayload g s.mem (s.start a))
      else if isDiscernible tag then .error .fieldAbsent else .ok (some (.empty g))
    | none => if isDiscernible tag then .error .fieldAbsent else .ok (some (.empty g))

/-- `get_*(token)` of a loose field that is not a collection. -/
def getLoose (s : RW) (tag : Nat) (g : Genus) : Except Exc (Option Val) :=
  if isLooseCollection tag then .error .collectionUnallowed else getEntry s tag g (s.lookup (tag2gid tag))

/-- Bytes of a preplaced fixed-size field: `get<GENUS>` for preplaced tokens (getter.h:123-139). -/
def getPreplacedFixed (s : RW) (tag : Nat) (g : Genus) : Except Exc (List Nat) :=
  if tag2genus tag ≠ g then .error .typeMismatch
  else
    let bytes := s.mem.readBytes (4 * s.pivot + tag2offset tag) g.preplacedBytes
    if isDiscernible tag ∧ bytes = denilBytes g then .error .fieldAbsent else .ok bytes

/-- `get<GENUS>` of a preplaced stretchy field (getter.h:154-179). -/
def getPreplacedStretchy (s : RW) (tag : Nat) (g : Genus) : Except Exc (Option Val) :=
  if tag2genus tag ≠ g then .error .typeMismatch
  else
    let a := s.pivot + tag2offset tag / 4
    if (s.mem a).lo ≠ 0 then .ok (readPayload g s.mem (s.start a))
    else if isDiscernible tag then .error .fieldAbsent else .ok (some (.empty g))

/-- rw.h:192-209 constructor on a buffer with room for `lim` units, with `items` index slots and the initial image of
the preplaced area. -/
def create (mem : Memory) (items pre lim : Nat) (image : List Cell) : RW :=
  { mem := mem.writeCells items image, head := items, pivot := items, pre := pre, tail := items + pre, lim := lim,
    jc := 0, jv := 0 }

end Rw
end Fptu
