import Verif.Model.Iterate
/-!
# What an iterator over fields tells about its field

Model of the members of `loose_iterator_ro` (ro.h:81-130, ro.cxx:41-50) and `field_iterator_ro` (ro.h:390-436, ro.cxx:52-76)
that give an accessor, a token, the type and the identifier of the field an iterator stands at, and compare it with a token.

Positions are those of `Model/Iterate`: the distance in bytes from the pivot. An accessor (getter.h:85-121) is a position with a
token; its `get<GENUS>` (getter.h:123-179) reads from the position.
-/
namespace Fptu.Iter
open Fptu Fptu.Gear Fptu.Schemas Fptu.Rw

/-- ro.h:354-358 `loose()`: the address of the unit of the index at a negative position. -/
def unitAt (s : RW) (pos : Int) : Nat := ((s.pivot : Int) + pos / 4).toNat

/-- essentials.h `descriptor2genus`, as used by ro.h:109-111 `loose_iterator_ro::field_type`. -/
def looseType (s : RW) (a : Nat) : Genus := Genus.ofCode ((s.mem a).hi / 2048)

/-- ro.h:112-114 `loose_iterator_ro::field_id`. -/
def looseId (s : RW) (a : Nat) : Nat := (s.mem a).hi &&& maxIdent

/-- ro.h:104-108 `loose_iterator_ro::field_token(collection, discernible_null, saturated)`; `none`: the assertion of
`make_tag(descriptor)` that the unit is not a hole (essentials.h:323) is violated. -/
def looseToken (s : RW) (a : Nat) (collection discernible saturated : Bool) : Option Nat :=
  if looseType s a = .hole then none else some (makeTagFromDescriptor (s.mem a).hi collection discernible saturated)

/-- ro.cxx:41-50 `loose_iterator_ro::field_token(schema)`. -/
def looseTokenOf (s : RW) (sch : Option Sc) (a : Nat) : Except Exc Nat :=
  match sch with
  | some c => if byLoose c (s.mem a).hi ≠ 0 then .ok (byLoose c (s.mem a).hi) else .error .schemaNoSuchField
  | none => .error .schemaNoSuchField

/-- ro.h:116-130 `loose_iterator_ro::operator==(token)`. -/
def looseIs (s : RW) (a : Nat) (ident : Nat) : Bool := isLoose ident && (s.mem a).hi == ident % 2 ^ 16

/-- ro.cxx:61-70 `field_iterator_ro::preplaced_token`. -/
def preplacedToken (sch : Option Sc) (pos : Int) : Except Exc Nat :=
  match sch with
  | some c => if byOffset c pos ≠ 0 then .ok (byOffset c pos) else .error .schemaNoSuchField
  | none => .error .schemaNoSuchField

/-- ro.h:390-408 `field_iterator_ro::operator*`: the position and the token of the accessor; `none` at a unit of the
index that is a hole. -/
def deref (s : RW) (sch : Option Sc) (pos : Int) : Option (Except Exc (Int × Nat)) :=
  if pos ≥ 0 then some ((preplacedToken sch pos).map fun t => (pos, t))
  else (looseToken s (unitAt s pos) false false false).map fun t => .ok (pos, t)

/-- ro.cxx:52-59 `field_iterator_ro::field_token`, with ro.h:411-414 `field_token_nothrow`. -/
def fieldToken (s : RW) (sch : Option Sc) (pos : Int) : Except Exc Nat :=
  match sch with
  | some c =>
    let t := if pos ≥ 0 then byOffset c pos else byLoose c (s.mem (unitAt s pos)).hi
    if t ≠ 0 then .ok t else .error .schemaNoSuchField
  | none => .error .schemaNoSuchField

/-- ro.h:416-420 `field_iterator_ro::field_type`. -/
def fieldType (s : RW) (sch : Option Sc) (pos : Int) : Except Exc Genus :=
  if pos ≥ 0 then (preplacedToken sch pos).map tag2genus else .ok (looseType s (unitAt s pos))

/-- ro.h:422-436, ro.cxx:72-77 `field_iterator_ro::operator==(token)`; `&&` does not ask for the token of the position if the other
one is not preplaced. -/
def fieldIs (s : RW) (sch : Option Sc) (pos : Int) (ident : Nat) : Except Exc Bool :=
  if pos ≥ 0 then
    if isPreplaced ident then (preplacedToken sch pos).map fun t => t == ident else .ok false
  else .ok (isLoose ident && (s.mem (unitAt s pos)).hi == tag2gid ident)

/-- getter.h:123-179 `get<GENUS>` of an accessor to a loose field. -/
def readLoose (s : RW) (acc : Int × Nat) (g : Genus) : Except Exc (Option Val) := getEntry s acc.2 g (some (unitAt s acc.1))

/-- getter.h:123-139 `get<GENUS>` of an accessor to a preplaced field of a fixed size: the bytes at the position. -/
def readFixed (s : RW) (acc : Int × Nat) (g : Genus) : Except Exc (List Nat) :=
  if tag2genus acc.2 ≠ g then .error .typeMismatch
  else
    let bytes := s.mem.readBytes (4 * s.pivot + acc.1.toNat) g.preplacedBytes
    if isDiscernible acc.2 ∧ bytes = denilBytes g then .error .fieldAbsent else .ok bytes

/-- getter.h:154-179 `get<GENUS>` of an accessor to a preplaced stretchy field. -/
def readStretchy (s : RW) (acc : Int × Nat) (g : Genus) : Except Exc (Option Val) :=
  if tag2genus acc.2 ≠ g then .error .typeMismatch
  else
    let a := s.pivot + acc.1.toNat / 4
    if (s.mem a).lo ≠ 0 then .ok (readPayload g s.mem (s.start a))
    else if isDiscernible acc.2 then .error .fieldAbsent else .ok (some (.empty g))

end Fptu.Iter
