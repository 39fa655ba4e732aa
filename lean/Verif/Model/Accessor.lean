import Verif.Model.TupleRW

/-!
# Accessors and iterators over collections of a modifiable tuple

`tuple[token]` returns an accessor: a pointer to the field together with the token. The value is read and assigned
through it without a new lookup. An iterator over a collection is an accessor which can be advanced. Here are the ones
of loose fields; an accessor of a preplaced field keeps the address of the field, which never changes, so its
operations are those by token (`setField`, `getPreplacedFixed`, `getPreplacedStretchy`, `erasePreplacedAt`).
-/
namespace Fptu
namespace Rw
open Fptu.Gear

/-- rw.h:368-375 `accessor_rw`, getter.h:104-113 `accessor_ro`: the index entry (`none`: null pointer) and the token. -/
structure Acc where
  field : Option Nat
  tag : Nat
deriving DecidableEq

/-- getter.h:579-586 `at` for loose tokens (rw.h:1015-1018). -/
def Acc.at (s : RW) (tag : Nat) : Except Exc Acc :=
  if isLooseCollection tag then .error .collectionUnallowed
  else .ok ⟨s.lookup (tag2gid tag), tag⟩

/-- rw.h:1319-1442 `assign_field_value` of a loose field. -/
def assignLoose (F : Fix) (s : RW) (tag : Nat) (field : Option Nat) (g : Genus) (v : Val) : Out (Option Nat) :=
  if g.isFixed then assignLooseFixed F s tag field g v else assignStretchy F s tag field g v

/-- rw.h:1505-1511 `accessor_rw::assign<GENUS>`: the accessor takes the field which `assign_field_value` returns; it is
left alone by an exception. -/
def Acc.assign (F : Fix) (s : RW) (acc : Acc) (g : Genus) (v : Val) : Out Acc :=
  (assignLoose F s acc.tag acc.field g v).bind fun r s => .ok { acc with field := r } s

/-- getter.h:123-179 `accessor_ro::get<GENUS>`, without the asserts. -/
def Acc.get (s : RW) (acc : Acc) (g : Genus) : Except Exc (Option Val) := getEntry s acc.tag g acc.field

/-- getter.h:212-217 `accessor_ro::exist` of a loose field. -/
def Acc.exist (acc : Acc) : Bool := acc.field.isSome

/-- getter.h:601-606 `have`, 665-670, rw.h:1280-1284, rw.cxx:107, ro.cxx:268 `is_present(token)`: whether a collection is not
empty (getter.h:540-545), whether the accessor of any other field says that the field exists. -/
def isPresent (s : RW) (tag : Nat) : Bool :=
  if isPreplaced tag then preplacedExist s tag else (s.lookup (tag2gid tag)).isSome

/-- rw.h:1513-1528 `accessor_rw::remove` of a loose field; a null pointer violates the assert. -/
def Acc.remove (s : RW) (acc : Acc) : Out Acc :=
  match acc.field with
  | none => .ub
  | some a =>
    if a ≥ s.pivot ∨ cellGenus (s.mem a) ≠ tag2genus acc.tag then .exc .indexCorrupted s
    else (eraseEntry s a).bind fun _ s => .ok { acc with field := none } s

/-- rw.h:1021-1028 `collect`, 1004 `begin`: an iterator at the first value of the collection. -/
def Acc.begin (s : RW) (tag : Nat) : Except Exc Acc :=
  if isLooseCollection tag then .ok ⟨s.lookup (tag2gid tag), tag⟩ else .error .collectionRequired

/-- rw.h:919-926 `collection_iterator_rw::operator++()` and scan.h:92-98 `next`: a null pointer stays null, an entry
after the end of the index violates the assert. -/
def Acc.advance (s : RW) (it : Acc) : Option Acc :=
  match it.field with
  | none => some it
  | some a => if a < s.pivot then some { it with field := nextEntry s (tag2gid it.tag) a } else none

/-- rw.h:927-931, getter.h:495-499 `operator++(int) const`: the pair of the iterator afterwards and the result. The
operator makes a copy, advances the copy and returns it; the iterator itself stays. -/
def Acc.postAdvance (s : RW) (it : Acc) : Option (Acc × Acc) := (it.advance s).map fun r => (it, r)

/-- rw.cxx:118-124 `erase(iterator)`: `operator*() const` makes a copy, so that the iterator keeps its pointer. -/
def Acc.erase (s : RW) (it : Acc) : Out Bool :=
  if it.exist then (it.remove s).bind fun _ s => .ok true s else .ok false s

/-- One round of the loop below at the entry `a`: the position after `++it`. -/
def updateOne (F : Fix) (s : RW) (tag a : Nat) (g : Genus) (f : Option Val → Val) : Out (Option Nat) :=
  if a < s.pivot then
    match getEntry s tag g (some a) with
    | .error e => .exc e s
    | .ok old =>
      (assignLoose F s tag (some a) g (f old)).bind fun r s =>
        .ok (match r with
          | none => none
          | some b => nextEntry s (tag2gid tag) b) s
  else .ub

/-- The loop `for (auto it = c.begin(); it != c.end(); ++it) (*it).set_X(f((*it).get_X()))` of a user; `operator*()` of a
modifiable iterator (rw.h:935) is a reference to the iterator itself. An exception ends the loop. When the assignment
removes the value, the iterator becomes null, that is equal to `end()`, and `++it` leaves it so. The test in the last
line always succeeds for values of fixed size (`C67_update_partial` shows that the loop is never undefined behaviour). -/
def updateAll (F : Fix) (s : RW) (tag : Nat) (field : Option Nat) (g : Genus) (f : Option Val → Val) : Out Unit :=
  match field with
  | none => .ok () s
  | some a =>
    match updateOne F s tag a g f with
    | .ub => .ub
    | .exc e s' => .exc e s'
    | .ok none s' => .ok () s'
    | .ok (some c) s' => if h : s'.pivot - c < s.pivot - a then updateAll F s' tag (some c) g f else .ub
termination_by s.pivot - field.getD 0
decreasing_by exact h

end Rw
end Fptu
