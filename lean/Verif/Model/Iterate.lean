import Verif.Model.Schema
/-!
# Iteration over fields

Model of `loose_iterator_ro` (ro.h:33-238), `field_iterator_ro` (ro.h:240-516, ro.cxx:61-183), `collection_iterator_ro` and
`collection_ro` (getter.h:431-548, 589-606), `collection_iterator_rw` (rw.h:874-1012).

A tuple is given as in `Gear.RW` by its memory, the first unit of the index (`head`) and the pivot; read-only tuples have the same
layout. An iterator over fields is the distance in bytes of its `field_` from `pivot_` (an `Int`: negative for loose fields); an
iterator over loose fields is the address of an index unit (an `Int`, since the end is one before the index).
The schema is an `Option`; `none` as result is undefined behaviour.
-/
namespace Fptu.Iter
open Fptu Fptu.Gear Fptu.Schemas

/-- tablets.cxx:164-212 `field_preplaced::is_null(tag)` at the distance `pos` from the pivot. -/
def nullAt (s : RW) (pos : Nat) (tag : Nat) : Bool :=
  let g := tag2genus tag
  (!g.isFixed || isDiscernible tag) &&
    decide (s.mem.readBytes (4 * s.pivot + pos) g.preplacedBytes = Rw.denilBytes g)

/-- ro.cxx:163-176: the loop of `begin` over the preplaced tokens; `pos` is the position of the iterator, the first token of
the list is `ident`. -/
def beginLoop (s : RW) (pos : Nat) : List Nat → Int
  | [] => -4
  | t :: ts =>
    if nullAt s pos t then
      match ts with
      | [] => -4
      | t' :: _ => beginLoop s (tag2offset t') ts
    else pos

/-- ro.cxx:153-183 `field_iterator_ro::begin`. The assertion that the first preplaced field is at offset 0 is not relied on by
the code that follows: it goes on with the position 0. -/
def beginPos (s : RW) : Option Sc → Int
  | some c => if c.npre ≠ 0 then beginLoop s 0 (c.tokens.take c.npre) else -4
  | none => -4

/-- ro.h:345-349 `field_iterator_ro::end`. -/
def endPos (s : RW) : Int := 4 * ((s.head : Int) - 1 - s.pivot)

/-- ro.cxx:84-99: the loop of `operator++` in the preplaced area; the fuel is the number of rounds, `none` stands for not
stopping. -/
def nextLoop (s : RW) (c : Sc) : Nat → Int → Option Int
  | 0, _ => none
  | n + 1, offset =>
    let t := nextByOffset c offset
    if t = 0 || !isPreplaced t then some (-4)
    else if !nullAt s (tag2offset t) t then some (tag2offset t)
    else nextLoop s c n (tag2offset t)

/-- ro.cxx:79-109 `field_iterator_ro::operator++`. -/
def next (s : RW) (sch : Option Sc) (pos : Int) : Option Int :=
  if pos ≥ 0 then
    match sch with
    | none => none
    | some c => nextLoop s c (c.npre + 1) pos
  else some (pos - 4)

/-- ro.cxx:131-148: the loop of `operator--` in the preplaced area. -/
def prevLoop (s : RW) (c : Sc) : Nat → Int → Option Int
  | 0, _ => none
  | n + 1, offset =>
    match prevByOffset c offset with
    | none => none
    | some t =>
      if t = 0 || !isPreplaced t then none
      else if tag2offset t = 0 then some 0
      else if !nullAt s (tag2offset t) t then some (tag2offset t)
      else prevLoop s c n (tag2offset t)

/-- ro.cxx:111-151 `field_iterator_ro::operator--`. -/
def prev (s : RW) (sch : Option Sc) (pos : Int) : Option Int :=
  if pos < 0 then
    if pos + 4 ≠ 0 then some (pos + 4)
    else match sch with
      | none => none
      | some c => if c.image.length = 0 then some 0 else prevLoop s c (c.npre + 1) c.image.length
  else match sch with
    | none => none
    | some c => if pos = 0 then none else prevLoop s c (c.npre + 1) pos

/-- ro.h:464-467, 470-473 (field iterator), 485-499 of getter.h and rw.h (collections): the postfix operators are `const`: they
return the moved copy and leave the iterator where it is. The result is (returned, new value of the iterator). -/
def postNext (s : RW) (sch : Option Sc) (pos : Int) : Option (Int × Int) := (next s sch pos).map fun p => (p, pos)

/-- `for (auto it = begin; it != end; ++it)`: the positions visited. -/
def forward (s : RW) (sch : Option Sc) : Nat → Int → Option (List Int)
  | n, pos =>
    if pos = endPos s then some []
    else match n with
      | 0 => none
      | n + 1 => (next s sch pos).bind fun p => (forward s sch n p).map (pos :: ·)

/-- `for (auto it = end; it != begin;) { --it; … }`: the positions visited. -/
def backward (s : RW) (sch : Option Sc) : Nat → Int → Option (List Int)
  | n, pos =>
    if pos = beginPos s sch then some []
    else match n with
      | 0 => none
      | n + 1 => (prev s sch pos).bind fun p => (backward s sch n p).map (p :: ·)

/-- ro.h:351-362 `compare` (the result has its sign). -/
def comparePos (a b : Int) : Int :=
  (if a ≥ 0 then a else (maxTupleBytesNetto : Int) - a) - (if b ≥ 0 then b else (maxTupleBytesNetto : Int) - b)

/-! ### Iterators over loose fields -/

/-- ro.h:598-603 `cbegin_loose`, `cend_loose`. -/
def looseBegin (s : RW) : Int := (s.pivot : Int) - 1
def looseEnd (s : RW) : Int := (s.head : Int) - 1
/-- ro.h:181-184, 189-192, 197-204, 205-208: `++`, `--`, `+=`, `-=`, `-`. -/
def looseInc (a : Int) : Int := a - 1
def looseDec (a : Int) : Int := a + 1
def looseAdd (a n : Int) : Int := a - n
def looseSub (a n : Int) : Int := a + n
def looseDiff (a b : Int) : Int := b - a
/-- ro.h:148-178: `a < b`, `a <= b`. -/
def looseLt (a b : Int) : Bool := decide (a > b)
def looseLe (a b : Int) : Bool := decide (a ≥ b)
/-- ro.h:185-188, 193-196: postfix `++`, `--`: (returned, new value of the iterator). -/
def loosePostInc (a : Int) : Int × Int := (looseDec a, a)
def loosePostDec (a : Int) : Int × Int := (looseInc a, a)
/-- ro.h:80-95 `operator[]`: the index unit and the descriptor of the token of the accessor; `*` is `[0]`. -/
def looseAt (s : RW) (a n : Int) : Nat × Nat := ((a - n).toNat, (s.mem a.toNat).hi)

/-! ### Collections -/

/-- getter.h:488-495, 526-547 and rw.h:917-925: a loop over the collection from `field`; `none` stands for a violated assertion. -/
def collectFrom (s : RW) (word : Nat) : Nat → Option Nat → Option (List Nat)
  | _, none => some []
  | 0, some _ => none
  | n + 1, some a => if a < s.pivot then (collectFrom s word n (Rw.nextEntry s word a)).map (a :: ·) else none

/-- getter.h:589-599 `collect`, and a loop over it: the index units visited. -/
def collection (s : RW) (tag : Nat) : Except Exc (Option (List Nat)) :=
  if !isLooseCollection tag then .error .collectionRequired
  else .ok (collectFrom s (tag2gid tag) (s.pivot - s.head + 1) (s.lookup (tag2gid tag)))

/-- getter.h:601-606 `have` of a collection: `!collect().empty()`. -/
def haveCollection (s : RW) (tag : Nat) : Bool := (s.lookup (tag2gid tag)).isSome

end Fptu.Iter
