import Verif.Model.Owner
import Verif.Model.Serial
/-!
# Blocks that hold tuples

The contents `Model/Owner` leaves open: a modifiable tuple at the beginning of its block (rw.h:211-260).
-/
namespace Fptu.Owner
open Fptu Fptu.Gear Fptu.Rw

/-- A modifiable tuple in its block: the unit `reserve_for_RO_header` in front of the area (rw.h:260) and the tuple, with its schema. -/
structure Image where
  reserve : Cell
  rw : RW
  sch : Option Audit.Schema

/-- Units from `reserve_for_RO_header` on. -/
def Image.unit (a : Image) (u : Nat) : Cell := if u = 0 then a.reserve else a.rw.mem (u - 1)

/-- rw.cxx:627-650 `take_asis`: the header goes into the unit before the index. -/
def Image.stamp (a : Image) : Image :=
  let h := Serial.takeAsis a.sch a.rw 0
  if a.rw.head = 0 then { a with reserve := h } else { a with rw := { a.rw with mem := a.rw.mem.set (a.rw.head - 1) h } }

/-- Places are bytes; `H` is the offset of `reserve_for_RO_header` in the block. -/
def tupleC (H : Nat) : Contents Image where
  place a := H + 4 * a.rw.head
  sizeAt a o := 4 * (a.unit ((o - H) / 4)).lo
  stamp := Image.stamp

/-- getter.h:154-179, 281-283 `get_nested` with a token of a loose field. -/
def nestedOf (H tag : Nat) (a : Image) : Except Err (Option Nat) :=
  if isLooseCollection tag then .error .failed
  else if tag2genus tag ≠ .nested then .error .failed
  else
    match a.rw.lookup (tag2gid tag) with
    | some e => if (a.rw.mem e).lo ≠ 0 then .ok (some (H + 4 * (a.rw.start e + 1))) else
        if isDiscernible tag then .error .failed else .ok none
    | none => if isDiscernible tag then .error .failed else .ok none

/-- The serialized tuple a handle gives access to. -/
def shown (H : Nat) (a : Image) (o : Nat) : List Cell :=
  (List.range (a.unit ((o - H) / 4)).lo).map fun i => a.unit ((o - H) / 4 + i)

end Fptu.Owner
