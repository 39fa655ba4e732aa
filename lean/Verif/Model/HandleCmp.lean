import Verif.Model.OwnerTuple
/-!
# Comparing handles

Model of the operators `==` and `!=` of the handles (tuples.h:436-447, 564-577, 1132-1150, 1433-1464, rw.h:1198-1203). A weak handle
is its pointer (tuples.h:397-400).
-/
namespace Fptu.Owner
open Fptu.Buffer (upd)

variable {α : Type}

/-- tuples.h:436-439, 564-566, 570-572, 1433-1436: weak and managed read-only handles compare their pointers. -/
def eqRo (p q : Option Ptr) : Bool := decide (p = q)

/-- tuples.h:440-443, 567-569, 573-575, 1437-1440. -/
def neRo (p q : Option Ptr) : Bool := decide (p ≠ q)

/-- tuples.h:1144-1146: two modifiable handles. -/
def eqRw (w : World α) (x y : Nat) : Bool := decide (w.rw x = w.rw y)

/-- tuples.h:1147-1149. -/
def neRw (w : World α) (x y : Nat) : Bool := decide (w.rw x ≠ w.rw y)

/-- rw.h:1198-1200 through tuples.h:1132-1134, 1138-1140, 1441-1444, 1458-1461: a modifiable handle and a read-only one (`p` is its
pointer); `none` is undefined behaviour: a member is accessed through a null pointer, on either side, or in a block that was handed
back. -/
def eqRwRo (C : Contents α) (w : World α) (x : Nat) (p : Option Ptr) : Option Bool :=
  match w.rw x, p with
  | some b, some q =>
    match w.buf b with
    | none => none
    | some B => if B.freed ≠ 0 then none else some (decide (q = ⟨b, C.place B.data⟩))
  | _, _ => none

/-- tuples.h:1135-1137, 1141-1143, 1445-1448, 1462-1464, rw.h:1201-1203. -/
def neRwRo (C : Contents α) (w : World α) (x : Nat) (p : Option Ptr) : Option Bool := (eqRwRo C w x p).map (!·)

/-- tuples.h:841-843, 1416-1420, rw.cxx:627-650 `take_weak_asis`: the header is written, the weak handle points to it. -/
def takeWeak (C : Contents α) (w : World α) (x : Nat) : Out α (Option Ptr) :=
  match w.rw x with
  | none => .ub
  | some b =>
    match w.buf b with
    | none => .ub
    | some B =>
      if B.freed ≠ 0 then .ub else .ok (w.setBuf b { B with data := C.stamp B.data }) (some ⟨b, C.place B.data⟩)

end Fptu.Owner
