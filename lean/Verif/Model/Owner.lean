import Verif.Model.Buffer
/-!
# Handles and the buffers they own

Model of the ownership side of the C++ handles: `tuple_ro_managed` (tuples.h:466-589, managed.cxx:279-378), `tuple_rw_fixed`
(tuples.h:989-1150, managed.cxx:193-243), `tuple_rw_managed` (tuples.h:1166-1190, autogrowth.cxx:130-192), as used by one thread;
several threads sharing one buffer are in `Model/Buffer`. What the tuples contain is a parameter here.
-/
namespace Fptu.Owner
open Fptu.Buffer (wrap upd tagTest flagReadonly)

/-- What the handles need to know about the contents `α` of a buffer. Places are counted from the beginning of the buffer's data;
`place` is where the serialized form of the whole tuple begins (`&area_[head_] - 1`, managed.cxx:372), `sizeAt` the size a tuple
header at a place announces (ro.h:569-571), `stamp` what `take_asis` writes (rw.cxx:627-650). -/
structure Contents (α : Type) where
  place : α → Nat
  sizeAt : α → Nat → Nat
  stamp : α → α

/-- A block of memory: its reference counter, how often it was handed back, its size, the tag of the allocator (zero: plain
`malloc`, no counter, rw.cxx:679-685), and the contents. -/
structure Buf (α : Type) where
  cnt : Int
  freed : Nat
  size : Nat
  tag : Nat
  data : α

/-- A pointer to a serialized tuple: the block and the place in it. -/
structure Ptr where
  block : Nat
  off : Nat
deriving DecidableEq

/-- tuples.h:475-476: the two members of `tuple_ro_managed`. -/
structure Ro where
  pimpl : Option Ptr
  hb : Option Nat
deriving DecidableEq

/-- tuples.h:493: the default constructor. -/
def Ro.hollow : Ro := ⟨none, none⟩

/-- The blocks borrowed so far, and the variables of the program: read-only handles and modifiable ones (their only member is
the pointer to the modifiable form, which lies at the beginning of its block). -/
structure World (α : Type) where
  buf : Nat → Option (Buf α)
  next : Nat
  ro : Nat → Ro
  rw : Nat → Option Nat

/-- No blocks, all variables default-constructed or not yet declared. -/
def World.empty {α : Type} : World α := ⟨fun _ => none, 0, fun _ => .hollow, fun _ => none⟩

/-- The exceptions: ro.cxx:280-290 (three), `tuple_hollow`, everything thrown while a new tuple is built or a field looked up. -/
inductive Err where
  | bufferRequired
  | outOfBuffer
  | noTuple
  | hollow
  | failed
deriving DecidableEq

/-- Result of an operation. `terminate`: an exception leaves a function declared `noexcept`. -/
inductive Out (α β : Type) where
  | ok (w : World α) (x : β)
  | threw (e : Err) (w : World α)
  | terminate
  | ub

def Out.bind {α β γ : Type} (o : Out α β) (f : World α → β → Out α γ) : Out α γ :=
  match o with
  | .ok w x => f w x
  | .threw e w => .threw e w
  | .terminate => .terminate
  | .ub => .ub

variable {α : Type} (C : Contents α)

def World.setBuf (w : World α) (b : Nat) (B : Buf α) : World α := { w with buf := upd w.buf b (some B) }
def World.setRo (w : World α) (x : Nat) (h : Ro) : World α := { w with ro := upd w.ro x h }
def World.setRw (w : World α) (x : Nat) (h : Option Nat) : World α := { w with rw := upd w.rw x h }

/-- buffer.cxx:151-165 `add_reference`; accepts the null pointer. -/
def addRef (w : World α) (hb : Option Nat) : Out α Unit :=
  match hb with
  | none => .ok w ()
  | some b =>
    match w.buf b with
    | none => .ub
    | some B =>
      if B.freed ≠ 0 then .ub
      else if B.cnt ≤ 0 then .ub -- the assert of line 161
      else .ok (w.setBuf b { B with cnt := wrap (B.cnt + 1) }) ()

/-- buffer.cxx:167-206 `detach`; accepts the null pointer. -/
def detach (w : World α) (hb : Option Nat) : Out α Unit :=
  match hb with
  | none => .ok w ()
  | some b =>
    match w.buf b with
    | none => .ub
    | some B =>
      if B.freed ≠ 0 then .ub
      else if B.cnt ≠ 1 then
        if wrap (B.cnt - 1) > 0 then .ok (w.setBuf b { B with cnt := wrap (B.cnt - 1) }) ()
        else .ok (w.setBuf b { B with cnt := -1, freed := B.freed + 1 }) ()
      else .ok (w.setBuf b { B with cnt := -1, freed := B.freed + 1 }) ()

/-- rw.cxx:653-662 the destructor of the modifiable form, called through the deleter that accepts the null pointer. -/
def destroyRw (w : World α) (p : Option Nat) : Out α Unit :=
  match p with
  | none => .ok w ()
  | some b =>
    match w.buf b with
    | none => .ub
    | some B =>
      if B.tag ≠ 0 then detach w (some b)
      else if B.freed ≠ 0 then .ub
      else .ok (w.setBuf b { B with freed := B.freed + 1 }) ()

/-- managed.cxx:279-288 `check_buffer`, ro.cxx:280-290. -/
def check (w : World α) (h : Ro) : Out α Unit :=
  match h.pimpl, h.hb with
  | none, none => .ok w ()
  | some _, none => .threw .bufferRequired w
  | none, some _ => .threw .noTuple w
  | some p, some b =>
    match w.buf p.block, w.buf b with
    | some P, some B =>
      if P.freed ≠ 0 ∨ B.freed ≠ 0 then .ub
      else if p.block = b ∧ p.off + C.sizeAt P.data p.off ≤ B.size then .ok w ()
      else .threw .outOfBuffer w
    | _, _ => .ub

/-- How the construction of a new modifiable form ends: refused before a block is borrowed (validation, estimates), given up
after that, or finished, with the size of the block and the contents. -/
inductive New (α : Type) where
  | refused
  | broken (size : Nat) (junk : α)
  | built (size : Nat) (data : α)

/-- rw.cxx:663-685, 743-771: a block is borrowed with one reference and held by a guard until the tuple is constructed. -/
def make (w : World α) (tag : Nat) (new : New α) : Out α Nat :=
  match new with
  | .refused => .threw .failed w
  | .broken size junk =>
    (destroyRw { w with buf := upd w.buf w.next (some ⟨1, 0, size, tag, junk⟩), next := w.next + 1 } (some w.next)).bind
      fun w _ => .threw .failed w
  | .built size data => .ok { w with buf := upd w.buf w.next (some ⟨1, 0, size, tag, data⟩), next := w.next + 1 } w.next

/-- rw.h:227-232 `get_buffer`. -/
def bufferOf (w : World α) (b : Nat) : Option Nat :=
  match w.buf b with
  | none => none
  | some B => if B.tag ≠ 0 then some b else none

/-! ## tuple_ro_managed -/

/-- tuples.h:494-498 `purge`, also the destructor. -/
def roPurge (w : World α) (x : Nat) : Out α Unit :=
  (detach w (w.ro x).hb).bind fun w _ => .ok (w.setRo x .hollow) ()

/-- managed.cxx:290-295: the constructor from a tuple and a buffer. -/
def roCtor (w : World α) (h : Ro) : Out α Ro :=
  (check C w h).bind fun w _ => (addRef w h.hb).bind fun w _ => .ok w h

/-- tuples.h:542-543: the copying constructor. -/
def roCopy (w : World α) (y : Nat) : Out α Ro := roCtor C w (w.ro y)

/-- managed.cxx:301-305: the constructor from a modifiable tuple moved away. -/
def roOfRw (w : World α) (y : Nat) : Out α Ro :=
  match w.rw y with
  | none => .ub
  | some b =>
    match w.buf b with
    | none => .ub
    | some B =>
      if B.freed ≠ 0 then .ub
      else
        let w := w.setBuf b { B with data := C.stamp B.data }
        let h : Ro := ⟨some ⟨b, C.place B.data⟩, bufferOf w b⟩
        (check C w h).bind fun w _ => .ok (w.setRw y none) h

/-- managed.cxx:311-319: the copying assignment. -/
def roAssign (w : World α) (x y : Nat) : Out α Unit :=
  (check C w (w.ro y)).bind fun w _ =>
    if (w.ro x).hb ≠ (w.ro y).hb then
      (roPurge w x).bind fun w _ =>
        (addRef w (w.ro y).hb).bind fun w _ =>
          let w := w.setRo x { w.ro x with hb := (w.ro y).hb }
          .ok (w.setRo x { w.ro x with pimpl := (w.ro y).pimpl }) ()
    else .ok (w.setRo x { w.ro x with pimpl := (w.ro y).pimpl }) ()

/-- managed.cxx:321-329: the moving assignment. -/
def roMove (w : World α) (x y : Nat) : Out α Unit :=
  (check C w (w.ro y)).bind fun w _ =>
    (roPurge w x).bind fun w _ =>
      let w := w.setRo x (w.ro y)
      .ok (w.setRo y .hollow) ()

/-- managed.cxx:331-336: the moving constructor. -/
def roMoveCtor (w : World α) (y : Nat) : Out α Ro :=
  (check C w (w.ro y)).bind fun w _ => .ok (w.setRo y .hollow) (w.ro y)

/-- The moving assignment from an unnamed handle `h`, which is hollow afterwards. -/
def roMoveTemp (w : World α) (x : Nat) (h : Ro) : Out α Unit :=
  (check C w h).bind fun w _ => (roPurge w x).bind fun w _ => .ok (w.setRo x h) ()

/-- managed.cxx:307-309: the assignment from a modifiable tuple moved away. -/
def roAssignRw (w : World α) (x y : Nat) : Out α Unit :=
  (roOfRw C w y).bind fun w h => roMoveTemp C w x h

/-- tuples.h:555-558 `swap`. -/
def roSwap (w : World α) (x y : Nat) : World α := (w.setRo x (w.ro y)).setRo y (w.ro x)

/-- tuples.h:585-589: `get_nested_managed` of a read-only handle; `find` is the lookup in the tuple: an exception, no value
(`nullptr`, meta.h:539), or the place of the nested tuple. -/
def nestedRo (w : World α) (y : Nat) (find : α → Nat → Except Err (Option Nat)) : Out α Ro :=
  match (w.ro y).pimpl with
  | none => .ub
  | some p =>
    match w.buf p.block with
    | none => .ub
    | some P =>
      if P.freed ≠ 0 then .ub
      else
        match find P.data p.off with
        | .error e => .threw e w
        | .ok r => roCtor C w ⟨r.map fun o => ⟨p.block, o⟩, (w.ro y).hb⟩

/-- tuples.h:665-669: `get_nested_managed` of a modifiable tuple. -/
def nestedRw (w : World α) (y : Nat) (find : α → Except Err (Option Nat)) : Out α Ro :=
  match w.rw y with
  | none => .ub
  | some b =>
    match w.buf b with
    | none => .ub
    | some B =>
      if B.freed ≠ 0 then .ub
      else
        match find B.data with
        | .error e => .threw e w
        | .ok r => roCtor C w ⟨r.map fun o => ⟨b, o⟩, bufferOf w b⟩

/-- tuples.h:537-540: the constructor from a weak handle `p` and the managed handle that owns the buffer. -/
def adopt (w : World α) (p : Option Ptr) (y : Nat) : Out α Ro :=
  roCtor C w ⟨p, match p with | some _ => (w.ro y).hb | none => none⟩

/-- managed.cxx:338-357 `clone(const tuple_ro_managed &, schema, tag)`: `given` tells whether a schema is required, `same` whether
it is the one of the source; a full copy ends as `new` does. -/
def roClone (w : World α) (y : Nat) (given same : Bool) (tag : Nat) (new : New α) : Out α Ro :=
  match (w.ro y).pimpl with
  | none => if given then .threw .hollow w else .ok w .hollow
  | some _ =>
    match (w.ro y).hb.bind w.buf with
    | none => .ub
    | some B =>
      if B.freed ≠ 0 then .ub
      else if B.tag = tag ∧ (given = false ∨ same = true) then roCtor C w (w.ro y)
      else
        (make w tag new).bind fun w b =>
          match w.buf b with
          | none => .ub
          | some N =>
            let w := w.setBuf b { N with data := C.stamp N.data }
            let h : Ro := ⟨some ⟨b, C.place N.data⟩, bufferOf w b⟩
            match check C w h with
            | .ok w _ => .ok w h
            | .threw e w => (destroyRw w (some b)).bind fun w _ => .threw e w -- the temporary `tuple_rw_fixed` is destroyed
            | .terminate => .terminate
            | .ub => .ub

/-! ## tuple_rw_fixed -/

/-- tuples.h:1002-1006 `purge` and the destructor. -/
def rwPurge (w : World α) (x : Nat) : Out α Unit :=
  (destroyRw w (w.rw x)).bind fun w _ => .ok (w.setRw x none) ()

/-- tuples.h:1015-1018: the moving constructor. -/
def rwMoveCtor (w : World α) (y : Nat) : World α × Option Nat := (w.setRw y none, w.rw y)

/-- managed.cxx:232-239: the moving assignment. -/
def rwMove (w : World α) (x y : Nat) : Out α Unit :=
  if w.rw x ≠ w.rw y then
    (rwPurge w x).bind fun w _ =>
      let w := w.setRw x (w.rw y)
      .ok (w.setRw y none) ()
  else .ok w ()

/-- tuples.h:1011-1013 `swap`. -/
def rwSwap (w : World α) (x y : Nat) : World α := (w.setRw x (w.rw y)).setRw y (w.rw x)

/-- managed.cxx:359-381 `peek_basis`: the modifiable form below a read-only handle, recognized by the place of the handle's
tuple. The block always holds a modifiable form here, at its beginning, so the comparisons of lines 366-371 succeed. -/
def peekBasis (w : World α) (h : Ro) : Option Nat :=
  match h.pimpl, h.hb with
  | some p, some b =>
    match w.buf b with
    | none => none
    | some B => if p = ⟨b, C.place B.data⟩ then some b else none
  | _, _ => none

/-- buffer.h:433-435 `is_alterable`. -/
def alterable (B : Buf α) : Bool := decide (B.cnt = 1) && !tagTest B.tag flagReadonly

/-- managed.cxx:193-230: the constructor from a read-only handle moved away; a copy, if needed, ends as `new` does. -/
def rwOfRo (w : World α) (y : Nat) (new : New α) : Out α Nat :=
  match (w.ro y).pimpl with
  | none => .threw .hollow w
  | some _ =>
    match (w.ro y).hb.bind w.buf with
    | none => .ub
    | some B =>
      if B.freed ≠ 0 then .ub
      else
        match (if alterable B then peekBasis C w (w.ro y) else none) with
        | some b => .ok (w.setRo y .hollow) b
        | none =>
          (make w B.tag new).bind fun w b => (roPurge w y).bind fun w _ => .ok w b

/-- managed.cxx:241-243: the assignment from a read-only handle moved away. The unnamed tuple of the right-hand side is moved
(managed.cxx:232-239), its pointer differs from the one of the variable unless both refer to the same block. -/
def rwAssignRo (w : World α) (x y : Nat) (new : New α) : Out α Unit :=
  (rwOfRo C w y new).bind fun w b =>
    if w.rw x ≠ some b then (rwPurge w x).bind fun w _ => .ok (w.setRw x (some b)) ()
    else (destroyRw w (some b)).bind fun w _ => .ok w ()

/-- tuples.h:1175-1176: the constructor of `tuple_rw_managed` from a read-only handle moved away, declared `noexcept`. -/
def rwManagedOfRo (w : World α) (y : Nat) (new : New α) : Out α Nat :=
  match rwOfRo C w y new with
  | .threw _ _ => .terminate
  | o => o

/-- Any modification of the contents, successful or not. -/
def write (w : World α) (x : Nat) (f : α → α) : Out α Unit :=
  match w.rw x with
  | none => .ub
  | some b =>
    match w.buf b with
    | none => .ub
    | some B => if B.freed ≠ 0 then .ub else .ok (w.setBuf b { B with data := f B.data }) ()

/-- autogrowth.cxx:130-192: the move into a larger block, of the same allocator; plain blocks are reallocated (here: keep their
name). -/
def grow (w : World α) (x : Nat) (new : New α) : Out α Unit :=
  match w.rw x with
  | none => .ub
  | some b =>
    match w.buf b with
    | none => .ub
    | some B =>
      if B.freed ≠ 0 then .ub
      else if B.tag = 0 then
        match new with
        | .built size data => .ok (w.setBuf b { B with size := size, data := data }) ()
        | _ => .threw .failed w
      else
        (make w B.tag new).bind fun w n =>
          let w := w.setRw x (some n)
          detach w (some b)

/-! ## Programs -/

/-- What a program does with its variables. The first number is the variable declared, assigned or destroyed. -/
inductive Cmd (α : Type) where
  | rwNew (x tag : Nat) (new : New α)
  | rwMoveCtor (x y : Nat)
  | rwMove (x y : Nat)
  | rwSwap (x y : Nat)
  | rwPurge (x : Nat)
  | rwOfRo (x y : Nat) (new : New α)
  | rwManagedOfRo (x y : Nat) (new : New α)
  | rwAssignRo (x y : Nat) (new : New α)
  | write (x : Nat) (f : α → α)
  | grow (x : Nat) (new : New α)
  | roCopy (x y : Nat)
  | roMoveCtor (x y : Nat)
  | roOfRw (x y : Nat)
  | roAssign (x y : Nat)
  | roMove (x y : Nat)
  | roAssignRw (x y : Nat)
  | roSwap (x y : Nat)
  | roPurge (x : Nat)
  | nestedRo (x y : Nat) (find : α → Nat → Except Err (Option Nat))
  | nestedRw (x y : Nat) (find : α → Except Err (Option Nat))
  | adopt (x : Nat) (p : Option Ptr) (y : Nat)
  | roClone (x y : Nat) (given same : Bool) (tag : Nat) (new : New α)

/-- A constructed read-only handle becomes variable `x`. -/
def declRo (x : Nat) (o : Out α Ro) : Out α Unit := o.bind fun w h => .ok (w.setRo x h) ()
/-- A constructed modifiable tuple becomes variable `x`. -/
def declRw (x : Nat) (o : Out α Nat) : Out α Unit := o.bind fun w b => .ok (w.setRw x (some b)) ()

def step (w : World α) : Cmd α → Out α Unit
  | .rwNew x tag new => declRw x (make w tag new)
  | .rwMoveCtor x y => .ok ((rwMoveCtor w y).1.setRw x (rwMoveCtor w y).2) ()
  | .rwMove x y => rwMove w x y
  | .rwSwap x y => .ok (rwSwap w x y) ()
  | .rwPurge x => rwPurge w x
  | .rwOfRo x y new => declRw x (rwOfRo C w y new)
  | .rwManagedOfRo x y new => declRw x (rwManagedOfRo C w y new)
  | .rwAssignRo x y new => rwAssignRo C w x y new
  | .write x f => write w x f
  | .grow x new => grow w x new
  | .roCopy x y => declRo x (roCopy C w y)
  | .roMoveCtor x y => declRo x (roMoveCtor C w y)
  | .roOfRw x y => declRo x (roOfRw C w y)
  | .roAssign x y => roAssign C w x y
  | .roMove x y => roMove C w x y
  | .roAssignRw x y => roAssignRw C w x y
  | .roSwap x y => .ok (roSwap w x y) ()
  | .roPurge x => roPurge w x
  | .nestedRo x y find => declRo x (nestedRo C w y find)
  | .nestedRw x y find => declRo x (nestedRw C w y find)
  | .adopt x p y => declRo x (adopt C w p y)
  | .roClone x y given same tag new => declRo x (roClone C w y given same tag new)

end Fptu.Owner
