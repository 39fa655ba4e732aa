import Verif.Lemmas.AuditTuple
import Verif.Model.Serial
import Verif.Model.Compact
/-!
# Tuple handles: validation modes, clones, taking read-only forms

Model of `fast_positive/tuples.h:79-103, 385-560, 838-898`, `src/ro.cxx:189-205`, `src/rw.cxx:782-796`,
`src/managed.cxx:66-276, 304-342, 359-378, 430-483`.

Simplifications: a handle is its contents. A read-only form is a memory whose unit 0 is the header. A managed read-only handle
is its contents together with the modifiable form at the start of its buffer, if the handle starts at that form
(`peek_basis`, managed.cxx:380-403, finds it by comparing addresses); the reference counter of the buffer is reduced to the
flag `alone` (`is_alterable`), its full model is Model/Buffer.lean. Allocation tags are dropped: `compatible` tells whether
the buffer of the source has the requested tag. Allocation does not fail.
-/
namespace Fptu.Handle
open Fptu.Gear Fptu.Rw Fptu.Audit Fptu.Serial Fptu.Compact

deriving instance DecidableEq for Audit.Schema

/-- tuples.h:81-85. -/
inductive Mode where
  | default
  | skip
  | enforce
  deriving DecidableEq

/-- tuples.h:86-96 `apply_validation_mode`. -/
def apply (m : Mode) (byDefault : Bool) : Bool :=
  match m with
  | .default => byDefault
  | .skip => false
  | .enforce => true

/-- tuples.h:98-103 `combine_validation_mode`. -/
def combine (m : Mode) (byDefault : Bool) : Mode :=
  if m ≠ .default then m else if byDefault then .enforce else .skip

/-- ro.cxx:189-205 `make_from_buffer`: the handle refers to the buffer itself; `none` is the null pointer. -/
def makeFromBuffer (ptr : Option Memory) (bytes : Nat) (sch : Option Schema) (skip : Bool) : Except Exc (Option Memory) :=
  match ptr with
  | none => if skip then .ok none else .error .tupleHollow
  | some m =>
    if bytes < 4 then (if skip then .ok none else .error .tupleHollow)
    else if skip then .ok (some m)
    else match auditRo sch m bytes with
      | .pass _ => .ok (some m)
      | .fail _ _ => .error .tupleBad
      | .bug _ => .error .bug

/-- tuples.h:405-408: the constructor of `tuple_ro_weak`. -/
def weak (ptr : Option Memory) (bytes : Nat) (sch : Option Schema) (mode : Mode) : Except Exc (Option Memory) :=
  makeFromBuffer ptr bytes sch (!apply mode true)

/-- rw.cxx:782-796 `create_from_buffer`. A null pointer comes with `bytes = 0` (managed.cxx:127-152). -/
def createFromBuffer (overhead : Nat) (mem : Memory) (src : Memory) (bytes moreItems moreData extra : Nat) (sch : Option Schema) :
    Except Exc RW :=
  match auditRo sch src bytes with
  | .pass st => createFromRo overhead mem st.hc st.hv src moreItems moreData (preBytesOf sch) extra
  | .fail _ _ => .error .tupleBad
  | .bug _ => .error .bug

/-- A managed read-only handle: its contents, and the modifiable form below it with its schema. -/
structure Managed where
  ro : Memory
  basis : Option (RW × Option Schema)

/-- managed.cxx:308-312: `tuple_ro_managed(tuple_rw_fixed &&)`. -/
def ofRw (sch : Option Schema) (t : RW) : Managed := ⟨takeAsis sch t, some (t, sch)⟩

/-- managed.cxx:405-438: the constructor of `tuple_ro_managed` from external data. -/
def managedFrom (overhead : Nat) (mem : Memory) (src : Memory) (bytes extra : Nat) (sch : Option Schema) : Except Exc Managed :=
  (createFromBuffer overhead mem src bytes 0 0 extra sch).map (ofRw sch)

/-- managed.cxx:440-483 `tuple_ro_managed::clone(const tuple_ro_weak &, schema, tag, validation)`. The code validates by default
when no schema is given (`fixed = false`); its comments say the opposite (`fixed = true`). -/
def cloneWeakWith (fixed : Bool) (overhead : Nat) (mem : Memory) (extra : Nat) (src : Option Memory) (sch : Option Schema)
    (mode : Mode) : Except Exc (Option Managed) :=
  match src with
  | none => if sch.isSome then .error .tupleHollow else .ok none
  | some m =>
    if apply mode (if fixed then sch.isSome else sch.isNone) then
      (createFromBuffer overhead mem m (4 * (m 0).lo) 0 0 extra sch).map fun t => some (ofRw sch t)
    else (createFromRo overhead mem 0 0 m 0 0 (preBytesOf sch) extra).map fun t => some (ofRw sch t)

/-- managed.cxx:359-378 `tuple_ro_managed::clone(const tuple_ro_managed &, schema, tag)`. Schemas are compared by address in
the code, here by contents. -/
def cloneManagedWith (fixed : Bool) (overhead : Nat) (mem : Memory) (extra : Nat) (src : Option Managed)
    (sch : Option Schema) (compatible : Bool) : Except Exc (Option Managed) :=
  match src with
  | none => if sch.isSome then .error .tupleHollow else .ok none
  | some h =>
    if compatible ∧ (sch.isNone ∨ (h.basis.bind Prod.snd) = sch) then .ok (some h)
    else cloneWeakWith fixed overhead mem extra (some h.ro) sch .default

/-- managed.cxx:199-226 `tuple_rw_fixed::clone(const tuple_ro_managed &, more_items, more_payload, schema, tag)`. The result
carries its schema. -/
def cloneToRw (overhead : Nat) (mem : Memory) (extra : Nat) (src : Option Managed) (moreItems moreData : Nat)
    (sch : Option Schema) (image : List Cell) : Except Exc (RW × Option Schema) :=
  match src with
  | none => (createNew overhead mem moreItems moreData (preBytesOf sch) extra image).map fun t => (t, sch)
  | some h =>
    match h.basis with
    | some (b, bs) =>
      if bs = sch ∨ sch.isNone then
        (createFromRo overhead mem b.jc b.jv h.ro moreItems moreData (preBytesOf bs) extra).map fun t => (t, bs)
      else (createFromBuffer overhead mem h.ro (4 * (h.ro 0).lo) moreItems moreData extra sch).map fun t => (t, sch)
    | none => (createFromBuffer overhead mem h.ro (4 * (h.ro 0).lo) moreItems moreData extra sch).map fun t => (t, sch)

/-- managed.cxx:228-266 `tuple_rw_fixed(tuple_ro_managed &&)`; `items`, `more` are the entries of `scale2items`, `scale2more` for
the default scale. -/
def moveToRw (overhead : Nat) (mem : Memory) (extra items more : Nat) (src : Option Managed) (alone : Bool) :
    Except Exc (RW × Option Schema) :=
  match src with
  | none => .error .tupleHollow
  | some h =>
    match h.basis with
    | some (b, bs) =>
      if alone then .ok (b, bs)
      else (createFromBuffer overhead mem h.ro (4 * (h.ro 0).lo) items more extra bs).map fun t => (t, bs)
    | none => (createFromBuffer overhead mem h.ro (4 * (h.ro 0).lo) items more extra none).map fun t => (t, none)

/-- rw.h:179-184 `create_copy`, managed.cxx:254-283 `tuple_rw_fixed::clone(const tuple_rw_fixed &)`: with the free space of the
source. -/
def cloneRw (overhead : Nat) (mem : Memory) (extra : Nat) (sch : Option Schema) (s : RW) : Except Exc RW :=
  createFromRo overhead mem s.jc s.jv (takeAsis sch s) (headSpace s) (tailSpaceBytes s) (preBytesOf sch) extra

/-- gear.cxx:985-1002 as called by the functions below: compaction, and sorting of indexes of at least 256 fields. -/
def optimizeAll (srt : List Item → List Item) (gsrt : List Cell → List Cell) (σ : Sch) (s : RW) : Out Bool :=
  optimizeWith false true srt gsrt σ ⟨true, true, false⟩ s

/-- tuples.h:845-849 and rw.cxx:648-653: `take_weak_optimized`. The read-only form refers to the tuple after the optimization. -/
def takeOptimized (srt : List Item → List Item) (gsrt : List Cell → List Cell) (sch : Option Schema) (s : RW) : Out (Memory × Bool) :=
  (optimizeAll srt gsrt (schOf sch) s).bind fun b t => .ok (takeAsis sch t, b) t

/-- tuples.h:851-855 `take_weak(dont_optimize)`. The code optimizes when asked not to; `fixed` is the function its parameter
name describes. -/
def takeWeakWith (fixed : Bool) (srt : List Item → List Item) (gsrt : List Cell → List Cell) (sch : Option Schema) (dont : Bool)
    (s : RW) : Out (Memory × Bool) :=
  if dont ≠ fixed then takeOptimized srt gsrt sch s else .ok (takeAsis sch s, false) s

/-- tuples.h:857-861 `move_to_ro(dont_optimize)`. -/
def moveToRo (srt : List Item → List Item) (gsrt : List Cell → List Cell) (sch : Option Schema) (dont : Bool) (s : RW) : Out Managed :=
  if dont then .ok (ofRw sch s) s else (optimizeAll srt gsrt (schOf sch) s).bind fun _ t => .ok (ofRw sch t) t

/-- ro.h `empty()`: less than two units. -/
def roEmpty (m : Memory) : Bool := (m 0).lo < 2

/-- tuples.h:863-871 `take_managed_clone_asis`. -/
def takeCloneAsis (overhead : Nat) (mem : Memory) (extra : Nat) (sch : Option Schema) (hollowIfEmpty : Bool) (s : RW) :
    Except Exc (Option Managed) :=
  if hollowIfEmpty ∧ roEmpty (takeAsis sch s) then .ok none
  else cloneWeakWith false overhead mem extra (some (takeAsis sch s)) sch .default

/-- tuples.h:873-883 `take_managed_clone_optimized`. -/
def takeCloneOptimized (srt : List Item → List Item) (gsrt : List Cell → List Cell) (overhead : Nat) (mem : Memory) (extra : Nat)
    (sch : Option Schema) (hollowIfEmpty : Bool) (s : RW) : Out (Option Managed × Bool) :=
  (takeOptimized srt gsrt sch s).bind fun p t =>
  match takeCloneAsis overhead mem extra sch hollowIfEmpty t with
  | .ok r => .ok (r, p.2) t
  | .error e => .exc e t

/-- tuples.h:885-894 `take_managed_clone(dont_optimize, hollow_if_empty)`. -/
def takeCloneWith (fixed : Bool) (srt : List Item → List Item) (gsrt : List Cell → List Cell) (overhead : Nat) (mem : Memory) (extra : Nat)
    (sch : Option Schema) (dont hollowIfEmpty : Bool) (s : RW) : Out (Option Managed × Bool) :=
  if dont ≠ fixed then takeCloneOptimized srt gsrt overhead mem extra sch hollowIfEmpty s
  else match takeCloneAsis overhead mem extra sch hollowIfEmpty s with
    | .ok r => .ok (r, false) s
    | .error e => .exc e s

end Fptu.Handle
