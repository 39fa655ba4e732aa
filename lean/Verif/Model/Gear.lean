import Verif.Model.Cells
import Verif.Model.Tags
/-!
# The space allocator of a modifiable tuple

Model of `src/gear.cxx` (class `gear`) on the state of `tuple_rw` (`fast_positive/tuples/details/rw.h:192-262`).

Layout (unit addresses in `area_`): `[head, pivot)` the index of loose fields, `[pivot, pivot + pre)` the
preplaced area (`pre` = `schema_->preplaced_units()`), `[pivot + pre, tail)` the payload, `[tail, lim)` free.

An index cell holds `lo` = relative offset (in units, from the cell itself) or an inplaced value, `hi` =
`genus_and_id`. A hole is an index cell of genus 31; its identifier is the size of the gap in units.

Conventions:
* `junk_.count`/`junk_.volume` are 16-bit and wrap (`add16`, `sub16`), relative offsets are 16-bit and wrap.
* `head_`, `tail_` are plain natural numbers; the code never lets them underflow in valid states.
* `hole_set_units(n)` with `n > 2047` violates the assertion of `make_hole` (essentials.h:331) and is outcome `ub`
  (in a release build the word wraps and the hole turns into a live field, see `holeWordWrapped`).
* Scanning beyond the index is outcome `ub` as well.
-/
namespace Fptu.Gear

/-- `tuple_rw` (rw.h:212-262). -/
structure RW where
  mem : Memory
  head : Nat
  pivot : Nat
  pre : Nat
  tail : Nat
  lim : Nat
  jc : Nat
  jv : Nat

/-- First unit after the preplaced area. -/
@[reducible] def RW.base (s : RW) : Nat := s.pivot + s.pre

/-- Result of an operation: value and state, a C++ exception and the state left behind, undefined behaviour. -/
inductive Out (α : Type) where
  | ok (a : α) (s : RW)
  | exc (e : Exc) (s : RW)
  | ub

def Out.bind {α β : Type} (o : Out α) (f : α → RW → Out β) : Out β :=
  match o with
  | .ok a s => f a s
  | .exc e s => .exc e s
  | .ub => .ub

def add16 (a b : Nat) : Nat := (a + b) % 65536
/-- `a -= uint16_t(b)`. -/
def sub16 (a b : Nat) : Nat := (a + 65536 - b % 65536) % 65536

/-- `loose_genus_and_id_t(make_hole(n))` (field.h:432-434, essentials.h:330-335) as computed in a release build. -/
def holeWordWrapped (n : Nat) : Nat := (63488 + n) % 65536
/-- The same for `n ≤ 2047`. -/
def holeWord (n : Nat) : Nat := 63488 + n

/-- field.h:423-431 `is_hole`, `hole_get_units`. -/
@[reducible] def Cell.isHole (c : Cell) : Prop := c.hi / 2048 = 31
@[reducible] def Cell.units (c : Cell) : Nat := c.hi % 2048
@[reducible] def RW.isHole (s : RW) (a : Nat) : Prop := Cell.isHole (s.mem a)
@[reducible] def RW.units (s : RW) (a : Nat) : Nat := Cell.units (s.mem a)
/-- field.h:377-381 `payload()` and 435-438 `hole_begin()`. -/
@[reducible] def RW.start (s : RW) (a : Nat) : Nat := a + (s.mem a).lo
/-- field.h:439 `hole_end()`. -/
@[reducible] def RW.holeEnd (s : RW) (a : Nat) : Nat := s.start a + s.units a

def RW.setCell (s : RW) (a : Nat) (c : Cell) : RW := { s with mem := s.mem.set a c }
def RW.setHi (s : RW) (a h : Nat) : RW := s.setCell a ⟨(s.mem a).lo, h⟩
def RW.setLo (s : RW) (a l : Nat) : RW := s.setCell a ⟨l, (s.mem a).hi⟩
/-- field.h:386-392 `set_payload`. -/
def RW.setPayload (s : RW) (a p : Nat) : RW := s.setLo a ((p + 65536 - a) % 65536)
/-- field.h:359-367 `add_delta`, `sub_delta`. -/
def RW.addDelta (s : RW) (a d : Nat) : RW := s.setLo a (add16 (s.mem a).lo d)
def RW.subDelta (s : RW) (a d : Nat) : RW := s.setLo a (sub16 (s.mem a).lo d)
/-- field.h:445-452 `hole_purge`. -/
def RW.purge (s : RW) (a : Nat) : RW := s.setCell a ⟨0, holeWord 0⟩
/-- field.h:432-434 `hole_set_units`. -/
def RW.setUnits (s : RW) (a n : Nat) : Out Unit :=
  if n > 2047 then .ub else .ok () (s.setHi a (holeWord n))

/-- Specification of `details::lookup` (its implementations are the subject of C03): the first index entry with the
given word. -/
def lookupFrom (m : Memory) (word e : Nat) (a : Nat) : Option Nat :=
  if a < e then (if (m a).hi = word then some a else lookupFrom m word e (a + 1)) else none
termination_by e - a
def RW.lookup (s : RW) (word : Nat) : Option Nat := lookupFrom s.mem word s.pivot s.head

/-- gear.cxx:97-114 `best_fit` (32-bit unsigned excess wraps). -/
def bestFit (s : RW) (need : Nat) (left : Option Nat) (right : Nat) : Nat :=
  match left with
  | none => right
  | some l =>
    let el := (s.units l + 2 ^ 32 - need) % 2 ^ 32
    let er := (s.units right + 2 ^ 32 - need) % 2 ^ 32
    if el < er then l else if el > er then right else if s.start l < s.start right then l else right

/-- The loops `for (scan = begin_index(); left_holes > 0; ++scan)` of gear.cxx:132-146 and 157-167: visit holes in
index order until `junk_.count` of them were seen; `none` when the scan leaves the index. -/
def scanHoles {σ : Type} (s : RW) (f : σ → Nat → σ) : (scan left : Nat) → σ → Option σ
  | scan, left, acc =>
    if left = 0 then some acc
    else if scan < s.pivot then
      (if s.isHole scan then scanHoles s f (scan + 1) (left - 1) (f acc scan)
       else scanHoles s f (scan + 1) left acc)
    else none
termination_by scan => s.pivot - scan

/-- gear.cxx:116-147 `lookup_hole<exactly_size>`; the outer `Option` is the assertion of `make_hole`. -/
def lookupExact (s : RW) (n : Nat) : Option (Option Nat) :=
  if s.jc < 1 ∨ s.jv < n then some none else if n > 2047 then none else some (s.lookup (holeWord n))

/-- gear.cxx:116-147 `lookup_hole<best_fit>` for `units > 0`; the outer `Option` is the `ub` of the scan. -/
def lookupBest (s : RW) (need : Nat) : Option (Option Nat) :=
  if s.jc < 1 ∨ s.jv < need then some none
  else scanHoles s (fun acc a => if s.units a ≥ need then some (bestFit s need acc a) else acc) s.head s.jc none

/-- gear.cxx:149-168 `lookup_adjacent_holes`. -/
def lookupAdjacent (s : RW) (b e : Nat) : Option (Option Nat × Option Nat) :=
  scanHoles s (fun (ba : Option Nat × Option Nat) a =>
    if s.units a ≠ 0 then
      (if s.holeEnd a = b then some a else ba.1, if e = s.start a then some a else ba.2)
    else ba) s.head s.jc (none, none)

/-- gear.cxx:170-207 `trim_hole`; the hole to drop is at the head. (The code tests `head_ == pivot_`.) -/
def trim (s : RW) : RW :=
  let s1 : RW := { s with jc := sub16 s.jc 1, head := s.head + 1 }
  if s1.head < s1.pivot then
    if ¬ s1.isHole s1.head then s1
    else if s1.units s1.head = 0 then trim s1
    else if s1.holeEnd s1.head ≠ s1.tail then s1
    else trim { s1 with jv := sub16 s1.jv (s1.units s1.head), tail := s1.tail - s1.units s1.head }
  else s1
termination_by s.pivot - s.head
decreasing_by all_goals simp_all +zetaDelta; omega

/-- `if (hole == begin_index()) trim_hole(hole)`. -/
def trimIf (s : RW) (a : Nat) : RW := if a = s.head then trim s else s

/-- gear.cxx:209-216 `tail_alloc`. -/
def tailAlloc (s : RW) (units : Nat) : Out Nat :=
  if s.lim - s.tail < units then .exc (.insufficientSpace 0 units) s
  else .ok s.tail { s with tail := s.tail + units }

/-- gear.cxx:218-233 `index_alloc`. -/
def indexAlloc (s : RW) (notify : Nat) : Out Nat :=
  match (if s.jc > 0 then s.lookup (holeWord 0) else none) with
  | some h => .ok h { s with jc := sub16 s.jc 1 }
  | none =>
    if s.head < 1 then .exc (.insufficientSpace 1 notify) s
    else .ok (s.head - 1) { s with head := s.head - 1 }

/-- gear.cxx:235-259 `alloc_data(units, hole)`: start of the allocated chunk. -/
def allocDataAt (s : RW) (units : Nat) (hole : Option Nat) : Out Nat :=
  match hole with
  | none => tailAlloc s units
  | some h =>
    let s1 : RW := { s with jv := sub16 s.jv units }
    let excess := s.units h - units
    let chunk := s.start h
    if excess = 0 then .ok chunk (trimIf (s1.purge h) h)
    else (RW.setUnits (s1.addDelta h units) h excess).bind fun _ s2 => .ok chunk s2

/-- gear.cxx:74-77 `alloc_data(units)`. -/
def allocData (s : RW) (units : Nat) : Out Nat :=
  match lookupBest s units with
  | none => .ub
  | some h => allocDataAt s units h

/-- gear.cxx:261-305 `alloc_loose`. The code at line 300 moves the remaining hole by `excess`; the parameter
`fixed` replaces it by `units` (as line 252 does). The model of the code is `fixed = false`. -/
def allocLooseWith (fixed : Bool) (s : RW) (tag units : Nat) : Out Nat :=
  if units = 0 then
    (indexAlloc s 0).bind fun a s => .ok a (s.setCell a ⟨0, tag % 65536⟩)
  else
    match lookupBest s units with
    | none => .ub
    | some none =>
      if s.lim - s.tail < units then .exc (.insufficientSpace 1 units) s
      else (indexAlloc s units).bind fun a s =>
        let s := (s.setHi a (tag % 65536)).setPayload a s.tail
        .ok a { s with tail := s.tail + units }
    | some (some h) =>
      let excess := s.units h - units
      if excess = 0 then
        .ok h (RW.setHi { s with jv := sub16 s.jv units, jc := sub16 s.jc 1 } h (tag % 65536))
      else
        (indexAlloc s units).bind fun a s =>
          let s := (s.setHi a (tag % 65536)).setPayload a (s.start h)
          (RW.setUnits (s.addDelta h (if fixed then units else excess)) h excess).bind fun _ s =>
            .ok a { s with jv := sub16 s.jv units }

/-- gear.cxx:307-329 `merge_holes`. -/
def mergeHoles (s : RW) (first second : Nat) : Out Nat :=
  let units := s.units first + s.units second
  if first ≠ s.head then
    (s.setUnits first units).bind fun _ s => .ok first (trimIf (s.purge second) second)
  else
    (RW.setUnits (s.subDelta second (s.units first)) second units).bind fun _ s =>
      .ok second (trim (s.purge first))

/-- gear.cxx:331-364 `release_loose`. -/
def releaseLoose (s : RW) (a units : Nat) : Out Unit :=
  let s := { s with jc := add16 s.jc 1 }
  if units = 0 then .ok () (trimIf (s.purge a) a)
  else
    (s.setUnits a units).bind fun _ s =>
    let s := { s with jv := add16 s.jv units }
    match lookupAdjacent s (s.start a) (s.holeEnd a) with
    | none => .ub
    | some (before, after) =>
      (match before with
        | some b => mergeHoles s b a
        | none => .ok a s).bind fun r s =>
      (match after with
        | some c => mergeHoles s r c
        | none => .ok r s).bind fun r s =>
      if s.holeEnd r ≠ s.tail then .ok () s
      else
        let u := s.units r
        let s := { s with tail := s.tail - u, jv := sub16 s.jv u }
        .ok () (trimIf (s.purge r) r)

/-- gear.cxx:366-429 `release_data` with the neighbours and an optional empty hole. -/
def releaseDataAt (s : RW) (chunk units : Nat) (before after hole0 : Option Nat) : Out (Option Nat) :=
  if chunk + units = s.tail then
    let s := { s with tail := s.tail - units }
    match before with
    | some b =>
      let u := s.units b
      let s := { s with tail := s.tail - u, jv := sub16 s.jv u }
      .ok none (trimIf (s.purge b) b)
    | none => .ok none s
  else
    let s := { s with jv := add16 s.jv units }
    match before, after with
    | some b, none => (s.setUnits b (units + s.units b)).bind fun _ s => .ok (some b) s
    | some b, some c =>
      (s.setUnits b (units + s.units b)).bind fun _ s =>
        (mergeHoles s b c).bind fun r s => .ok (some r) s
    | none, some c =>
      let s1 := s.subDelta c units
      (s1.setUnits c (units + s1.units c)).bind fun _ s => .ok (some c) s
    | none, none =>
      (match hole0 with
        | some h => Out.ok h s
        | none => (indexAlloc s 0).bind fun h s => .ok h { s with jc := add16 s.jc 1 }).bind fun h s =>
      (s.setUnits h units).bind fun _ s => .ok (some h) (s.setPayload h chunk)

/-- gear.cxx:85-90 `release_data(chunk, units)`. -/
def releaseData (s : RW) (chunk units : Nat) : Out Unit :=
  match lookupAdjacent s chunk (chunk + units) with
  | none => .ub
  | some (b, a) => (releaseDataAt s chunk units b a none).bind fun _ s => .ok () s

/-- gear.cxx:534-565: the block `release_and_alloc` of `realloc_data`. -/
def releaseAndAlloc (s : RW) (ref have_ needed : Nat) (before after hole4release hole4alloc : Option Nat) : Out Nat :=
  (releaseDataAt s (s.start ref) have_ before after hole4release).bind fun h4r s =>
  (match hole4alloc with
    | some h =>
      if h ≥ s.head ∧ s.units h ≠ 0 then Out.ok (some (bestFit s needed h4r h)) s
      else match lookupBest s needed with
        | none => Out.ub
        | some h => Out.ok h s
    | none => match lookupBest s needed with
        | none => Out.ub
        | some h => Out.ok h s).bind fun h4a s =>
  (allocDataAt s needed h4a).bind fun p s => .ok p (s.setPayload ref p)

/-- gear.cxx:489-491: `hole ? hole->hole_get_units() : 0`. -/
def optUnits (s : RW) (o : Option Nat) : Nat := match o with | some x => s.units x | none => 0

/-- gear.cxx:431-631 `realloc_data`: `ref` is the address of the cell with the relative offset. The test at line 591
compares the beginning of the released chunk with the end of the data; the parameter `fixed` makes it compare the end
of the chunk. The model of the code is `fixed = false`. -/
def reallocDataWith (fixed : Bool) (s : RW) (ref have_ needed : Nat) : Out Nat :=
  if s.jv = 0 then
    if s.start ref + have_ = s.tail then
      if have_ < needed ∧ s.lim - s.tail < needed - have_ then .exc (.insufficientSpace 0 needed) s
      else .ok (s.start ref) { s with tail := s.tail - have_ + needed }
    else if needed > have_ then
      if s.lim - s.tail < needed ∨ s.head + s.jc < 1 then .exc (.insufficientSpace 1 needed) s
      else (indexAlloc s needed).bind fun h s =>
        (s.setUnits h have_).bind fun _ s =>
        let s := s.setPayload h (s.start ref)
        let s := { s with jc := add16 s.jc 1, jv := add16 s.jv have_ }
        (tailAlloc s needed).bind fun p s => .ok p (s.setPayload ref p)
    else
      (indexAlloc s needed).bind fun h s =>
        (s.setUnits h (have_ - needed)).bind fun _ s =>
        let s := s.setPayload h (s.start ref + needed)
        .ok (s.start ref) { s with jc := add16 s.jc 1, jv := add16 s.jv (have_ - needed) }
  else
    match lookupAdjacent s (s.start ref) (s.start ref + have_) with
    | none => .ub
    | some (before, after) =>
      let adjacent := optUnits s before + optUnits s after
      if have_ < needed ∧ have_ + adjacent ≥ needed then
        releaseAndAlloc s ref have_ needed before after none none
      else
        let hole4release := if adjacent > 0 ∨ s.head > 0 then none else (lookupExact s 0).join
        if ¬ (adjacent > 0 ∨ s.head > 0 ∨ hole4release.isSome) then
          match lookupExact s needed with
          | none => .ub
          | some (some h) =>
            let chunk := s.start ref
            let s1 := s.setPayload ref (s.start h)
            let s2 := s1.setPayload h chunk
            (s2.setUnits h have_).bind fun _ s3 =>
            let s3 := { s3 with jv := (s3.jv + (65536 + have_ - needed)) % 65536 }
            if (if fixed then chunk + have_ else chunk) = s3.tail then
              let s4 := { s3 with tail := s3.tail - have_, jv := sub16 s3.jv have_ }
              let s5 := trimIf (s4.purge h) h
              .ok (s5.start ref) s5
            else .ok (s3.start ref) s3
          | some none =>
            if s.start ref + have_ = s.tail then
              if have_ < needed ∧ s.lim - s.tail < needed - have_ then .exc (.insufficientSpace 1 needed) s
              else .ok (s.start ref) { s with tail := s.tail - have_ + needed }
            else .exc (.insufficientSpace 1 needed) s
        else if have_ > needed ∨ needed ≤ s.lim - s.tail then
          releaseAndAlloc s ref have_ needed before after hole4release none
        else
          match lookupBest s needed with
          | none => .ub
          | some (some h) => releaseAndAlloc s ref have_ needed before after hole4release (some h)
          | some none => .exc (.insufficientSpace 0 needed) s

end Fptu.Gear
