import Verif.Model.Compact
/-!
# Automatic growth

Model of `src/autogrowth.cxx:22-227`, `src/managed.cxx:34-63` and of the retry loops of `fast_positive/tuples.h:1329-1392`.

Simplifications: memory allocation always succeeds; a buffer of `n` bytes requested is given with any size `≥ n`. The
assertions on the buffer sizes (autogrowth.cxx:137, 151-152, 170, 181) and `debug_check` are left out; the assertions on which the
movement of the content relies are outcomes `ub`. `overhead` is `tuple_rw::pure_tuple_size()`, `areaUnits` the distance
from the beginning of the object to `area_` in units.
-/
namespace Fptu.Grow
open Fptu.Gear Fptu.Rw Fptu.Audit Fptu.Serial Fptu.Compact

/-- managed.cxx:34-46 `scale2items`, `scale2bytes`. -/
def scales : List (Nat × Nat) :=
  [(32, maxBytesNetto / 256), (128, maxBytesNetto / 64), (512, maxBytesNetto / 16), (2048, maxBytesNetto / 4), (8191, maxBytesNetto)]

/-- managed.cxx:55-63 `estimate_space_for_tuple`. -/
def scaleSpace (overhead preBytes : Nat) (sc : Nat × Nat) : Except Exc Nat :=
  estimate overhead sc.1 (sc.2 - min sc.2 preBytes) preBytes false

/-- autogrowth.cxx:171-180: the size of the first scale that suffices, otherwise the size asked for. -/
def granulate (overhead preBytes space : Nat) : List (Nat × Nat) → Except Exc Nat
  | [] => .ok space
  | sc :: rest =>
    (scaleSpace overhead preBytes sc).bind fun g => if g ≥ space then .ok g else granulate overhead preBytes space rest

/-- What is fixed during the life of a tuple, and which defects are repaired: `guard` the missing checks in `compactify`
(C17), `keepJunk` the junk counters not copied into the new buffer. -/
structure Env where
  overhead : Nat
  areaUnits : Nat
  legacy : Bool
  guard : Bool
  keepJunk : Bool
  srt : List Item → List Item
  σ : Sch
  preBytes : Nat
  image : List Cell

/-- What the allocator provides: the contents of the new memory, and how many bytes more than asked for. -/
structure Supply where
  mem : Memory
  extra : Nat

/-- autogrowth.cxx:78-88 and 158-166: `memmove` of the content by `d` units, and the positions. -/
def shiftBy (s : RW) (d : Int) : RW :=
  { s with mem := s.mem.writeCells (s.head + d).toNat (s.mem.readCells s.head (s.tail - s.head)),
           head := (s.head + d).toNat, pivot := (s.pivot + d).toNat, tail := (s.tail + d).toNat }

/-- autogrowth.cxx:51-76: how far the content is moved within the buffer to have `i` free index slots and `n` free units at
the end. -/
def shiftOf (s : RW) (i n : Nat) : Int :=
  let unallocated := s.lim - (s.tail - s.head)
  let indexUsed := s.pivot - s.head + i
  let dataUsed := s.tail - s.pivot + n
  let whole := indexUsed + dataUsed
  if i > s.head then
    (max i (min ((unallocated * indexUsed + whole - 1) / whole) (unallocated - n)) : Nat) - s.head
  else if n > s.lim - s.tail then
    -((max n (min (unallocated * dataUsed / whole) (unallocated - i)) : Nat) - ((s.lim - s.tail : Nat) : Int))
  else 0

/-- autogrowth.cxx:42-94: make room within the buffer. -/
def shiftPath (E : Env) (i n : Nat) (s : RW) : Out Unit :=
  (compactifyWith E.guard E.srt E.σ s).bind fun _ s =>
  if s.jv + s.jc ≠ 0 ∨ s.lim - (s.tail - s.head) < i + n then .ub
  else
    let d := shiftOf s i n
    if (s.tail : Int) + n + d > s.lim ∨ (s.head : Int) - i + d < 0 then .ub
    else .ok () (shiftBy s d)

/-- autogrowth.cxx:116-128: the space for data (in bytes) and the number of index slots of the new buffer. -/
def growthData (s : RW) (n : Nat) : Nat :=
  min maxBytesNetto (if n > s.lim - s.tail then 4 * ((n + (s.lim - s.pivot)) * 2) else 4 * (s.lim - s.pivot + 42))
def growthIndex (s : RW) (i : Nat) : Nat :=
  min Audit.maxFields (if i > s.head ∨ s.head + s.head < s.pivot then (i + s.pivot) * 2 else s.pivot)

/-- autogrowth.cxx:183-199: copy the content into a new buffer of `size` bytes. A position outside of the new buffer is `ub`. -/
def transfer (E : Env) (S : Supply) (index size : Nat) (s : RW) : Out Unit :=
  match construct E.overhead S.mem size index E.preBytes E.image with
  | .error e => .exc e s
  | .ok t =>
    if t.pivot < s.pivot - s.head ∨ t.lim < t.pivot + (s.tail - s.pivot) then .ub
    else .ok () { t with
      head := t.pivot - (s.pivot - s.head), tail := t.pivot + (s.tail - s.pivot),
      mem := t.mem.writeCells (t.pivot - (s.pivot - s.head)) (s.mem.readCells s.head (s.tail - s.head)),
      jc := if E.keepJunk then s.jc else t.jc, jv := if E.keepJunk then s.jv else t.jv }

/-- autogrowth.cxx:139-167: `realloc`. `growth_space % unit_size` is 0, so the new `end_` is the difference
`new_legacy_buffer - area_`, converted to `unsigned`. -/
def reallocLegacy (E : Env) (S : Supply) (index size : Nat) (s : RW) : Out Unit :=
  let lim := min (65534 : Int) ((size % 4 : Nat) - (E.areaUnits : Int))
  let t := { s with mem := fun u => if u < (size - 4 * E.areaUnits) / 4 ∧ u < s.lim then s.mem u else S.mem u
                    lim := (lim % 4294967296).toNat }
  if index > t.pivot then
    if t.tail + (index - t.pivot) > t.lim then .ub else .ok () (shiftBy t (index - t.pivot : Nat))
  else .ok () t

/-- autogrowth.cxx:97-200: a new buffer. -/
def growPath (E : Env) (S : Supply) (i n : Nat) (s : RW) : Out Unit :=
  ((if s.tail - s.head + (i + n) ≥ 65535 ∨ s.jv + s.jc + (s.jv + s.jc) > s.tail - s.head then compactifyWith E.guard E.srt E.σ s
    else .ok () s : Out Unit)).bind fun _ s =>
  match estimate E.overhead (growthIndex s i) (growthData s n) E.preBytes false with
  | .error e => .exc e s
  | .ok space =>
    if E.legacy then reallocLegacy E S (growthIndex s i) space s
    else match granulate E.overhead E.preBytes space scales with
      | .error e => .exc e s
      | .ok size => transfer E S (growthIndex s i) (size + S.extra) s

/-- autogrowth.cxx:22-200 `manage_space_deficit`, called with the deficit of `i` index slots and `n` units of data. -/
def manage (E : Env) (S : Supply) (i n : Nat) (s : RW) : Out Unit :=
  if s.tail - s.head - (s.jv + s.jc) + (i + n) ≥ 65535 ∨ i > Audit.maxFields ∨ n > maxBytesNetto then .exc .tupleOverflow s
  else if i + n ≤ s.jv + s.jc + (s.lim - (s.tail - s.head)) then shiftPath E i n s
  else growPath E S i n s

/-- autogrowth.cxx:202-345, tuples.h:1329-1392: a modification `op` is repeated after every growth. At most `rounds`
attempts are made; `none` means that the loop has not ended by then. -/
def managed {α : Type} (E : Env) (S : Nat → Supply) (op : RW → Out α) : (rounds : Nat) → RW → Option (Out α)
  | 0, _ => none
  | k + 1, s => match op s with
    | .exc (.insufficientSpace i n) s' => match manage E (S k) i n s' with
      | .ok _ t => managed E S op k t
      | .exc e t => some (.exc e t)
      | .ub => some .ub
    | r => some r

end Fptu.Grow
