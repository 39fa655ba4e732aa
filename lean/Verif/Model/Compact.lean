import Verif.Model.Serial
/-!
# Optimisation of a mutable tuple: compaction and sorting of the index

Model of `gear::compactify` (src/gear.cxx:685-875), `gear::sort` (877-953) and `tuple_rw::optimize` (985-1002).

* `std::sort` is any function that returns a sorted permutation (parameter `srt`, see `Sorter`).
* A violated assertion of `relative_offset::payload`, `add_delta`, `set_payload` (field.h:359-392) is outcome `ub`.
* The counters `moveable_count`, which only size the vector, and the on-stack arena are not modelled. The assertion
  `dst > area_` at line 791 fails in debug builds for valid tuples (`dropsFirstUnit`), nothing relies on it.
* `guard` adds the missing `have_payload` checks (lines 784 and 835); the model of the code is `guard = false`.
* `presized` is the defect of line 923 (the vector is created with `index_size()` items and then as many are appended);
  the model of the code is `presized = true`.
-/
namespace Fptu.Compact
open Fptu.Gear Fptu.Rw

/-- gear.cxx:775-787: the first pass of `compactify` over the `n` lowest index entries, from the highest down. `d` is the
entry above the one to be filled next. The result is the memory and the new begin of the index. -/
def squeeze (guard : Bool) (head : Nat) : (n : Nat) → Memory → (d : Nat) → Option (Memory × Nat)
  | 0, m, d => some (m, d)
  | n + 1, m, d =>
    let src := head + n
    if Cell.isHole (m src) then squeeze guard head n m d
    else if src = d - 1 then squeeze guard head n m (d - 1)
    else if (cellGenus (m src)).isInplaced then squeeze guard head n (m.set (d - 1) (m src)) (d - 1)
    else if (m src).lo = 0 ∧ guard then squeeze guard head n (m.set (d - 1) (m src)) (d - 1)
    else if (m src).lo ≤ d - 1 - src then none
    else squeeze guard head n (m.set (d - 1) ⟨(m src).lo - (d - 1 - src), (m src).hi⟩) (d - 1)

/-- gear.cxx:685-752 `compact_item`: a chunk of payload and the cell that refers to it. -/
structure Item where
  start : Nat
  len : Nat
  ref : Nat
deriving DecidableEq, Repr

/-- gear.cxx:712-729: the chunk of an index entry. -/
def looseItem (m : Memory) (a : Nat) : Item := ⟨a + (m a).lo, fieldUnits m (cellGenus (m a)) a, a⟩

/-- gear.cxx:841-846: chunks of the index entries, from the highest down. -/
def looseItems (m : Memory) (head : Nat) : Nat → List Item
  | 0 => []
  | n + 1 =>
    if ¬ (cellGenus (m (head + n))).isInplaced ∧ (m (head + n)).lo ≠ 0 then looseItem m (head + n) :: looseItems m head n
    else looseItems m head n

/-- gear.cxx:829-838: chunks of the stretchy preplaced fields. The code has no `have_payload` check: `none`. -/
def preItems (guard : Bool) (σ : Sch) (m : Memory) (pivot : Nat) : Nat → Option (List Item)
  | 0 => some []
  | k + 1 =>
    match σ k with
    | none => preItems guard σ m pivot k
    | some g =>
      if (m (pivot + k)).lo = 0 then (if guard then preItems guard σ m pivot k else none)
      else (preItems guard σ m pivot k).map (⟨pivot + k + (m (pivot + k)).lo, fieldUnits m g (pivot + k), pivot + k⟩ :: ·)

/-- gear.cxx:634-683 `overlapped_copy`: ascending copy (up to 16 units) or `memmove`. -/
def copyUp (m : Memory) (dst src : Nat) : Nat → Memory
  | 0 => m
  | n + 1 => copyUp (m.set dst (m src)) (dst + 1) (src + 1) n

/-- gear.cxx:856-869: move every chunk down to `d`. -/
def moveChunks : List Item → Memory → (d : Nat) → Option (Memory × Nat)
  | [], m, d => some (m, d)
  | i :: is, m, d =>
    if i.start < d then none
    else if i.start = d then moveChunks is m (d + i.len)
    else if (m i.ref).lo ≤ i.start - d then none
    else moveChunks is (copyUp (m.set i.ref ⟨(m i.ref).lo - (i.start - d), (m i.ref).hi⟩) d i.start i.len) (d + i.len)

/-- `std::sort` by the start of the chunk (gear.cxx:850-853). -/
def Sorter (srt : List Item → List Item) : Prop :=
  ∀ l, (srt l).Perm l ∧ (srt l).Pairwise fun a b => a.start ≤ b.start

/-- gear.cxx:768-797 (first pass). -/
def dropHoles (guard : Bool) (s : RW) : Out Unit :=
  if s.jc = 0 then .ok () s
  else match squeeze guard s.head (s.pivot - s.head) s.mem s.pivot with
    | none => .ub
    | some (m, _) => .ok () { s with mem := m, head := s.head + s.jc, jc := 0 }

/-- gear.cxx:799-874 (second pass). -/
def closeGaps (guard : Bool) (srt : List Item → List Item) (σ : Sch) (s : RW) : Out Unit :=
  if s.jv = 0 then .ok () s
  else match preItems guard σ s.mem s.pivot s.pre with
    | none => .ub
    | some ps =>
      match moveChunks (srt (ps ++ looseItems s.mem s.head (s.pivot - s.head))) s.mem s.base with
      | none => .ub
      | some (m, _) => .ok () { s with mem := m, tail := s.tail - s.jv, jv := 0 }

/-- gear.cxx:757-875 `compactify`. -/
def compactifyWith (guard : Bool) (srt : List Item → List Item) (σ : Sch) (s : RW) : Out Unit :=
  (dropHoles guard s).bind fun _ s => closeGaps guard srt σ s

/-- The assertion of gear.cxx:791 fails: after the first pass `dst` points before the buffer. -/
def dropsFirstUnit (s : RW) : Prop := s.jc ≠ 0 ∧ s.head + s.jc ≤ 1

/-! ## Sorting the index -/

/-- gear.cxx:879-906 `sort_item`: `genus_and_id`, and the inplaced value or the payload relative to the begin of the index. -/
def sortItem (s : RW) (a : Nat) : Cell :=
  ⟨if (cellGenus (s.mem a)).isInplaced ∨ (s.mem a).lo = 0 then (s.mem a).lo else s.start a - s.head, (s.mem a).hi⟩

/-- `std::sort` by descending `genus_and_id` (gear.cxx:929-932). -/
def GidSorter (srt : List Cell → List Cell) : Prop :=
  ∀ l, (srt l).Perm l ∧ (srt l).Pairwise fun a b => b.hi ≤ a.hi

/-- gear.cxx:935-942: write the descriptors from address `a` on. -/
def writeIndex (head : Nat) : List Cell → Memory → (a : Nat) → Option Memory
  | [], m, _ => some m
  | c :: cs, m, a =>
    if (cellGenus c).isInplaced ∨ c.lo = 0 then writeIndex head cs (m.set a c) (a + 1)
    else if head + c.lo ≤ a then none
    else writeIndex head cs (m.set a ⟨head + c.lo - a, c.hi⟩) (a + 1)

/-- gear.cxx:914-918 `std::is_sorted` of the index by descending `genus_and_id`. -/
def indexSorted (s : RW) : Bool :=
  (List.range (s.pivot - s.head - 1)).all fun i => decide ((s.mem (s.head + i + 1)).hi ≤ (s.mem (s.head + i)).hi)

/-- gear.cxx:912-953 `sort`; the result tells that iterators are invalidated. Writing beyond the buffer is `ub`. -/
def sortWith (presized : Bool) (srt : List Cell → List Cell) (s : RW) : Out Bool :=
  if indexSorted s then .ok false s
  else
    let n := s.pivot - s.head
    let items := (if presized then List.replicate n ⟨0, 0⟩ else []) ++ (List.range n).map fun i => sortItem s (s.head + i)
    if s.head + items.length > s.lim then .ub
    else match writeIndex s.head (srt items) s.mem s.head with
      | none => .ub
      | some m => .ok true { s with mem := m }

/-- rw.h:1058-1064 `optimize_flags`. -/
structure Flags where
  compactify : Bool
  sortIndex : Bool
  enforceSort : Bool

/-- gear.cxx:985-1002 `optimize` (`is_sorted()` is always false, rw.h:1140-1143). `sort_index_threshold` is 256. -/
def optimizeWith (guard presized : Bool) (srt : List Item → List Item) (gsrt : List Cell → List Cell) (σ : Sch) (fl : Flags)
    (s : RW) : Out Bool :=
  ((if fl.compactify ∧ (s.jc ≠ 0 ∨ s.jv ≠ 0) then
      (compactifyWith guard srt σ s).bind fun _ t => .ok (decide (s.jc > 0)) t
    else .ok false s : Out Bool)).bind fun inv t =>
  if (fl.sortIndex ∧ t.pivot - t.head - t.jc ≥ 256) ∨ fl.enforceSort then
    (sortWith presized gsrt t).bind fun b u => .ok (inv || b) u
  else .ok inv t

end Fptu.Compact
