import Verif.Model.Audit
import Verif.Model.Compact
/-!
# Compaction when memory runs out

`gear::compactify` (src/gear.cxx:757-875) describes the chunks it has to move in a vector. Up to 2048 bytes come from the arena on the stack
(internal.h:133-138, essentials.h:93, erthink_short_alloc.h:180-208), more from the heap, and the heap may refuse (`std::bad_alloc`).

* `heap` tells which requests, in bytes, the heap fulfils.
* Only this vector is modelled. `gear::sort` fills its vector before it writes to the index.
-/
namespace Fptu.Compact
open Fptu.Gear Fptu.Rw

/-- gear.cxx:774-787: `moveable_count` as the first pass counts it, over the `n` lowest index entries before they move. -/
def counted (m : Memory) (head : Nat) : Nat → Nat
  | 0 => 0
  | n + 1 => counted m head n +
    (if ¬ Cell.isHole (m (head + n)) ∧ ¬ (cellGenus (m (head + n))).isInplaced ∧ (m (head + n)).lo ≠ 0 then 1 else 0)

/-- gear.cxx:800-823: `moveable_count` for the tuple `s` that the first pass made `t`. Without a first pass the entries of the index are counted now
(lines 802-810, the condition is that of `looseItems`); then the stretchy preplaced fields with a payload (lines 811-822). -/
def moveable (σ : Sch) (s t : RW) : Nat :=
  (if s.jc ≠ 0 then counted s.mem s.head (s.pivot - s.head) else (looseItems t.mem t.head (t.pivot - t.head)).length) +
    ((List.range t.pre).filter fun k => (σ k).isSome && decide ((t.mem (t.pivot + k)).lo ≠ 0)).length

/-- gear.cxx:826-827 `vector.reserve(moveable_count)`: items of eight bytes (gear.cxx:685-688) from the arena or the heap. -/
def reserve (heap : Nat → Bool) (n : Nat) : Bool := decide (8 * n ≤ 2048) || heap (8 * n)

/-- gear.cxx:757-875 `compactify`, with the request for memory between its passes. -/
def compactifyHeap (heap : Nat → Bool) (guard : Bool) (srt : List Item → List Item) (σ : Sch) (s : RW) : Out Unit :=
  (dropHoles guard s).bind fun _ t =>
    if t.jv ≠ 0 ∧ reserve heap (moveable σ s t) = false then .exc .badAlloc t
    else closeGaps guard srt σ t

end Fptu.Compact
