/-!
# Tuple memory

A unit of tuple memory (`unit_t`, 4 bytes, essentials.h) is a `Cell`: two 16-bit halves in address order,
because the index is always accessed as `{ uint16_t offset; uint16_t genus_and_id }` (field.h:409-421) and the
tuple header as `{ uint16_t brutto_units; uint16_t looseitems_flags }` (field.h:161-168). Bytes are derived
(little-endian). Addresses of cells are unit addresses, byte address `k` lies in cell `k / 4`.
-/
namespace Fptu

structure Cell where
  lo : Nat
  hi : Nat
deriving DecidableEq, Repr, Inhabited

abbrev Memory := Nat → Cell

/-- `flat[i] = 0`. -/
def Cell.zero : Cell := ⟨0, 0⟩

namespace Memory

/-- `m[a] = c`. -/
def set (m : Memory) (a : Nat) (c : Cell) : Memory := fun x => if x = a then c else m x

/-- Byte at byte address `k`. -/
def byte (m : Memory) (k : Nat) : Nat :=
  let h := if k % 4 < 2 then (m (k / 4)).lo else (m (k / 4)).hi
  if k % 2 = 0 then h % 256 else h / 256 % 256

/-- Store one byte. -/
def setByte (m : Memory) (k v : Nat) : Memory :=
  let c := m (k / 4)
  let upd := fun h => if k % 2 = 0 then h / 256 * 256 + v else v * 256 + h % 256
  m.set (k / 4) (if k % 4 < 2 then ⟨upd c.lo, c.hi⟩ else ⟨c.lo, upd c.hi⟩)

/-- `memcpy(dst, bytes, n)` from a source that does not overlap the destination. -/
def writeBytes (m : Memory) (k : Nat) : List Nat → Memory
  | [] => m
  | v :: vs => writeBytes (m.setByte k v) (k + 1) vs

/-- The `n` bytes at byte address `k`. -/
def readBytes (m : Memory) (k n : Nat) : List Nat := (List.range n).map fun i => m.byte (k + i)

/-- `memcpy` of whole units. -/
def writeCells (m : Memory) (a : Nat) : List Cell → Memory
  | [] => m
  | c :: cs => writeCells (m.set a c) (a + 1) cs

def readCells (m : Memory) (a n : Nat) : List Cell := (List.range n).map fun i => m (a + i)

end Memory
end Fptu
