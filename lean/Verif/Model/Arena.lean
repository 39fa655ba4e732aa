import Mathlib.Tactic.NormNum
/-!
# The arena of short-lived allocations

Model of `allocation_arena` and `short_alloc` (`fast_positive/erthink/erthink_short_alloc.h`). Addresses within the arena are offsets from
its beginning; a block from `operator new` (`ALLOW_OUTLIVE`) is outside and not followed further. Not modelled: the checkpoints and fills
of debug builds, construction of objects.
-/
namespace Fptu.Arena

/-- erthink_short_alloc.h:71-112: the size and the alignment are parameters of the type; `ptr` is the offset of the free space. -/
structure Arena where
  size : Nat
  align : Nat
  ptr : Nat
  deriving DecidableEq

/-- erthink_short_alloc.h:114-116 `align_up` for a power of two; arithmetic modulo 2^64. -/
def alignUp (align n : Nat) : Nat := (n + (align - 1)) % 2 ^ 64 / align * align

/-- Where a block is. -/
inductive Place where
  | inside (offset : Nat)
  /-- `operator new`, or the exception when blocks may not outlive the arena. -/
  | outside
  deriving DecidableEq

/-- erthink_short_alloc.h:180-208 `allocation_arena::allocate`. -/
def allocate (a : Arena) (n : Nat) : Place × Arena :=
  if a.ptr < a.size ∧ alignUp a.align n ≤ a.size - a.ptr then (.inside a.ptr, { a with ptr := a.ptr + alignUp a.align n })
  else (.outside, a)

/-- erthink_short_alloc.h:210-238 `allocation_arena::deallocate` of a block of `n` bytes. -/
def deallocate (a : Arena) (p : Place) (n : Nat) : Arena :=
  match p with
  | .inside o => if o < a.size ∧ o + alignUp a.align n = a.ptr then { a with ptr := o } else a
  | .outside => a

/-- erthink_short_alloc.h:240-245 `used`. -/
def used (a : Arena) : Nat := a.ptr

/-- erthink_short_alloc.h:247-253 `reset`. -/
def reset (a : Arena) : Arena := { a with ptr := 0 }

/-- erthink_short_alloc.h:285-288 `short_alloc::allocate` of `count` objects of `bytes` bytes. -/
def allocateItems (a : Arena) (bytes count : Nat) : Place × Arena := allocate a (count * bytes % 2 ^ 64)

/-- What a client does: take a block, or give back the `i`-th of the blocks it has (the latest is first). -/
inductive Op where
  | take (n : Nat)
  | give (i : Nat)

/-- The arena and the blocks of the client with their sizes. -/
structure Client where
  arena : Arena
  blocks : List (Place × Nat)

/-- One operation of a client. -/
def Client.step (c : Client) : Op → Client
  | .take n => ⟨(allocate c.arena n).2, ((allocate c.arena n).1, n) :: c.blocks⟩
  | .give i => match c.blocks[i]? with
    | some (p, n) => ⟨deallocate c.arena p n, c.blocks.eraseIdx i⟩
    | none => c

/-- A sequence of operations from an empty arena. -/
def run (size align : Nat) (ops : List Op) : Client := ops.foldl Client.step ⟨⟨size, align, 0⟩, []⟩

end Fptu.Arena
