/-!
# 1Hippeus buffers: reference counting, buffer tags, tagged pointers

Model of `src/1Hippeus/buffer.cxx`, `fast_positive/tuples/1Hippeus/buffer.h` (buffer_tag) and
`fast_positive/tuples/details/tagged_pointer.h`.
-/
namespace Fptu.Buffer

/-! ## Reference counting as an interleaving of atomic steps

Each `step` below is one atomic access to the shared buffer (or a thread-local action); a schedule is
a list of (thread, action).  Interleavings are sequentially consistent; outdated loads and the order
of accesses to the payload are in `Model/BufferOrder.lean`. -/

/-- Position of a thread inside `buffer::detach` (buffer.cxx:167-206). -/
inductive Pc where
  /-- not inside `detach` -/
  | idle
  /-- entered `detach`, about to load `ref_counter` (line 172) -/
  | start
  /-- saw a counter other than one, about to decrement atomically (lines 173-178) -/
  | dec
  /-- about to execute `drown` (line 183) -/
  | drown
  /-- about to hand the buffer back: `::delete local` / `allot->repay` (lines 184-205) -/
  | repay
deriving DecidableEq, Repr

/-- Whole system: the shared counter, how often the buffer was handed back, per thread the number of
references it owns and its position, and a ghost flag set by any access after the hand-back. -/
structure Sys where
  cnt : Int
  freed : Nat
  held : Nat → Nat
  pc : Nat → Pc
  useAfterFree : Bool

/-- Wrap-around of the 32-bit signed atomic counter. -/
def wrap (x : Int) : Int := (x + 2147483648) % 4294967296 - 2147483648

def upd {α : Type} (f : Nat → α) (t : Nat) (x : α) : Nat → α := fun u => if u = t then x else f u

inductive Action where
  | addRef            -- add_reference, buffer.cxx:151-165
  | give (u : Nat)    -- pass an owned reference to thread u (no buffer access)
  | detach            -- enter detach with one owned reference
  | run               -- execute the next atomic step of detach
deriving DecidableEq, Repr

/-- Record an access to the buffer. -/
def touch (s : Sys) : Sys := { s with useAfterFree := s.useAfterFree || decide (s.freed > 0) }

/-- One atomic step of thread `t`; `none` when the action is not available to it. -/
def step (t : Nat) (a : Action) (s : Sys) : Option Sys :=
  match a with
  | .addRef =>
    if s.pc t = .idle ∧ 0 < s.held t then
      some { touch s with cnt := wrap (s.cnt + 1), held := upd s.held t (s.held t + 1) }
    else none
  | .give u =>
    if s.pc t = .idle ∧ 0 < s.held t ∧ t ≠ u then
      some { s with held := upd (upd s.held t (s.held t - 1)) u (s.held u + 1) }
    else none
  | .detach =>
    if s.pc t = .idle ∧ 0 < s.held t then
      some { s with held := upd s.held t (s.held t - 1), pc := upd s.pc t .start }
    else none
  | .run =>
    match s.pc t with
    | .idle => none
    | .start => -- buffer.cxx:172
      some { touch s with pc := upd s.pc t (if s.cnt ≠ 1 then .dec else .drown) }
    | .dec => -- buffer.cxx:173-180
      some { touch s with
        cnt := wrap (s.cnt - 1),
        pc := upd s.pc t (if wrap (s.cnt - 1) > 0 then .idle else .drown) }
    | .drown => -- buffer.cxx:113-119
      some { touch s with cnt := -1, pc := upd s.pc t .repay }
    | .repay => -- buffer.cxx:184-205
      some { touch s with freed := s.freed + 1, pc := upd s.pc t .idle }

/-- buffer.cxx:121-149 `init`: one reference, owned by thread 0. -/
def initial : Sys :=
  { cnt := 1, freed := 0, held := fun t => if t = 0 then 1 else 0, pc := fun _ => .idle,
    useAfterFree := false }

/-! ## buffer_tag, buffer.h:175-297 (64-bit platform) -/

def flagsBits : Nat := 4
def allotBits : Nat := 28
def depotBits : Nat := 16
def crateBits : Nat := 16
def allotShift : Nat := flagsBits
def depotShift : Nat := allotShift + allotBits
def crateShift : Nat := depotShift + depotBits
def flagsMask : Nat := 2 ^ flagsBits - 1
def allotMask : Nat := 2 ^ allotBits - 1
def depotMask : Nat := 2 ^ depotBits - 1
def crateMask : Nat := 2 ^ crateBits - 1
/-- buffer.h hippeus_buffer_flags: READONLY, LOCALWEAK. -/
def flagReadonly : Nat := 1
def flagLocalweak : Nat := 2

/-- buffer.h:224-237 constructor from identifiers. -/
def mkTag (allot depot crate flags : Nat) : Nat :=
  flags ||| allot <<< allotShift ||| depot <<< depotShift ||| crate <<< crateShift

/-- buffer.h:217-222 constructor from a local allotter address. -/
def mkLocalTag (ptr : Nat) (readonly : Bool) : Nat :=
  ptr ||| (if readonly then flagLocalweak ||| flagReadonly else flagLocalweak)

/-- buffer.h:239-284 accessors. -/
def tagFlags (t : Nat) : Nat := t &&& flagsMask
def tagAllot (t : Nat) : Nat := (t >>> allotShift) &&& allotMask
def tagDepot (t : Nat) : Nat := (t >>> depotShift) &&& depotMask
def tagCrate (t : Nat) : Nat := (t >>> crateShift) &&& crateMask
/-- `opacity_.uint & ~FLAGS_MASK`. -/
def tagLocalAllot (t : Nat) : Nat := t &&& (2 ^ 64 - 1 - flagsMask)
def tagTest (t mask : Nat) : Bool := mask &&& t ≠ 0

/-- buffer.h:424-432 `is_readonly`, `is_localweak`, `is_warpable` of a buffer whose tag is `t`. -/
def isReadonly (t : Nat) : Bool := t &&& flagReadonly ≠ 0
def isLocalweak (t : Nat) : Bool := t &&& flagLocalweak ≠ 0
def isWarpable (t : Nat) : Bool := t &&& (flagLocalweak ||| flagReadonly) = 0

/-! ## Tagged pointers, tagged_pointer.h -/

/-- tagged_pointer.h:31-125 narrow: 4 tag bits kept in the low bits, but stored shifted by `bits`. -/
def narrowMake (ptr tag : Nat) : Nat := ptr ||| (tag <<< 4) % 2 ^ 64
def narrowTag (b : Nat) : Nat := b &&& 15
def narrowPtr (b : Nat) : Nat := b &&& (2 ^ 64 - 1 - 15)
def narrowSetPtr (b ptr : Nat) : Nat := (b &&& 15) ||| ptr
def narrowSetTag (b tag : Nat) : Nat := (b &&& (2 ^ 64 - 1 - 15)) ||| (tag <<< 4) % 2 ^ 64

/-- tagged_pointer.h:129-235 wide: 16 tag bits read from the top, but stored shifted by `bits`. -/
def wideMake (ptr tag : Nat) : Nat := ptr ||| (tag <<< 16) % 2 ^ 64
def wideTag (b : Nat) : Nat := b >>> 48
def widePtr (b : Nat) : Nat := b &&& (2 ^ 48 - 1)
def wideSetPtr (b ptr : Nat) : Nat := (b &&& (2 ^ 64 - 2 ^ 48)) ||| ptr
def wideSetTag (b tag : Nat) : Nat := (b &&& (2 ^ 48 - 1)) ||| (tag <<< 16) % 2 ^ 64

end Fptu.Buffer
