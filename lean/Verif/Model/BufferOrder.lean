import Verif.Model.Buffer
/-!
# The reference counter of a shared buffer and the order of memory accesses

`Model/Buffer.lean` lets every thread see the newest value of `ref_counter`.  Here the counter is a single memory
location of the C++ memory model: it has a modification order, a plain (`volatile`) load may see any modification not
older than what the thread already knows, and the `__sync_*` operations are read-modify-writes with a full barrier.  In
addition every access of an owner to the bytes of the buffer is an event, and each thread carries the set of events that
happen before its current position.

Simplified: the counter does not wrap around (`C26_counter_overflow` is about that); a reference is passed from one
thread to another by a synchronizing hand-over.
-/
namespace Fptu.BufferOrder
open Fptu.Buffer (upd)

/-- Position of a thread inside `buffer::detach` (buffer.cxx:167-206); at `drown` and `repay` the flag tells whether the
thread came there through the atomic decrement (lines 173-181). -/
inductive Pc where
  | idle
  | start
  | dec
  | drown (counted : Bool)
  | repay (counted : Bool)
deriving DecidableEq, Repr

/-- The system.  `val i` is the value of `ref_counter` (buffer.h:336) after its `i`-th modification, `last` the newest
one, `rel i` the events that happen before whoever synchronizes with it.  `seen t` is the newest modification known to
thread `t`, `know t` the events that happen before the current position of `t`.  Events are numbered from 0 to
`events - 1`. -/
structure Sys where
  val : Nat → Int
  rel : Nat → Nat → Bool
  last : Nat
  seen : Nat → Nat
  know : Nat → Nat → Bool
  events : Nat
  held : Nat → Nat
  pc : Nat → Pc
  freed : Nat

inductive Action where
  /-- `add_reference`, buffer.cxx:151-165 -/
  | addRef
  /-- pass an owned reference to thread `u` -/
  | give (u : Nat)
  /-- an owner reads or writes the bytes of the buffer -/
  | use
  /-- `is_alterable`, buffer.h:433-435: an owner loads the counter and sees modification `k` -/
  | look (k : Nat)
  /-- enter `detach` with one owned reference -/
  | detach
  /-- the next step of `detach`; its load of the counter (line 172) sees modification `k` -/
  | run (k : Nat)
deriving DecidableEq, Repr

/-- `__sync_fetch_and_add`/`__sync_sub_and_fetch` (buffer.cxx:159, 178): reads the newest modification, appends one, full
barrier. -/
def rmw (t : Nat) (d : Int) (s : Sys) : Sys :=
  let w := fun e => s.know t e || s.rel s.last e
  { s with
    val := upd s.val (s.last + 1) (s.val s.last + d)
    rel := upd s.rel (s.last + 1) w
    last := s.last + 1
    seen := upd s.seen t (s.last + 1)
    know := upd s.know t w }

/-- A plain load of `ref_counter` that sees modification `k`.  The code has no barrier there (`acq = false`); with
`acq = true` the load is an acquire operation, as any load is on x86. -/
def load (acq : Bool) (t k : Nat) (s : Sys) : Sys :=
  { s with
    seen := upd s.seen t k
    know := if acq then upd s.know t (fun e => s.know t e || s.rel k e) else s.know }

/-- One step of thread `t`; `none` when the action is not available to it. -/
def step (acq : Bool) (t : Nat) (a : Action) (s : Sys) : Option Sys :=
  match a with
  | .addRef =>
    if s.pc t = .idle ∧ 0 < s.held t then
      some { rmw t 1 s with held := upd s.held t (s.held t + 1) }
    else none
  | .give u =>
    if s.pc t = .idle ∧ 0 < s.held t ∧ t ≠ u then
      some { s with
        held := upd (upd s.held t (s.held t - 1)) u (s.held u + 1)
        seen := upd s.seen u (max (s.seen u) (s.seen t))
        know := upd s.know u (fun e => s.know u e || s.know t e) }
    else none
  | .use =>
    if s.pc t = .idle ∧ 0 < s.held t then
      some { s with
        events := s.events + 1
        know := upd s.know t (fun e => s.know t e || e == s.events) }
    else none
  | .look k =>
    if s.pc t = .idle ∧ 0 < s.held t ∧ s.seen t ≤ k ∧ k ≤ s.last then some (load acq t k s) else none
  | .detach =>
    if s.pc t = .idle ∧ 0 < s.held t then
      some { s with held := upd s.held t (s.held t - 1), pc := upd s.pc t .start }
    else none
  | .run k =>
    match s.pc t with
    | .idle => none
    | .start => -- buffer.cxx:172
      if s.seen t ≤ k ∧ k ≤ s.last then
        some { load acq t k s with pc := upd s.pc t (if s.val k ≠ 1 then .dec else .drown false) }
      else none
    | .dec => -- buffer.cxx:173-181
      some { rmw t (-1) s with pc := upd s.pc t (if s.val s.last - 1 > 0 then .idle else .drown true) }
    | .drown c => -- buffer.cxx:113-119, 183
      some { s with pc := upd s.pc t (.repay c) }
    | .repay _ => -- buffer.cxx:184-205
      some { s with freed := s.freed + 1, pc := upd s.pc t .idle }

/-- buffer.cxx:121-149 `init`: one reference, owned by thread 0, not yet shown to any other thread. -/
def initial : Sys :=
  { val := fun _ => 1, rel := fun _ _ => false, last := 0, seen := fun _ => 0, know := fun _ _ => false, events := 0,
    held := fun t => if t = 0 then 1 else 0, pc := fun _ => .idle, freed := 0 }

end Fptu.BufferOrder
