import Mathlib.Logic.Function.Basic
/-!
# Probing and prefaulting memory

Model of `probe_pages` and `prefault_oomsafe` (`src/1Hippeus/utils.cxx:175-194, 237-271`), which deep checks of buffers use
(`src/1Hippeus/buffer.cxx:71-72, 108-109`). Memory is a function from addresses to bytes. Simplified: offsets are natural numbers,
that is, the length and one step together are below 2^63.
-/
namespace Fptu.Pages

abbrev Mem := Nat → Nat

/-- utils.cxx:184-189: compare and swap of one byte. -/
def cas (m : Mem) (a old new : Nat) : Mem := if m a = old then Function.update m a new else m

/-- utils.cxx:178-193: the loop of `probe_pages` from `offset` on. `env t` is what other threads do to the memory at the moment `t`: before
each load, and between the load and the exchange. The result: the addresses accessed, and the memory. -/
def probeLoop (rw : Bool) (env : Nat → Mem → Mem) (addr bytes step offset t : Nat) (m : Mem) : List Nat × Mem :=
  if h : offset < bytes ∧ 0 < step then
    let m1 := env t m
    let probe := m1 (addr + offset)
    let m2 := env (t + 1) m1
    let m3 := if rw then cas m2 (addr + offset) probe probe else m2
    let r := probeLoop rw env addr bytes step (offset + step) (t + 2) m3
    ((addr + offset) :: r.1, r.2)
  else ([], m)
termination_by bytes - offset

/-- utils.cxx:175-194 `probe_pages`. `none`: the loop never ends. `bytes` is signed. -/
def probePages (rw : Bool) (env : Nat → Mem → Mem) (addr : Nat) (bytes : Int) (step : Nat) (m : Mem) : Option (List Nat × Mem) :=
  if 0 < bytes ∧ step = 0 then none else some (probeLoop rw env addr bytes.toNat step 0 0 m)

/-- utils.cxx:253-259: one vector of at most `limit` bytes, and the offset after it. -/
def batch (addr bytes step : Nat) : Nat → Nat → List Nat × Nat
  | 0, offset => ([], offset)
  | n + 1, offset =>
    if offset < bytes then
      let r := batch addr bytes step n (offset + step)
      ((addr + offset) :: r.1, r.2)
    else ([], offset)

theorem batch_ge (addr bytes step n offset : Nat) : offset ≤ (batch addr bytes step n offset).2 := by
  induction n generalizing offset with
  | zero => exact Nat.le_refl _
  | succ n ih =>
    unfold batch
    split
    · have := ih (offset + step)
      show offset ≤ (batch addr bytes step n (offset + step)).2
      omega
    · exact Nat.le_refl _

/-- utils.cxx:251-266: the loop of `prefault_oomsafe` from `offset` on. `writev` tells whether the system accepts the vector (`none`) or which
error it reports. The result: the vectors passed, and the error left in `errno` if the function returns -1. `efault`, `enomem`: the
numbers of these errors. -/
def prefaultLoop (writev : List Nat → Option Nat) (efault enomem limit addr bytes step offset : Nat) : List (List Nat) × Option Nat :=
  if h : offset < bytes ∧ 0 < step ∧ 0 < limit then
    let b := batch addr bytes step limit offset
    match writev b.1 with
    | some e => ([b.1], some (if e = efault then enomem else e))
    | none =>
      let r := prefaultLoop writev efault enomem limit addr bytes step b.2
      (b.1 :: r.1, r.2)
  else ([], none)
termination_by bytes - offset
decreasing_by
  obtain ⟨h1, h2, h3⟩ := h
  obtain ⟨n, rfl⟩ := Nat.exists_eq_succ_of_ne_zero (Nat.pos_iff_ne_zero.1 h3)
  have h4 : (batch addr bytes step (n + 1) offset).2 = (batch addr bytes step n (offset + step)).2 := by
    rw [batch, if_pos h1]
  have h5 := batch_ge addr bytes step n (offset + step)
  show bytes - (batch addr bytes step (n + 1) offset).2 < bytes - offset
  omega

/-- utils.cxx:239-271 `prefault_oomsafe`; `fd` is the error of `open`, if it fails. `none`: the loop never ends. Closing is assumed to succeed. -/
def prefault (fd : Option Nat) (writev : List Nat → Option Nat) (efault enomem limit addr : Nat) (bytes : Int) (step : Nat) :
    Option (List (List Nat) × Option Nat) :=
  match fd with
  | some e => some ([], some e)
  | none => if 0 < bytes ∧ step = 0 then none else some (prefaultLoop writev efault enomem limit addr bytes.toNat step 0)

end Fptu.Pages
