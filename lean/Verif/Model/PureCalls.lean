import Verif.Model.Accessor
/-!
# Calls of functions declared pure

`erthink_defs.h:382-395` `__pure_function` is `__attribute__((__pure__))` for GCC: "no effects except the return value", so the compiler may
leave out a call whose result is not used, may use the result of an earlier equal call again, and may keep what it knows of the memory
across the call. `rw.h:1038` declares `tuple_rw::remove(token)` so, which the header's `erase(token)` (rw.h:1083-1087) calls inline,
and `rw.h:1281-1284` declares `is_present(token)` so.

The model is the contract of the attribute and not a particular version of the compiler: every execution which the contract allows is an
execution here. Tokens are those of loose fields; a removal that throws ends the program and is not modelled.
-/
namespace Fptu.Rw
open Fptu.Gear

/-- What a caller does: removes a field and looks at the result or not, asks whether a field is present, or does anything else
that may change the tuple (a call of a function not declared pure). -/
inductive Stmt where
  | remove (tag : Nat) (used : Bool)
  | present (tag : Nat)
  | other (f : RW → RW)

/-- A result which the compiler knows: of a removal (`true`) or of a question (`false`), for a token. -/
abbrev Known := List (Bool × Nat × Bool)

/-- The executions of a program, from a tuple and what the compiler knows to the results the caller sees and the tuple afterwards;
`declared`: whether `remove` is declared pure, as rw.h:1038 does. `is_present` is (rw.h:1281-1284). -/
inductive Runs (declared : Bool) : RW → Known → List Stmt → List Bool → RW → Prop
  | done {s : RW} {k : Known} : Runs declared s k [] [] s
  | ask {s t : RW} {k : Known} {tag : Nat} {rest : List Stmt} {seen : List Bool}
      (h : Runs declared s ((false, tag, isPresent s tag) :: k) rest seen t) :
      Runs declared s k (.present tag :: rest) (isPresent s tag :: seen) t
  | askAgain {s t : RW} {k : Known} {tag : Nat} {b : Bool} {rest : List Stmt} {seen : List Bool} (hk : (false, tag, b) ∈ k)
      (h : Runs declared s k rest seen t) : Runs declared s k (.present tag :: rest) (b :: seen) t
  | remove {s s' t : RW} {k : Known} {tag n : Nat} {used : Bool} {rest : List Stmt} {seen : List Bool} (e : eraseLoose s tag = .ok n s')
      (h : Runs declared s' (if declared then (true, tag, decide (0 < n)) :: k else []) rest seen t) :
      Runs declared s k (.remove tag used :: rest) (if used then decide (0 < n) :: seen else seen) t
  | removeAgain {s t : RW} {k : Known} {tag : Nat} {b used : Bool} {rest : List Stmt} {seen : List Bool} (hd : declared = true)
      (hk : (true, tag, b) ∈ k) (h : Runs declared s k rest seen t) :
      Runs declared s k (.remove tag used :: rest) (if used then b :: seen else seen) t
  | leaveOut {s t : RW} {k : Known} {tag : Nat} {rest : List Stmt} {seen : List Bool} (hd : declared = true)
      (h : Runs declared s k rest seen t) : Runs declared s k (.remove tag false :: rest) seen t
  | other {s t : RW} {k : Known} {f : RW → RW} {rest : List Stmt} {seen : List Bool} (h : Runs declared (f s) [] rest seen t) :
      Runs declared s k (.other f :: rest) seen t

end Fptu.Rw
