import Verif.Model.Audit
import Verif.Model.Serial
/-!
# The exceptions about damaged tuples

Model of `format_va` and `format` (misc.cxx:51-77), of the constructors of `bad_tuple_ro` and `bad_tuple_rw` (except.cxx:48-86), and of the
functions that throw them: `tuple_rw::ensure` (rw.cxx:43-47), `tuple_rw::reset` (rw.cxx:609-626) and the `reset` of the handles (tuples.h:813), `tuple_ro::make_from_buffer`
(ro.cxx:189-205). Text is a list of bytes. The texts of `%p`, `%zd` are inputs.
-/
namespace Fptu.Message
open Fptu.Gear Fptu.Audit Fptu.Serial

/-- A part of the output of `printf`: text of the format or of a number, or a `%s` with its argument, which may be a null pointer. -/
inductive Piece where
  | lit (text : List Nat)
  | str (p : Option (List Nat))

/-- The whole output. A null pointer for `%s` is undefined behaviour (C11 7.21.6.1, 7.1.4); some libraries print a text for it. -/
def render (nullText : Option (List Nat)) : List Piece → Option (List Nat)
  | [] => some []
  | .lit t :: ps => (render nullText ps).map (t ++ ·)
  | .str p :: ps =>
    match p.or nullText with
    | none => none
    | some t => (render nullText ps).map (t ++ ·)

/-- C11 7.21.6.12 `vsnprintf(dst, n, ..)` for an output `text`: the bytes stored and the result, which is an `int`. -/
def vsnprintf (dst : Nat → Nat) (n : Nat) (text : List Nat) : (Nat → Nat) × Int :=
  if text.length > 2 ^ 31 - 1 then (dst, -1)
  else (fun i =>
      if n = 0 then dst i
      else if i < min text.length (n - 1) then text.getD i 0
      else if i = min text.length (n - 1) then 0
      else dst i,
    text.length)

/-- A `std::string`: `data[0 .. capacity]` is its memory. -/
structure Str where
  size : Nat
  capacity : Nat
  data : Nat → Nat

/-- What `std::string` does when memory is needed: the capacity for a `reserve`, and what was in the memory. -/
structure Lib where
  capacity : Nat → Nat
  junk : Nat → Nat
  nullText : Option (List Nat)

/-- C++ [string.capacity]: at least as much as requested. -/
def Lib.Ok (L : Lib) : Prop := ∀ n, n ≤ L.capacity n

/-- `reserve(n + 1)` and `resize(n, '\0')` of an empty string. -/
def sized (L : Lib) (n : Nat) : Str := ⟨n, L.capacity (n + 1), fun i => if i ≤ n then 0 else L.junk i⟩

/-- misc.cxx:51-70 `format_va`; `none` is undefined behaviour, here also a violated assertion (59, 63, 65). -/
def formatVa (L : Lib) (ps : List Piece) : Option Str :=
  (render L.nullText ps).bind fun text =>
  let needed := (vsnprintf L.junk 0 text).2
  if needed < 0 then none
  else
    let result := sized L needed.toNat
    if ¬ result.capacity > needed.toNat then none
    else
      let out := vsnprintf result.data result.capacity text
      if out.2 ≠ needed then none else some { result with data := out.1 }

/-- The characters of a string. -/
def Str.text (s : Str) : List Nat := (List.range s.size).map s.data

/-- `what()`: a C string, it ends at the first zero. -/
def Str.what (s : Str) : List Nat := s.text.takeWhile (· ≠ 0)

/-- The bytes of a literal. -/
def bytes (s : String) : List Nat := s.toList.map Char.toNat

/-- What becomes of a call: it returns, throws `bad_tuple` with this text, `fptu::bug`, `tuple_hollow`, ends the process, or is undefined. -/
inductive Result (α : Type) where
  | ok (a : α)
  | badTuple (what : List Nat)
  | bug
  | hollow
  | terminated
  | ub

/-- `FPTU_ENSURE(details != nullptr && *details != '\0')` (except.cxx:58, 79), after the message was formatted. -/
def thrown {α : Type} (m : Option Str) (details : Option (List Nat)) : Result α :=
  match m with
  | none => .ub
  | some s =>
    match details with
    | none => .bug
    | some [] => .bug
    | some (c :: _) => if c = 0 then .bug else .badTuple s.what

/-- except.cxx:75-80 `bad_tuple_rw(tuple, details)`; `ptr` is the text of `%p`. -/
def badTupleRw {α : Type} (L : Lib) (ptr : List Nat) (details : Option (List Nat)) : Result α :=
  thrown (formatVa L [.lit (bytes "fptu: Invalid rw-tuple "), .lit ptr, .lit (bytes ": "), .str details]) details

/-- except.cxx:52-59 `bad_tuple_ro(schema, ptr, bytes, details)`. -/
def badTupleRo {α : Type} (L : Lib) (ptr size : List Nat) (details : Option (List Nat)) : Result α :=
  thrown (formatVa L [.lit (bytes "fptu: Invalid ro-tuple {"), .lit ptr, .lit (bytes ":"), .lit size, .lit (bytes "}: "), .str details]) details

/-- rw.cxx:43-47 `ensure`. `audit` is `noexcept`: a failed `FPTU_ENSURE` in it ends the process. -/
def ensureRw (L : Lib) (ptr : List Nat) (sch : Option Schema) (s : RW) : Result Unit :=
  match auditRw sch s with
  | .pass _ => .ok ()
  | .fail m _ => badTupleRw L ptr (some (bytes m))
  | .bug _ => .terminated

/-- rw.cxx:609-626 `reset`, except.cxx:84-85 `bad_tuple_rw(tuple)`: the reason is asked of `audit`. -/
def resetRw (L : Lib) (ptr : List Nat) (sch : Option Schema) (s : RW) (image : List Cell) : Result RW :=
  match reset s image with
  | .ok r => .ok r
  | .error _ =>
    match auditRw sch s with
    | .pass _ => badTupleRw L ptr none
    | .fail m _ => badTupleRw L ptr (some (bytes m))
    | .bug _ => .terminated

/-- tuples.h:813 `reset` of the handles `tuple_rw_fixed` and `tuple_rw_managed`, declared `noexcept`: an exception ends the process. -/
def handleReset (L : Lib) (ptr : List Nat) (sch : Option Schema) (s : RW) (image : List Cell) : Result RW :=
  match resetRw L ptr sch s image with
  | .ok r => .ok r
  | .badTuple _ | .bug | .hollow | .terminated => .terminated
  | .ub => .ub

/-- ro.cxx:189-205 `make_from_buffer`; `m` is none for a null pointer. -/
def makeFromBuffer (L : Lib) (ptr size : List Nat) (sch : Option Schema) (m : Option Memory) (n : Nat) (skip : Bool) : Result (Option Memory) :=
  match m with
  | none => if skip then .ok none else .hollow
  | some m =>
    if n < 4 then (if skip then .ok none else .hollow)
    else if skip then .ok (some m)
    else match auditRo sch m n with
      | .pass _ => .ok (some m)
      | .fail t _ => badTupleRo L ptr size (some (bytes t))
      | .bug _ => .terminated

end Fptu.Message
