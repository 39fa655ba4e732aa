import Verif.Model.CapiRw
import Verif.Model.Print
/-!
# The last error of the C API

Model of `src/compat_common.cxx:21-54` (the error of a thread), of `error_guard` (legacy_compat.h:60-84), of what the functions of the C API do with
it (compat_common.cxx:163-168, compat_field.cxx:56-137, compat_ro.cxx:75-134, compat_rw.cxx:26-516), and of the text of an error code
(debug.cxx:34-47).

Simplifications: what a function does besides error handling is an input of the call: which of its checks fail, and the exception thrown by the function of the
tuple, if any. Memory for the text of the error is available. Threads do not end. A text is the bytes before the terminating zero.
-/
namespace Fptu.LastError
open Fptu.CapiRw Fptu.Print

abbrev Text := List Nat

/-- A text of the source. -/
def txt (s : String) : Text := s.toList.map Char.toNat

/-- An exception: its type and what `what()` returns. -/
structure Thrown where
  kind : Exc
  what : Text

/-- except.cxx:95-97, 112-142: the text of an exception thrown without details; `std::bad_alloc` as in libstdc++. `none`: the text is made of details
(damaged tuples, bugs, wrong definitions; `Model/Message.lean`). -/
def defaultText : Exc → Option Text
  | .invalidArgument => some (txt "fptu: invalid argument")
  | .typeMismatch => some (txt "fptu: field type mismatch")
  | .fieldAbsent => some (txt "fptu: no such field in the tuple")
  | .valueRange => some (txt "fptu: value out of range")
  | .valueTooLong => some (txt "fptu: value is too long")
  | .insufficientSpace _ _ => some (txt "insufficient space")
  | .tupleHollow => some (txt "fptu: hollow tuple")
  | .tupleTooLarge => some (txt "fptu: tuple is too large")
  | .indexCorrupted => some (txt "fptu: field already removed (or index corrupted)")
  | .collectionRequired => some (txt "fptu: collection required")
  | .collectionUnallowed => some (txt "fptu: collection unallowed")
  | .schemaMismatch => some (txt "fptu: tuple schema mismatch")
  | .schemaNoSuchField => some (txt "fptu: no such field in the schema")
  | .badAlloc => some (txt "std::bad_alloc")
  | .tupleOverflow => some (txt "fptu: tuple size limit reached")
  | .tupleBad | .schemaBadDefinition | .bug => none

/-- compat_common.cxx:21 `tls_last_error` of one thread. `gen` counts the assignments to the string: a pointer from `c_str()` is
good until the next one (C++ [string.require]). -/
structure Tls where
  code : Code := .ok
  msg : Text := []
  gen : Nat := 0

/-- compat_common.cxx:23-26 `fptu_clear_error`. -/
def clearErr (s : Tls) : Tls := ⟨.ok, [], s.gen + 1⟩

/-- compat_common.cxx:34-47 `fptu_set_error(const std::exception &)`. -/
def setExc (s : Tls) (e : Thrown) : Tls := ⟨codeOf e.kind, e.what, s.gen + 1⟩

/-- compat_common.cxx:49-54 `fptu_set_error(fptu_error, const char *)`. -/
def setCode (s : Tls) (c : Code) (m : Text) : Tls := ⟨c, m, s.gen + 1⟩

/-- A call: the checks that fail, and the exception thrown by the function of the tuple when the checks pass. -/
inductive Call where
  /-- `fptu_upsert_*`, `fptu_update_*`, `fptu_insert_*`: compat_rw.cxx:251-516 -/
  | modify (r : Option Thrown)
  /-- `fptu_init`: compat_rw.cxx:26-39 -/
  | init (null : Bool) (r : Option Thrown)
  /-- `fptu_alloc`: compat_rw.cxx:41-48; `noMemory`: `malloc` returns the null pointer -/
  | alloc (tooLarge noMemory : Bool) (r : Option Thrown)
  /-- `fptu_clear`: compat_rw.cxx:55-65 -/
  | clear (null : Bool) (r : Option Thrown)
  /-- `fptu_shrink`: compat_rw.cxx:91-98 -/
  | shrink (r : Option Thrown)
  /-- `fptu_erase`: compat_common.cxx:163-182 -/
  | erase (badColumn : Bool)
  /-- `fptu_check_and_get_buffer_size`: compat_rw.cxx:100-119; `trouble`: what the check of the tuple says -/
  | checkSize (errorNull : Bool) (trouble : Option Text) (r : Option Thrown)
  /-- `fptu_check_and_get_buffer_size_ex`: compat_rw.cxx:198-230 -/
  | checkSizeEx (cbfsNull : Bool) (trouble : Option Text) (r : Option Thrown)
  /-- `fptu_fetch`: compat_rw.cxx:121-158 -/
  | fetch (null : Bool) (trouble : Option Text) (r : Option Thrown)
  /-- `fptu_fetch_ex`: compat_rw.cxx:170-196 -/
  | fetchEx (badCbfs null : Bool) (r : Option Thrown)
  /-- `fptu_get_*` except `fptu_get_cstr`: compat_ro.cxx:75-122 -/
  | get (r : Option Thrown)
  /-- `fptu_get_cstr`: compat_ro.cxx:124-134 -/
  | getCstr (found : Bool) (r : Option Thrown)
  /-- `fptu_field_*` except `fptu_field_cstr`: compat_field.cxx:56-101 -/
  | field (r : Option Thrown)
  /-- `fptu_field_cstr`: compat_field.cxx:122-137 -/
  | fieldCstr (null : Bool) (r : Option Thrown)
  /-- `fptu_clear_error` -/
  | clearError
  /-- `fptu_last_error_code` -/
  | lastCode
  /-- `fptu_last_error_msg` -/
  | lastMsg

/-- A `const char *` given to the caller: into the string of the thread, or to a text that does not go away. -/
inductive Pointer where
  | tls (gen : Nat)
  | static (text : Text)

/-- What the caller gets: whether the call did its work, the code returned or stored through the argument `error` (not null), and the message. -/
structure Reply where
  failed : Bool
  code : Option Code := none
  text : Option Pointer := none

/-- `try { .. } catch (const std::exception &e) { fptu_set_error(e); .. }`, the code being told to the caller or not. -/
def caught (s : Tls) (tell : Bool) : Option Thrown → Tls × Reply
  | none => (s, ⟨false, if tell then some .ok else none, none⟩)
  | some e => (setExc s e, ⟨true, if tell then some (setExc s e).code else none, none⟩)

/-- The same when the message is given to the caller (compat_rw.cxx:115-117, 224-228). -/
def caughtMsg (s : Tls) (tell : Bool) : Option Thrown → Tls × Reply
  | none => (s, ⟨false, if tell then some .ok else none, none⟩)
  | some e => (setExc s e, ⟨true, if tell then some (setExc s e).code else none, some (.tls (setExc s e).gen)⟩)

/-- One call, by the lines of `Call`. -/
def step (s : Tls) : Call → Tls × Reply
  | .modify r => caught s true r
  | .init null r => if null then (s, ⟨true, none, none⟩) else caught s false r
  | .alloc tooLarge noMemory r => if tooLarge then (s, ⟨true, none, none⟩) else if noMemory then (s, ⟨true, none, none⟩) else caught s false r
  | .clear null r => if null then (s, ⟨true, some .inval, none⟩) else caught s true r
  | .shrink r => caught s false r
  | .erase bad => if bad then (s, ⟨true, some .inval, none⟩) else (s, ⟨false, none, none⟩)
  | .checkSize errorNull trouble r =>
    if errorNull then (s, ⟨true, none, none⟩)
    else match trouble with
      | some m => (s, ⟨true, none, some (.static m)⟩)
      | none => caughtMsg s false r
  | .checkSizeEx cbfsNull trouble r =>
    if cbfsNull then (s, ⟨true, none, none⟩)
    else match trouble with
      | some m => (setCode s .inval m, ⟨true, some .inval, some (.tls (setCode s .inval m).gen)⟩)
      | none => caughtMsg s true r
  | .fetch null trouble r =>
    if null then (setCode s .inval (txt "invalid buffer (NULL)"), ⟨true, none, none⟩)
    else match trouble with
      | some m => (setCode s .inval m, ⟨true, none, none⟩)
      | none => caught s false r
  | .fetchEx badCbfs null r =>
    if badCbfs then (setCode s .inval (txt "invalid cbfs"), ⟨true, none, none⟩)
    else if null then (setCode s .inval (txt "invalid buffer (NULL)"), ⟨true, none, none⟩)
    else caught s false r
  | .get r => caught s true r
  | .getCstr found r =>
    if found then caught s false r
    else (setCode s .nofield (txt "fptu: no such field"), ⟨true, some .nofield, none⟩)
  | .field r => caught s false r
  | .fieldCstr null r => if null then (s, ⟨true, none, none⟩) else caught s false r
  | .clearError => (clearErr s, ⟨false, none, none⟩)
  | .lastCode => (s, ⟨false, some s.code, none⟩)
  | .lastMsg => (s, ⟨false, none, some (.tls s.gen)⟩)

/-- The errors of all threads. -/
abbrev State := Nat → Tls

/-- The calls of all threads in the order they happen; the replies. -/
def run (s : State) : List (Nat × Call) → State × List (Nat × Reply)
  | [] => (s, [])
  | (t, c) :: rest =>
    let r := step (s t) c
    let (s', out) := run (fun u => if u = t then r.1 else s u) rest
    (s', (t, r.2) :: out)

/-- What a thread reads through a message pointer it was given; `none`: the text is gone. -/
def read (s : Tls) : Pointer → Option Text
  | .tls g => if g = s.gen then some s.msg else none
  | .static m => some m

/-! ## The text of a code -/

/-- legacy.h:113-131: the number of a code, for Linux and Windows. -/
def number (windows : Bool) : Code → Nat
  | .ok => 0
  | .nofield => if windows then 0x650 else 126
  | .inval => if windows then 0x57 else 22
  | .nospace => if windows then 0x540 else 105
  | .nomem => 12

/-- debug.cxx:34-47 `std::to_string(fptu_error)` of a number that is not negative. -/
def errorText (windows : Bool) (n : Nat) : Text :=
  if n = number windows .ok then txt "FPTU: Success"
  else if n = number windows .nofield then txt "FPTU: No such field (ENOENT)"
  else if n = number windows .inval then txt "FPTU: Invalid argument (EINVAL)"
  else if n = number windows .nospace then txt "FPTU: No space left in tuple (ENOSPC)"
  else txt "invalid(fptu_error)" ++ padDec 1 n

end Fptu.LastError
