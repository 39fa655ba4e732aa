import Verif.Model.StringView
/-!
# Text views and standard strings

Model of the conversions of `fptu::string_view` (string_view.h:71-105, 126-161, 199-212, 224-259). A `std::string` or
`std::string_view` is an address and a size; memory as in `Model/StringView`. Not modelled: the assertion that sizes are below
`npos` (string_view.h:80, 95), overload resolution.
-/
namespace Fptu.SV

/-- `strlen` as used in string_view.h:72, looking at `fuel` bytes at most. -/
def cLength (M : Nat → Nat) (p : Nat) : Nat → Option Nat
  | 0 => none
  | fuel + 1 => if M p = 0 then some 0 else (cLength M (p + 1) fuel).map (· + 1)

/-- string_view.h:71-74: constructor from a C string; `none` when no terminator is found. -/
def View.ofCStr (M : Nat → Nat) (p fuel : Nat) : Option View :=
  if p ≠ 0 then (cLength M p fuel).map fun n => ⟨p, n⟩ else some ⟨p, -1⟩

/-- rw.h:859-863: the text assigned to a field from an array of `size` characters. The array decays to a pointer, its size is not used. -/
def View.ofArray (M : Nat → Nat) (p _size fuel : Nat) : Option View := View.ofCStr M p fuel

/-- string_view.h:82 `operator std::string`: the content of the new string. -/
def View.toStd (M : Nat → Nat) (v : View) : List Nat := bytes M v.str v.length

/-- string_view.h:92-96, 100-105: from `std::string_view`. -/
def View.ofStdView (data size : Nat) : View := ⟨data, size⟩

/-- string_view.h:97-99 `operator std::string_view`: address and size. -/
def View.toStdView (v : View) : Nat × Nat := (v.str, v.length)

/-- string_view.h:130-132 `operator[]`: the byte read; nothing is checked. -/
def View.index (M : Nat → Nat) (v : View) (pos : Nat) : Nat := M (v.str + pos)

/-- string_view.h:133-136 `front`; `none`: the assertion fails. -/
def View.front (M : Nat → Nat) (v : View) : Option Nat := if v.len > 0 then some (M v.str) else none

/-- string_view.h:137-140 `back`. -/
def View.back (M : Nat → Nat) (v : View) : Option Nat := if v.len > 0 then some (M (v.str + (v.len - 1).toNat)) else none

/-- string_view.h:145-146 `cbegin`, `cend`. -/
def View.cbegin (v : View) : Nat := v.str
def View.cend (v : View) : Nat := v.str + v.length

/-- A loop `for (it = begin; it != end; ++it)`, at most `fuel` steps. -/
def walkUp (M : Nat → Nat) (e : Nat) : Nat → Nat → Option (List Nat)
  | 0, p => if p = e then some [] else none
  | fuel + 1, p => if p = e then some [] else (walkUp M e fuel (p + 1)).map (M p :: ·)

/-- string_view.h:151-160: the same with reverse iterators, which stand behind the element they refer to. -/
def walkDown (M : Nat → Nat) (b : Nat) : Nat → Nat → Option (List Nat)
  | 0, p => if p = b then some [] else none
  | fuel + 1, p => if p = b then some [] else (walkDown M b fuel (p - 1)).map (M (p - 1) :: ·)

/-- string_view.h:203-206 `compare(view, string)`. -/
def compareStd (M : Nat → Nat) (a : View) (data size : Nat) : Option Int := compare M a (.ofString data size)

/-- string_view.h:199-202 `compare(string, view)`. -/
def stdCompare (M : Nat → Nat) (data size : Nat) (b : View) : Option Int := compare M (.ofString data size) b

/-- string_view.h:207-212, 224-241. -/
def eqStd (M : Nat → Nat) (a : View) (data size : Nat) : Option Bool := (compareStd M a data size).map (· == 0)
def ltStd (M : Nat → Nat) (a : View) (data size : Nat) : Option Bool := (compareStd M a data size).map (fun d => decide (d < 0))
def gtStd (M : Nat → Nat) (a : View) (data size : Nat) : Option Bool := (compareStd M a data size).map (fun d => decide (d > 0))

/-- string_view.h:243-259. -/
def stdEq (M : Nat → Nat) (data size : Nat) (b : View) : Option Bool := (stdCompare M data size b).map (· == 0)
def stdLt (M : Nat → Nat) (data size : Nat) (b : View) : Option Bool := (stdCompare M data size b).map (fun d => decide (d < 0))
def stdGt (M : Nat → Nat) (data size : Nat) (b : View) : Option Bool := (stdCompare M data size b).map (fun d => decide (d > 0))

end Fptu.SV
