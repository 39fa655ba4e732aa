import Verif.Model.Capi
/-!
# `fptu::string_view`

Model of `fast_positive/tuples/string_view.h`. Byte memory is a function `Nat → Nat` (values below 256),
the null pointer is address 0.
-/
namespace Fptu.SV

/-- string_view.h:45-52: `const char *str; intptr_t len`. -/
structure View where
  str : Nat
  len : Int
deriving DecidableEq, Repr

/-- string_view.h:55 default constructor. -/
def View.default : View := ⟨0, -1⟩

/-- string_view.h:60-63: constructor from pointer and count (`count` below 2^63). -/
def View.ofPtr (str count : Nat) : View := ⟨str, if str ≠ 0 then (count : Int) else -1⟩

/-- string_view.h:65-69: constructor from a pointer pair. -/
def View.ofRange (b e : Nat) : View := ⟨b, if b ≠ 0 then (e : Int) - b else -1⟩

/-- string_view.h:78-81: constructor from `std::string` (data pointer and size). -/
def View.ofString (data size : Nat) : View := ⟨data, size⟩

/-- string_view.h:158-163. -/
def View.length (v : View) : Nat := if v.len ≥ 0 then v.len.toNat else 0
def View.empty (v : View) : Bool := v.len ≤ 0
def View.nil (v : View) : Bool := v.len < 0

/-- The bytes read by `memcmp(ptr, .., n)` / the hash loop. -/
def bytes (M : Nat → Nat) (p n : Nat) : List Nat := (List.range n).map (fun i => M (p + i))

/-- Conversion of `char` (signed, as on x86) to `size_t` in `h ^ str[i]`. -/
def signExt (b : Nat) : Nat := if b ≥ 128 then 2 ^ 64 - 256 + b else b

/-- string_view.h:166-172 `hash_value`; all arithmetic modulo 2^64. -/
def View.hash (M : Nat → Nat) (v : View) : Nat :=
  let h0 := (v.len % 2 ^ 64).toNat * 3977471 % 2 ^ 64
  let h := (bytes M v.str v.len.toNat).foldl
    (fun h b => ((h ^^^ signExt b) * 1664525 + 1013904223) % 2 ^ 64) h0
  h ^^^ (3863194411 * (h >>> 11) % 2 ^ 64)

/-- string_view.h:174-179 `compare`; `none` when `a.len - b.len` overflows `intptr_t`. Only the sign of
`memcmp` is relied upon. -/
def compare (M : Nat → Nat) (a b : View) : Option Int :=
  let diff := a.len - b.len
  if diff < -2 ^ 63 ∨ diff ≥ 2 ^ 63 then none
  else some (if diff ≠ 0 then diff
    else if a.str = b.str then 0
    else Capi.memcmp (bytes M a.str a.length) (bytes M b.str a.length))

/-- string_view.h:180-197: the six operators. -/
def eqOp (M : Nat → Nat) (a b : View) : Option Bool := (compare M a b).map (· == 0)
def ltOp (M : Nat → Nat) (a b : View) : Option Bool := (compare M a b).map (fun d => decide (d < 0))
def gtOp (M : Nat → Nat) (a b : View) : Option Bool := (compare M a b).map (fun d => decide (d > 0))
def leOp (M : Nat → Nat) (a b : View) : Option Bool := (compare M a b).map (fun d => decide (d ≤ 0))
def geOp (M : Nat → Nat) (a b : View) : Option Bool := (compare M a b).map (fun d => decide (d ≥ 0))
def neOp (M : Nat → Nat) (a b : View) : Option Bool := (compare M a b).map (· != 0)

end Fptu.SV
