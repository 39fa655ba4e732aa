import Verif.Model.ByteOrder
import Verif.Model.Arith
import Mathlib.Tactic.IntervalCases
/-!
# C88: conversions between the order of bytes of the machine, the network and the little-endian order
-/
namespace Fptu.Props
open Fptu.ByteOrder

/-- The byte `i` of a number, counted from the least significant one. -/
def digit {w : Nat} (v : BitVec w) (i : Nat) : BitVec 8 := v.extractLsb' (8 * i) 8

/-- The bytes a machine keeps a number of `n` bytes in, in the order of their addresses. -/
def stored {w : Nat} (e : Endian) (n : Nat) (v : BitVec w) : List (BitVec 8) :=
  match e with
  | .little => (List.range n).map fun i => digit v i
  | .big => (List.range n).map fun i => digit v (n - 1 - i)

private theorem swap64 (v : BitVec 64) (i : Nat) (hi : i < 8) : digit (bswap64 v) i = digit v (7 - i) := by
  unfold digit bswap64
  ext j hj
  interval_cases i <;> interval_cases j <;> simp

private theorem swap32 (v : BitVec 32) (i : Nat) (hi : i < 4) : digit (bswap32 v) i = digit v (3 - i) := by
  unfold digit bswap32
  ext j hj
  interval_cases i <;> interval_cases j <;> simp

private theorem swap16 (v : BitVec 16) (i : Nat) (hi : i < 2) : digit (bswap16 v) i = digit v (1 - i) := by
  unfold digit bswap16
  ext j hj
  interval_cases i <;> interval_cases j <;> simp

private theorem digits_eq {w n : Nat} (hw : w = 8 * n) {u v : BitVec w} (h : ∀ i < n, digit u i = digit v i) : u = v := by
  ext j hj
  have := congrArg (fun x => x.getLsbD (j % 8)) (h (j / 8) (by omega))
  have h8 : j % 8 < 8 := Nat.mod_lt _ (by decide)
  simpa [digit, BitVec.getLsbD_extractLsb', h8, Nat.div_add_mod, ← BitVec.getLsbD_eq_getElem] using this

/-- **C88 (swapping).** The portable `bswap16`, `bswap32` and `bswap64` reverse the bytes of every number, on every machine, and undo themselves. -/
theorem C88_swap :
    (∀ e v, stored e 2 (bswap16 v) = (stored e 2 v).reverse ∧ bswap16 (bswap16 v) = v) ∧
    (∀ e v, stored e 4 (bswap32 v) = (stored e 4 v).reverse ∧ bswap32 (bswap32 v) = v) ∧
    ∀ e v, stored e 8 (bswap64 v) = (stored e 8 v).reverse ∧ bswap64 (bswap64 v) = v := by
  refine ⟨fun e v => ⟨?_, ?_⟩, fun e v => ⟨?_, ?_⟩, fun e v => ⟨?_, ?_⟩⟩
  · cases e <;> simp [stored, List.range_succ, swap16]
  · exact digits_eq (n := 2) rfl fun i hi => by rw [swap16 _ _ hi, swap16 _ _ (by omega)]; congr 1; omega
  · cases e <;> simp [stored, List.range_succ, swap32]
  · exact digits_eq (n := 4) rfl fun i hi => by rw [swap32 _ _ hi, swap32 _ _ (by omega)]; congr 1; omega
  · cases e <;> simp [stored, List.range_succ, swap64]
  · exact digits_eq (n := 8) rfl fun i hi => by rw [swap64 _ _ hi, swap64 _ _ (by omega)]; congr 1; omega

/-- The macros the header tests describe the machine. -/
def Told (e : Endian) (byteOrder littleEndian : Option Nat) : Prop := littleBranch byteOrder littleEndian = true ↔ e = .little

/-- What a conversion has to do: the bytes of `big v` are the digits of `v` from the most significant one on, those of `little v` from the least
significant one on, and converting twice gives the number back. -/
def Converts {w : Nat} (e : Endian) (n : Nat) (big little : BitVec w → BitVec w) : Prop :=
  ∀ v, stored e n (big v) = ((List.range n).map fun i => digit v (n - 1 - i)) ∧ big (big v) = v ∧
    stored e n (little v) = ((List.range n).map fun i => digit v i) ∧ little (little v) = v

private theorem converts_of {w n : Nat} {e : Endian} {b : Bool} {swap : BitVec w → BitVec w} (hb : b = true ↔ e = .little)
    (h : ∀ e v, stored e n (swap v) = (stored e n v).reverse ∧ swap (swap v) = v)
    (hr : ∀ v : BitVec w, (stored .little n v).reverse = stored .big n v) : Converts e n (beConv b swap) (leConv b swap) := by
  intro v
  cases e with
  | little =>
    rw [hb.2 rfl]
    refine ⟨?_, (h .little v).2, rfl, rfl⟩
    show stored .little n (swap v) = stored .big n v
    rw [(h _ _).1, hr]
  | big =>
    have : b = false := by
      cases b
      · rfl
      · exact absurd (hb.1 rfl) (by decide)
    rw [this]
    refine ⟨rfl, rfl, ?_, (h .big v).2⟩
    show stored .big n (swap v) = stored .little n v
    rw [(h _ _).1, ← hr, List.reverse_reverse]

/-- **C88 (partial: macros that describe the machine).** On machines of both kinds `h2be`, `be2h`, `h2le` and `le2h` of 16, 32 and 64 bits convert to and from the
order of the network and the little-endian order, for all numbers, if the macros `__BYTE_ORDER` and `__LITTLE_ENDIAN` describe the machine. That
this holds whenever the header is accepted by a compiler is false: `C88_macros_refuted`. -/
theorem C88_convert_partial {e : Endian} {byteOrder littleEndian : Option Nat} (h : Told e byteOrder littleEndian) :
    Converts e 2 (beConv (littleBranch byteOrder littleEndian) bswap16) (leConv (littleBranch byteOrder littleEndian) bswap16) ∧
    Converts e 4 (beConv (littleBranch byteOrder littleEndian) bswap32) (leConv (littleBranch byteOrder littleEndian) bswap32) ∧
    Converts e 8 (beConv (littleBranch byteOrder littleEndian) bswap64) (leConv (littleBranch byteOrder littleEndian) bswap64) :=
  ⟨converts_of h C88_swap.1 fun v => by simp [stored, List.range_succ],
   converts_of h C88_swap.2.1 fun v => by simp [stored, List.range_succ],
   converts_of h C88_swap.2.2 fun v => by simp [stored, List.range_succ]⟩

/-- **C88 (exactness).** Conversely, the conversions of 32 bits are right only if the macros describe the machine. -/
theorem C88_convert_iff {e : Endian} {byteOrder littleEndian : Option Nat} :
    Converts e 4 (beConv (littleBranch byteOrder littleEndian) bswap32) (leConv (littleBranch byteOrder littleEndian) bswap32) ↔ Told e byteOrder littleEndian := by
  refine ⟨fun h => ?_, fun h => (C88_convert_partial h).2.1⟩
  have h1 := (h 1).1
  unfold Told
  generalize littleBranch byteOrder littleEndian = b at h1 ⊢
  revert h1
  cases b <;> cases e <;> decide

/-- **C88 (refuted in full).** The header demands `__BYTE_ORDER__`, but tests `__BYTE_ORDER` and `__LITTLE_ENDIAN`, which it does not include the definition of when the compiler
defines the former. Where nothing else defines them, both count as 0, and the branch of little-endian machines is taken: right there, but on a
big-endian machine no conversion of a number other than a palindrome is right. -/
theorem C88_macros_refuted : Told .little none none ∧ ¬ Told .big none none ∧
    ∀ v, stored .big 4 (beConv (littleBranch none none) bswap32 v) = ((List.range 4).map fun i => digit v (3 - i)) ↔ bswap32 v = v := by
  refine ⟨by simp [Told, littleBranch], by simp [Told, littleBranch], fun v => ?_⟩
  show stored .big 4 (bswap32 v) = stored .big 4 v ↔ _
  refine ⟨fun h => digits_eq (n := 4) rfl fun i hi => ?_, fun h => by rw [h]⟩
  have : ∀ k (hk : k < 4), digit (bswap32 v) (3 - k) = digit v (3 - k) := by
    intro k hk
    simp only [stored, List.range_succ, List.range_zero, List.nil_append, List.cons_append, List.map_cons, List.map_nil, List.cons.injEq] at h
    obtain ⟨a, b, c, d, _⟩ := h
    interval_cases k
    exacts [a, b, c, d]
  have := this (3 - i) (by omega)
  rwa [show 3 - (3 - i) = i by omega] at this

/-- **C88 (IPv4).** On every machine the macros describe, the 16 bytes of the address made of an IPv4 address other than 0.0.0.0 are those of the IPv4-mapped IPv6
address: ten zeros, two bytes 0xff, the four bytes as given. -/
theorem C88_mapped_partial {e : Endian} {byteOrder littleEndian : Option Nat} (h : Told e byteOrder littleEndian) {v4 : BitVec 32} (h0 : v4 ≠ 0) :
    (mapped (littleBranch byteOrder littleEndian) v4).flatMap (stored e 4) = List.replicate 10 0 ++ [0xff, 0xff] ++ stored e 4 v4 := by
  have hp : stored e 4 (beConv (littleBranch byteOrder littleEndian) bswap32 0xffff) = [0, 0, 0xff, 0xff] := by
    rw [((C88_convert_partial h).2.1 0xffff).1]; decide
  have hz : stored e 4 (0 : BitVec 32) = [0, 0, 0, 0] := by cases e <;> decide
  unfold mapped
  rw [if_pos h0]
  simp only [List.flatMap_cons, List.flatMap_nil, hp, hz]
  simp [List.replicate]

/-- These functions are the ones of `Model/Arith`, which theorems about numbers use. -/
theorem C88_swap_arith : (∀ v, (bswap64 v).toNat = Arith.bswap64 v.toNat) ∧ ∀ v, (bswap32 v).toNat = Arith.bswap32 v.toNat :=
  ⟨fun v => by simp [bswap64, Arith.bswap64], fun v => by simp [bswap32, Arith.bswap32]⟩

/-! ## Cases that meet the hypotheses: the macros of glibc -/

example : Told .little (some 1234) (some 1234) ∧ Told .big (some 4321) (some 1234) := by simp [Told, littleBranch]

example : bswap64 0x0102030405060708 = 0x0807060504030201 ∧ bswap32 0x01020304 = 0x04030201 ∧ bswap16 0x0102 = 0x0201 := by decide

example : (mapped (littleBranch (some 1234) (some 1234)) 0x0100007f).flatMap (stored .little 4) =
    [0, 0, 0, 0, 0, 0, 0, 0, 0, 0, 0xff, 0xff, 127, 0, 0, 1] := by decide

end Fptu.Props
