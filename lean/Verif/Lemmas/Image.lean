import Mathlib.Data.List.GetD
import Verif.Lemmas.TupleHist
import Verif.Props.CapiRead
/-!
# The stored bytes of a variable-length value
-/
namespace Fptu.Rw
open Fptu.Gear

/-- Bytes followed by zeros up to the next multiple of four. -/
def pad4 (l : List Nat) : List Nat := l ++ List.replicate ((4 - l.length % 4) % 4) 0

/-- The bytes of a variable-length value in a tuple. This is the storage format, stated without the code that writes it.
A text of less than 254 bytes has one byte of length in front, a longer one has three bytes: 254 or 255 by parity, then half of the
rest of the length. A binary has the number of units (two bytes) and the length modulo four (two bytes). A property has its length
and its identifier. A nested tuple is its units. All are followed by zero bytes up to whole units. -/
def image : Val → List Nat
  | .text v => pad4 ((if v.length < 254 then [v.length]
      else [254 + v.length % 2, (v.length - (254 + v.length % 2)) / 2 % 256, (v.length - (254 + v.length % 2)) / 2 / 256]) ++ v)
  | .varbin v => pad4 ([((v.length + 3) / 4 + 1) % 256, ((v.length + 3) / 4 + 1) / 256, v.length % 4, 0] ++ v)
  | .property v id => pad4 ([v.length, id] ++ v)
  | .nested (some cs) => cs.flatMap cellBytes
  | .nested none => []
  | .units cs => cs.flatMap cellBytes
  | .inline _ => []

theorem pad4_length (l : List Nat) : (pad4 l).length = 4 * ((l.length + 3) / 4) := by
  unfold pad4; rw [List.length_append, List.length_replicate]; omega

theorem pad4_getD (l : List Nat) (i : Nat) : (pad4 l).getD i 0 = l.getD i 0 := by
  unfold pad4
  by_cases h : i < l.length
  · rw [List.getD_append _ _ _ _ h]
  · rw [List.getD_append_right _ _ _ _ (by omega), List.getD_eq_default l _ (by omega)]
    by_cases h2 : i - l.length < (4 - l.length % 4) % 4
    · exact List.getD_replicate 0 h2
    · rw [List.getD_eq_default _ _ (by rw [List.length_replicate]; omega)]

/-- Bytes at `k` are those of a list when they agree one by one. -/
theorem readBytes_eq {m : Memory} {k n : Nat} {l : List Nat} (hl : l.length = n) (h : ∀ i < n, m.byte (k + i) = l.getD i 0) :
    m.readBytes k n = l := by
  apply List.ext_getElem
  · rw [Memory.length_readBytes, hl]
  · intro i h1 h2
    have e : (m.readBytes k n)[i] = m.byte (k + i) := by simp [Memory.readBytes]
    rw [e, h i (by omega), List.getD_eq_getElem _ _ h2]

private theorem b2u (n : Nat) : bytes2units n = (n + 3) / 4 := by
  unfold bytes2units; rw [Nat.shiftRight_eq_div_pow]; omega

/-- A memory into which a header and then a value were written, over a zeroed last unit. -/
theorem framed {p n : Nat} {hdr v : List Nat} {M : Memory} (hv : ∀ b ∈ v, b < 256) (hn : n = (hdr.length + v.length + 3) / 4)
    (hh : hdr ≠ []) (hM1 : ∀ i < hdr.length, M.byte (4 * p + i) = hdr.getD i 0)
    (hM2 : ∀ k, 4 * p + hdr.length ≤ k → k / 4 = p + (n - 1) → M.byte k = 0) :
    ((M.writeBytes (4 * p + hdr.length) v).readBytes (4 * p) (4 * n)) = pad4 (hdr ++ v) := by
  refine readBytes_eq (by rw [pad4_length, List.length_append, hn]) fun i hi => ?_
  have : 0 < hdr.length := List.length_pos_iff.2 hh
  rw [pad4_getD, Memory.byte_writeBytes _ _ _ hv]
  by_cases h1 : i < hdr.length
  · rw [if_neg (by omega), hM1 i h1, List.getD_append _ _ _ _ h1]
  · rw [List.getD_append_right _ _ _ _ (by omega)]
    by_cases h2 : i < hdr.length + v.length
    · rw [if_pos (by omega), show 4 * p + i - (4 * p + hdr.length) = i - hdr.length by omega]
    · rw [if_neg (by omega), List.getD_eq_default v _ (by omega), hM2 _ (by omega) (by omega)]

/-- Writing a variable-length value leaves exactly its image, whatever was there. -/
theorem write_image {g : Genus} {v : Val} {n : Nat} (hf : v.fits g) (hfx : g.isFixed = false) (hn : needs g v n) (h0 : 0 < n)
    (m : Memory) (p : Nat) : (v.write m p).readBytes (4 * p) (4 * n) = image v := by
  unfold needs at hn
  rw [hfx, if_neg (by decide)] at hn
  cases v with
  | inline x => have := (fits_inline hf).2.1; rw [hfx] at this; cases this
  | units cs => have := (fits_units hf).2.1; rw [hfx] at this; cases this
  | text v =>
    simp only [Val.fits, Bool.and_eq_true, decide_eq_true_eq, List.all_eq_true] at hf
    obtain ⟨rfl, hb⟩ := hf
    have hn : Str.estimate v.length = .ok n := hn
    have hl : v.length ≤ 131325 := by
      by_contra c
      rw [((Props.C04_estimate v.length).1).1 (by omega)] at hn
      cases hn
    unfold Str.estimate Str.maxLength Str.tinyThreshold at hn
    rw [if_neg (by omega), b2u] at hn
    have hn := Except.ok.inj hn
    show (Str.store m p v).readBytes _ _ = _
    unfold Str.store Str.tinyThreshold
    simp only [b2u]
    unfold image
    by_cases h : v.length < 254
    · simp only [if_pos h] at hn ⊢
      rw [if_neg (by omega)]
      refine framed (hdr := [v.length]) hb (by simp only [List.length_singleton]; omega) (by simp) ?_ ?_
      · intro i hi
        rw [List.length_singleton] at hi
        rw [show i = 0 by omega, Memory.byte_setByte _ _ _ _ (by omega), if_pos (Nat.add_zero _), Nat.mod_eq_of_lt (by omega)]; rfl
      · intro k h1 h2
        rw [List.length_singleton] at h1
        rw [Memory.byte_setByte _ _ _ _ (by omega), if_neg (by omega), hn, Memory.byte_set_zero _ h2]
    · simp only [if_neg h] at hn ⊢
      rw [if_pos (by omega), Nat.mod_eq_of_lt (a := 254 + v.length % 2) (by omega), Nat.mod_eq_of_lt (b := 65536) (by omega)]
      generalize hs : (v.length - (254 + v.length % 2)) / 2 = s
      refine framed (hdr := [254 + v.length % 2, s % 256, s / 256]) hb (by simp only [List.length_cons, List.length_nil]; omega) (by simp) ?_ ?_
      · intro i hi
        simp only [List.length_cons, List.length_nil] at hi
        rw [Memory.byte_setByte _ _ _ _ (by omega), Memory.byte_setByte _ _ _ _ (by omega), Memory.byte_setByte _ _ _ _ (by omega)]
        obtain rfl | rfl | rfl : i = 0 ∨ i = 1 ∨ i = 2 := by omega
        · rw [if_neg (by omega), if_neg (by omega), if_pos (Nat.add_zero _)]; rfl
        · rw [if_neg (by omega), if_pos rfl]; rfl
        · rw [if_pos rfl]; rfl
      · intro k h1 h2
        simp only [List.length_cons, List.length_nil] at h1
        rw [Memory.byte_setByte _ _ _ _ (by omega), if_neg (by omega), Memory.byte_setByte _ _ _ _ (by omega), if_neg (by omega),
          Memory.byte_setByte _ _ _ _ (by omega), if_neg (by omega), Memory.byte_setByte _ _ _ _ (by omega), if_neg (by omega), hn,
          Memory.byte_set_zero _ h2]
  | varbin v =>
    simp only [Val.fits, Bool.and_eq_true, decide_eq_true_eq, List.all_eq_true] at hf
    obtain ⟨rfl, hb⟩ := hf
    have hn : Varbin.estimate v.length = .ok n := hn
    have hl : v.length ≤ 262136 := by
      by_contra c
      rw [((Props.C05_estimate v.length).1).1 (by omega)] at hn
      cases hn
    have hn := Except.ok.inj (((Props.C05_estimate v.length).2 hl).symm.trans hn)
    show (Varbin.store m p v).readBytes _ _ = _
    unfold Varbin.store image
    simp only [b2u, Memory.set_same]
    rw [Nat.mod_eq_of_lt (b := 65536) (by omega), show (4 * (p + 1)) = 4 * p + 4 by omega, hn]
    have hc : ∀ i < 4, ∀ M : Memory, M p = ⟨n, v.length % 4⟩ → M.byte (4 * p + i) = [n % 256, n / 256, v.length % 4, 0].getD i 0 := by
      intro i hi M hM
      unfold Memory.byte
      rw [show (4 * p + i) / 4 = p by omega, hM]
      obtain rfl | rfl | rfl | rfl : i = 0 ∨ i = 1 ∨ i = 2 ∨ i = 3 := by omega
      · rw [if_pos (by omega), if_pos (by omega)]; rfl
      · rw [if_neg (by omega), if_pos (by omega)]; show n / 256 % 256 = n / 256; omega
      · rw [if_pos (by omega), if_neg (by omega)]; show v.length % 4 % 256 = v.length % 4; omega
      · rw [if_neg (by omega), if_neg (by omega)]; show v.length % 4 / 256 % 256 = 0; omega
    refine framed (hdr := [n % 256, n / 256, v.length % 4, 0]) hb (by simp only [List.length_cons, List.length_nil]; omega) (by simp) ?_ ?_
    · intro i hi
      simp only [List.length_cons, List.length_nil] at hi
      exact hc i (by omega) _ (Memory.set_same _ _ _)
    · intro k h1 h2
      simp only [List.length_cons, List.length_nil] at h1
      rw [Memory.byte_set_ne _ _ (by omega), Memory.byte_set_ne _ _ (by omega), Memory.byte_set_zero _ h2]
  | property v id =>
    simp only [Val.fits, Bool.and_eq_true, decide_eq_true_eq, List.all_eq_true] at hf
    obtain ⟨⟨rfl, hb⟩, hid⟩ := hf
    have hn : Property.estimate v.length = .ok n := hn
    unfold Property.estimate at hn
    rw [b2u] at hn
    by_cases c : v.length > 255
    · rw [if_pos c] at hn; cases hn
    rw [if_neg c] at hn
    have hn := Except.ok.inj hn
    show (Property.store m p v id).readBytes _ _ = _
    unfold Property.store image
    simp only [b2u]
    rw [Nat.mod_eq_of_lt (by omega)]
    refine framed (hdr := [v.length, id]) hb (by simp only [List.length_cons, List.length_nil]; omega) (by simp) ?_ ?_
    · intro i hi
      simp only [List.length_cons, List.length_nil] at hi
      rw [Memory.byte_setByte _ _ _ _ hid, Memory.byte_setByte _ _ _ _ (by omega)]
      obtain rfl | rfl : i = 0 ∨ i = 1 := by omega
      · rw [if_neg (by omega), if_pos (Nat.add_zero _)]; rfl
      · rw [if_pos rfl]; rfl
    · intro k h1 h2
      simp only [List.length_cons, List.length_nil] at h1
      rw [Memory.byte_setByte _ _ _ _ hid, if_neg (by omega), Memory.byte_setByte _ _ _ _ (by omega), if_neg (by omega), hn,
        Memory.byte_set_zero _ h2]
  | nested v =>
    cases v with
    | none =>
      have hn : (Except.ok 0 : Except Exc Nat) = .ok n := hn
      have hn := Except.ok.inj hn
      omega
    | some v =>
      simp only [Val.fits, Bool.and_eq_true, decide_eq_true_eq] at hf
      obtain ⟨⟨rfl, hne, hl⟩, hok⟩ := hf
      have hn : (Except.ok (v.headD .zero).lo : Except Exc Nat) = .ok n := hn
      have hn := Except.ok.inj hn
      rw [hl] at hn
      subst hn
      have e : ((Val.nested (some v)).write m p).readCells p v.length = v := by
        show (Nested.store m p (some v)).readCells p v.length = v
        unfold Nested.store
        simp only
        rw [hl, List.take_length]
        exact Memory.readCells_writeCells _ _ _
      rw [Props.bytes_of_cells _ _ _ (fun i hi => ?_), e]
      · rfl
      · have hm : ((Val.nested (some v)).write m p) (p + i) ∈ ((Val.nested (some v)).write m p).readCells p v.length :=
          List.mem_map.2 ⟨i, List.mem_range.2 hi, rfl⟩
        rw [e] at hm
        exact List.all_eq_true.1 hok _ hm

end Fptu.Rw
