import Verif.Model.StringView
import Verif.Props.Capi
/-! # C29: string views -/
namespace Fptu.Props
open Fptu Fptu.SV

/-- The value a view denotes: nothing (nil) or a byte string. -/
def textOf (M : Nat → Nat) (v : View) : Option (List Nat) :=
  if v.len < 0 then none else some ((List.range v.len.toNat).map fun i => M (v.str + i))

/-- Documented order: nil first, then by length, then by bytes. -/
def TextLt : Option (List Nat) → Option (List Nat) → Prop
  | _, none => False
  | none, some _ => True
  | some x, some y => x.length < y.length ∨ (x.length = y.length ∧ LexLt x y)

/-- Views as the constructors produce them. -/
def ViewOk (v : View) : Prop := -1 ≤ v.len ∧ v.len < 2 ^ 63 - 1

instance (v : View) : Decidable (ViewOk v) := by unfold ViewOk; infer_instance

/-- Every constructor produces such a view. -/
theorem C29_constructors (p n e : Nat) (hn : n < 2 ^ 63 - 1) (he : p ≤ e) (he' : e < 2 ^ 63 - 1) :
    ViewOk View.default ∧ ViewOk (View.ofPtr p n) ∧ ViewOk (View.ofRange p e) ∧ ViewOk (View.ofString p n) ∧
    (∀ M, textOf M View.default = none) ∧
    (∀ M, textOf M (View.ofPtr 0 n) = none) ∧
    (∀ M, p ≠ 0 → textOf M (View.ofPtr p n) = some ((List.range n).map fun i => M (p + i))) ∧
    (∀ M, p ≠ 0 → textOf M (View.ofRange p e) = some ((List.range (e - p)).map fun i => M (p + i))) := by
  have h1 : (n : Int) < 2 ^ 63 - 1 := by omega
  refine ⟨by decide, ?_, ?_, ?_, fun _ => rfl, fun _ => rfl, ?_, ?_⟩
  · unfold ViewOk View.ofPtr; simp only; split <;> omega
  · unfold ViewOk View.ofRange; simp only; split <;> omega
  · unfold ViewOk View.ofString; simp only; omega
  · intro M hp
    simp [textOf, View.ofPtr, hp]
  · intro M hp
    have hs : (if p ≠ 0 then (e : Int) - p else -1) = ((e - p : Nat) : Int) := by rw [if_pos hp]; omega
    unfold textOf View.ofRange
    rw [hs, if_neg (by simp only; omega)]
    simp

private theorem memcmp_cmp {x y : List Nat} (h : x.length = y.length) :
    Capi.cmpBinary x y = Capi.diff2lge (Capi.memcmp x y) := by
  unfold Capi.cmpBinary
  simp only [← h, Nat.min_self, List.take_length]
  rw [h, List.take_length]
  congr 1
  split
  · rename_i h0; rw [h0]; simp [Capi.cmp2int]
  · rfl

private theorem diff2lge_sign (d : Int) :
    (Capi.diff2lge d = .lt ↔ d < 0) ∧ (Capi.diff2lge d = .gt ↔ 0 < d) ∧ (Capi.diff2lge d = .eq ↔ d = 0) := by
  unfold Capi.diff2lge
  by_cases h : d = 0
  · rw [if_pos h]; simp [h]
  · rw [if_neg h]
    by_cases h2 : d < 0
    · rw [if_pos h2]; simp [h, h2]; omega
    · rw [if_neg h2]; simp [h, h2]; omega

private theorem not_lexLt_self (x : List Nat) : ¬ LexLt x x := fun h =>
  by
    have := (C37_cmp_binary_lex x x).1.2 h
    rw [(C37_cmp_binary_lex x x).2.2.2 rfl] at this
    cases this

/-- **C29 (meaning).** Comparison never overflows, is negative/zero/positive exactly for smaller/equal/greater
values in the documented order. In particular nil and empty views differ. -/
theorem C29_compare (M : Nat → Nat) (a b : View) (ha : ViewOk a) (hb : ViewOk b) :
    ∃ d, SV.compare M a b = some d ∧ (d < 0 ↔ TextLt (textOf M a) (textOf M b)) ∧
      (d > 0 ↔ TextLt (textOf M b) (textOf M a)) ∧ (d = 0 ↔ textOf M a = textOf M b) := by
  obtain ⟨ha1, ha2⟩ := ha
  obtain ⟨hb1, hb2⟩ := hb
  unfold SV.compare
  simp only
  rw [if_neg (by omega)]
  refine ⟨_, rfl, ?_⟩
  by_cases hd : a.len - b.len = 0
  · rw [if_neg (by simpa using hd)]
    have hl : a.len = b.len := by omega
    by_cases hneg : a.len < 0
    · have e1 : textOf M a = none := if_pos hneg
      have e2 : textOf M b = none := if_pos (by omega)
      have e0 : a.length = 0 := if_neg (by omega)
      rw [e1, e2, e0]
      simp [bytes, Capi.memcmp, TextLt]
    · have e1 : textOf M a = some (bytes M a.str a.length) := by
        unfold textOf bytes View.length; rw [if_neg hneg, if_pos (by omega)]
      have e2 : textOf M b = some (bytes M b.str a.length) := by
        unfold textOf bytes View.length; rw [if_neg (by omega), if_pos (by omega), hl]
      rw [e1, e2]
      have len1 : (bytes M a.str a.length).length = (bytes M b.str a.length).length := by simp [bytes]
      by_cases hs : a.str = b.str
      · rw [if_pos hs, hs]
        simp [TextLt, not_lexLt_self]
      · rw [if_neg hs]
        generalize bytes M a.str a.length = x at *
        generalize bytes M b.str a.length = y at *
        have k := C37_cmp_binary_lex x y
        rw [memcmp_cmp len1] at k
        have s := diff2lge_sign (Capi.memcmp x y)
        simp only [TextLt, len1, Nat.lt_irrefl, false_or, true_and, Option.some.injEq]
        exact ⟨by rw [← s.1, k.1], by rw [gt_iff_lt, ← s.2.1, k.2.1], by rw [← s.2.2, k.2.2]⟩
  · rw [if_pos (by simpa using hd)]
    by_cases h1 : a.len < 0
    · have e1 : textOf M a = none := if_pos h1
      have e2 : textOf M b = some (bytes M b.str b.len.toNat) := by
        unfold textOf bytes; rw [if_neg (by omega)]
      rw [e1, e2]
      simp only [TextLt, iff_true, iff_false, reduceCtorEq]
      omega
    · by_cases h2 : b.len < 0
      · have e1 : textOf M b = none := if_pos h2
        have e2 : textOf M a = some (bytes M a.str a.len.toNat) := by
          unfold textOf bytes; rw [if_neg (by omega)]
        rw [e1, e2]
        simp only [TextLt, iff_true, iff_false, reduceCtorEq]
        omega
      · have e1 : textOf M a = some (bytes M a.str a.len.toNat) := by
          unfold textOf bytes; rw [if_neg (by omega)]
        have e2 : textOf M b = some (bytes M b.str b.len.toNat) := by
          unfold textOf bytes; rw [if_neg (by omega)]
        rw [e1, e2]
        have l1 : (bytes M a.str a.len.toNat).length = a.len.toNat := by simp [bytes]
        have l2 : (bytes M b.str b.len.toNat).length = b.len.toNat := by simp [bytes]
        generalize bytes M a.str a.len.toNat = x at *
        generalize bytes M b.str b.len.toNat = y at *
        have hne : x.length ≠ y.length := by omega
        simp only [TextLt, hne, hne.symm, false_and, or_false, Option.some.injEq]
        refine ⟨by omega, by omega, ?_⟩
        constructor
        · intro h; omega
        · intro h; exact absurd (congrArg List.length h) hne

private theorem lexLt_trans' {x y z : List Nat} (h1 : LexLt x y) (h2 : LexLt y z) : LexLt x z := by
  have a := (C37_cmp_binary_lex x y).1.2 h1
  have b := (C37_cmp_binary_lex y z).1.2 h2
  exact (C37_cmp_binary_lex x z).1.1 ((C37_cmp_binary_order x y z).2.2.1 a b)

/-- The documented order is a strict total order on values. -/
theorem C29_order_laws (x y z : Option (List Nat)) :
    ¬ TextLt x x ∧ (TextLt x y → TextLt y z → TextLt x z) ∧ (TextLt x y ∨ x = y ∨ TextLt y x) := by
  refine ⟨?_, ?_, ?_⟩
  · cases x with
    | none => exact id
    | some x => simp [TextLt, not_lexLt_self]
  · cases x <;> cases y <;> cases z <;> simp only [TextLt, false_implies, implies_true, true_implies]
    rintro (h1 | ⟨h1, h2⟩) (h3 | ⟨h3, h4⟩)
    · left; omega
    · left; omega
    · left; omega
    · right; exact ⟨by omega, lexLt_trans' h2 h4⟩
  · cases x <;> cases y <;> simp only [TextLt, true_or, or_true, or_false]
    rename_i x y
    rcases Nat.lt_trichotomy x.length y.length with h | h | h
    · exact Or.inl (Or.inl h)
    · have k := C37_cmp_binary_lex x y
      rcases hc : Capi.cmpBinary x y with _ | _ | _
      · exact Or.inl (Or.inr ⟨h, k.1.1 hc⟩)
      · exact Or.inr (Or.inl (by rw [k.2.2.1 hc]))
      · exact Or.inr (Or.inr (Or.inr ⟨h.symm, k.2.1.1 hc⟩))
    · exact Or.inr (Or.inr (Or.inl h))

/-- **C29 (operators).** The six operators agree with the order. -/
theorem C29_operators (M : Nat → Nat) (a b : View) (ha : ViewOk a) (hb : ViewOk b) :
    (eqOp M a b = some true ↔ textOf M a = textOf M b) ∧
    (ltOp M a b = some true ↔ TextLt (textOf M a) (textOf M b)) ∧
    (gtOp M a b = some true ↔ TextLt (textOf M b) (textOf M a)) ∧
    (leOp M a b = some true ↔ ¬ TextLt (textOf M b) (textOf M a)) ∧
    (geOp M a b = some true ↔ ¬ TextLt (textOf M a) (textOf M b)) ∧
    (neOp M a b = some true ↔ textOf M a ≠ textOf M b) := by
  obtain ⟨d, hd, h1, h2, h3⟩ := C29_compare M a b ha hb
  unfold eqOp ltOp gtOp leOp geOp neOp
  rw [hd]
  simp only [Option.map_some, Option.some.injEq, beq_iff_eq, bne_iff_ne, decide_eq_true_eq]
  rw [← h1, ← h2]
  exact ⟨h3, Iff.rfl, Iff.rfl, by omega, by omega, not_congr h3⟩

/-- **C29 (hash).** Equal views hash equally, wherever their bytes are stored. -/
theorem C29_hash (M : Nat → Nat) (a b : View) (ha : ViewOk a) (hb : ViewOk b)
    (h : eqOp M a b = some true) : a.hash M = b.hash M := by
  have he := (C29_operators M a b ha hb).1.1 h
  obtain ⟨ha1, _⟩ := ha
  obtain ⟨hb1, _⟩ := hb
  unfold textOf at he
  by_cases h1 : a.len < 0
  · rw [if_pos h1] at he
    by_cases h2 : b.len < 0
    · have : a.len = b.len := by omega
      unfold View.hash
      rw [this, show b.len.toNat = 0 by omega]
      rfl
    · rw [if_neg h2] at he; cases he
  · rw [if_neg h1] at he
    by_cases h2 : b.len < 0
    · rw [if_pos h2] at he; cases he
    · rw [if_neg h2, Option.some.injEq] at he
      have hl := congrArg List.length he
      simp only [List.length_map, List.length_range] at hl
      have hlen : a.len = b.len := by omega
      unfold View.hash bytes
      rw [he, hlen]

/-- Two equal strings at different addresses, an empty and a nil view. -/
example : eqOp (fun i => if i % 10 < 3 then 200 + i % 10 else 0) ⟨10, 3⟩ ⟨20, 3⟩ = some true ∧
    ltOp (fun _ => 7) View.default ⟨5, 0⟩ = some true ∧
    eqOp (fun _ => 7) View.default ⟨5, 0⟩ = some false ∧ ViewOk ⟨10, 3⟩ := by
  refine ⟨by decide, by decide, by decide, by decide⟩

end Fptu.Props
