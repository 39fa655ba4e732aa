import Verif.Model.Capi
import Verif.Lemmas.Bits
/-! # C36, C37: C API filters and binary comparison -/
namespace Fptu.Props
open Fptu Fptu.Capi

/-! ## C36 -/

/-- The genus number of an index word and its column, by plain arithmetic. -/
def wordGenus (g : Nat) : Nat := g / 2048
def wordColumn (g : Nat) : Nat := g % 2048

/-- What a caller means by a selection: a live field in the column whose type is the given one (type
argument `make_tag`-style, bit 31 set) or belongs to the set (filter argument, bit 31 clear). -/
def Selected (g column tf : Nat) : Prop :=
  wordGenus g ≠ 31 ∧ wordColumn g = column ∧
    if tf / 2 ^ 31 % 2 = 1 then wordGenus g = tf % 65536 / 2048 else tf / 2 ^ wordGenus g % 2 = 1

instance (g c t : Nat) : Decidable (Selected g c t) := by unfold Selected; infer_instance

/-- Admissible selectors: any set of types (`fptu_any`, ...), or one of the `fptu_type` constants. -/
def AdmissibleSelector (tf : Nat) : Prop :=
  tf < 2 ^ 31 ∨ ∃ g : Genus, g ≠ .hole ∧ tf = makeTag g 0 true true false

private theorem dId_eq (g : Nat) : dId g = g % 2048 := by
  unfold dId maxIdent
  rw [Bits.and_low]

private theorem dGenus_eq (g : Nat) : dGenus g = g / 2048 := by
  unfold dGenus; rw [Nat.shiftRight_eq_div_pow]

private theorem isHole_iff (g : Nat) : isHole g = true ↔ wordGenus g = 31 := by
  unfold isHole wordGenus; rw [dGenus_eq]; simp

private theorem isFilter_iff (tf : Nat) : isFilter tf = true ↔ tf / 2 ^ 31 % 2 = 0 := by
  unfold isFilter
  rw [Bits.and_pow]
  by_cases h : tf / 2 ^ 31 % 2 = 0
  · simp [h]
  · have : tf / 2 ^ 31 % 2 = 1 := by omega
    rw [this]; simp

private theorem genusCode_all : ∀ n : Fin 32,
    tag2genusCode (makeTag (Genus.ofCode n.1) 0 true true false) = n.1 := by decide +kernel

private theorem makeTag_facts : ∀ g : Fin 32,
    makeTag (Genus.ofCode g.1) 0 true true false % 65536 = g.1 * 2048 ∧
    makeTag (Genus.ofCode g.1) 0 true true false / 2 ^ 31 % 2 = 1 ∧
    makeTag (Genus.ofCode g.1) 0 true true false < 2 ^ 32 := by decide +kernel

private theorem ofCode_code (g : Genus) : Genus.ofCode g.code = g := by cases g <;> rfl
private theorem code_lt (g : Genus) : g.code < 32 := by cases g <;> decide

private theorem selected_filter {g column tf : Nat} (hg : g < 65536) (hf : isFilter tf = true) :
    matchField g column tf = true ↔ Selected g column tf := by
  have hw : wordGenus g < 32 := by unfold wordGenus; omega
  have hf' := (isFilter_iff tf).1 hf
  have hmask : (tf &&& filterMask g ≠ 0) ↔ tf / 2 ^ wordGenus g % 2 = 1 := by
    unfold filterMask
    rw [dGenus_eq]
    have := genusCode_all ⟨g / 2048, hw⟩
    simp only at this
    rw [this, Nat.shiftLeft_eq, Nat.one_mul, Bits.and_pow]
    unfold wordGenus
    have hp : 0 < 2 ^ (g / 2048) := Nat.two_pow_pos _
    rcases Nat.mod_two_eq_zero_or_one (tf / 2 ^ (g / 2048)) with h | h
    · rw [h]; simp
    · rw [h]; simp
  unfold matchField Selected
  rw [if_neg (by omega), dId_eq]
  unfold wordColumn
  simp only [Bool.and_eq_true, Bool.not_eq_true', beq_iff_eq, bne_iff_ne, hmask]
  constructor
  · rintro ⟨⟨h1, h2⟩, h3⟩
    exact ⟨fun h => Bool.noConfusion (((isHole_iff g).2 h).symm.trans h1), h2, h3⟩
  · rintro ⟨h1, h2, h3⟩
    refine ⟨⟨?_, h2⟩, h3⟩
    cases hh : isHole g
    · rfl
    · exact absurd ((isHole_iff g).1 hh) h1

private theorem selected_type {g column : Nat} {gen : Genus} (hne : gen ≠ .hole)
    (hc : column ≤ 2047) :
    g = colid2tag (makeTag gen 0 true true false) column % 65536 ↔
      Selected g column (makeTag gen 0 true true false) := by
  have h := makeTag_facts ⟨gen.code, code_lt gen⟩
  simp only [ofCode_code] at h
  have hlt := code_lt gen
  have h31 : gen.code ≠ 31 := by intro h; apply hne; cases gen <;> first | rfl | (exact absurd h (by decide))
  unfold colid2tag Selected wordGenus wordColumn
  rw [if_pos h.2.1, h.1, Nat.shiftLeft_eq]
  have e : (makeTag gen 0 true true false + column * 2 ^ 0) % 2 ^ 32 % 65536 = gen.code * 2048 + column := by
    omega
  rw [e]
  constructor
  · intro h; omega
  · rintro ⟨a, b, c⟩; omega

/-- First selected position at or after `pf`, else `e`. -/
def IsFirstSelected (P : Nat → Prop) (pf e r : Nat) : Prop :=
  (r = e ∧ ∀ i, pf ≤ i → i < e → ¬ P i) ∨ (pf ≤ r ∧ r < e ∧ P r ∧ ∀ i, pf ≤ i → i < r → ¬ P i)

private theorem firstFilter_spec (idx : Nat → Nat) (P : Nat → Prop) (column tf e : Nat)
    (hP : ∀ i, matchField (idx i) column tf = true ↔ P i) (pf : Nat) :
    IsFirstSelected P pf e (firstFilter idx pf e column tf) := by
  induction hk : e - pf generalizing pf with
  | zero =>
    rw [firstFilter, if_neg (by omega)]
    exact Or.inl ⟨rfl, fun i h1 h2 => by omega⟩
  | succ k ih =>
    rw [firstFilter, if_pos (by omega)]
    by_cases hm : matchField (idx pf) column tf = true
    · rw [if_pos hm]
      exact Or.inr ⟨Nat.le_refl _, by omega, (hP pf).1 hm, fun i h1 h2 => by omega⟩
    · rw [if_neg hm]
      have hn : ¬ P pf := fun h => hm ((hP pf).2 h)
      rcases ih (pf + 1) (by omega) with ⟨h1, h2⟩ | ⟨h1, h2, h3, h4⟩
      · refine Or.inl ⟨h1, fun i a b => ?_⟩
        by_cases hi : i = pf
        · rw [hi]; exact hn
        · exact h2 i (by omega) b
      · refine Or.inr ⟨by omega, h2, h3, fun i a b => ?_⟩
        by_cases hi : i = pf
        · rw [hi]; exact hn
        · exact h4 i (by omega) b

private theorem lookup_spec (idx : Nat → Nat) (P : Nat → Prop) (tag e : Nat)
    (hP : ∀ i, idx i = tag % 65536 ↔ P i) (pf : Nat) :
    IsFirstSelected P pf e ((lookup idx pf e tag).getD e) := by
  induction hk : e - pf generalizing pf with
  | zero =>
    rw [lookup, if_neg (by omega)]
    exact Or.inl ⟨rfl, fun i h1 h2 => by omega⟩
  | succ k ih =>
    rw [lookup, if_pos (by omega)]
    by_cases hm : idx pf = tag % 65536
    · rw [if_pos hm]
      exact Or.inr ⟨Nat.le_refl _, by simp; omega, (hP pf).1 hm, fun i h1 h2 => by simp at h2; omega⟩
    · rw [if_neg hm]
      have hn : ¬ P pf := fun h => hm ((hP pf).2 h)
      rcases ih (pf + 1) (by omega) with ⟨h1, h2⟩ | ⟨h1, h2, h3, h4⟩
      · refine Or.inl ⟨h1, fun i a b => ?_⟩
        by_cases hi : i = pf
        · rw [hi]; exact hn
        · exact h2 i (by omega) b
      · refine Or.inr ⟨by omega, h2, h3, fun i a b => ?_⟩
        by_cases hi : i = pf
        · rw [hi]; exact hn
        · exact h4 i (by omega) b

/-- **C36 (first/next).** `fptu_first` returns the first selected field at or after the given position
and the end otherwise, for a type as well as for a filter. -/
theorem C36_first (idx : Nat → Nat) (hidx : ∀ i, idx i < 65536) (b e column tf : Nat)
    (hc : column ≤ 2047) (htf : AdmissibleSelector tf) :
    IsFirstSelected (fun i => Selected (idx i) column tf) b e (first idx b e column tf) := by
  unfold first
  by_cases hf : isFilter tf = true
  · rw [if_pos hf]
    exact firstFilter_spec idx _ column tf e (fun i => selected_filter (hidx i) hf) b
  · rw [if_neg hf]
    rcases htf with h | ⟨g, hg, he⟩
    · exact absurd ((isFilter_iff tf).2 (by rw [Nat.div_eq_of_lt h])) hf
    · rw [he]
      exact lookup_spec idx _ _ e (fun i => selected_type hg hc) b

/-- **C36 (next).** Continuing from a field gives the first selected field strictly after it, or the
end of the range when there is none. -/
theorem C36_next (idx : Nat → Nat) (hidx : ∀ i, idx i < 65536) (frm e column tf : Nat)
    (hc : column ≤ 2047) (htf : AdmissibleSelector tf) :
    IsFirstSelected (fun i => Selected (idx i) column tf) (frm + 1) e (next idx frm e column tf) :=
  C36_first idx hidx (frm + 1) e column tf hc htf

/-- A loop driven by a correct `first` visits exactly the selected positions in order. -/
private theorem visit_spec (P : Nat → Prop) [DecidablePred P] (nf : Nat → Nat) (e : Nat)
    (hnf : ∀ p, IsFirstSelected P p e (nf p)) (p fuel : Nat) (hp : p ≤ e) (hfuel : e - p < fuel) :
    visit (fun q => nf (q + 1)) e (nf p) fuel = some ((List.range' p (e - p)).filter (fun i => decide (P i))) := by
  induction fuel generalizing p with
  | zero => omega
  | succ fuel ih =>
    have drop : ∀ q r : Nat, q ≤ r → r ≤ e → (∀ i, q ≤ i → i < r → ¬ P i) →
        (List.range' q (e - q)).filter (fun i => decide (P i)) =
        (List.range' r (e - r)).filter (fun i => decide (P i)) := by
      intro q r hqr hre hnone
      have : List.range' q (e - q) = List.range' q (r - q) ++ List.range' r (e - r) := by
        rw [show e - q = (r - q) + (e - r) by omega, ← List.range'_append_1]
        congr 2; omega
      rw [this, List.filter_append]
      have hz : (List.range' q (r - q)).filter (fun i => decide (P i)) = [] := by
        rw [List.filter_eq_nil_iff]
        intro i hi
        have := List.mem_range'_1.1 hi
        simp only [decide_eq_true_eq]
        exact hnone i this.1 (by omega)
      rw [hz, List.nil_append]
    rw [visit]
    rcases hnf p with ⟨h1, h2⟩ | ⟨h1, h2, h3, h4⟩
    · rw [if_pos h1, drop p e hp (Nat.le_refl _) h2]
      simp
    · rw [if_neg (by omega), ih (nf p + 1) (by omega) (by omega), drop p (nf p) h1 (by omega) h4]
      rw [show e - nf p = (e - (nf p + 1)) + 1 by omega, List.range'_succ, List.filter_cons_of_pos]
      · rfl
      · simpa using h3

/-- **C36 (counting).** The field count equals the number of selected fields; the iteration loop visits
each of them exactly once in index order and terminates. -/
theorem C36_count (idx : Nat → Nat) (hidx : ∀ i, idx i < 65536) (b e column tf : Nat) (hbe : b ≤ e)
    (hc : column ≤ 2047) (htf : AdmissibleSelector tf) :
    visited idx b e column tf (e - b + 1) =
      some ((List.range' b (e - b)).filter (fun i => decide (Selected (idx i) column tf))) :=
  visit_spec _ (fun p => first idx p e column tf) e (fun p => C36_first idx hidx p e column tf hc htf) b _ hbe (by omega)

/-- **C36 (callback filters).** The `_ex` loop visits exactly the live fields the callback accepts. -/
theorem C36_count_ex (idx : Nat → Nat) (f : Nat → Bool) (b e : Nat) (hbe : b ≤ e) :
    visitedEx idx f b e (e - b + 1) =
      some ((List.range' b (e - b)).filter (fun i => decide (wordGenus (idx i) ≠ 31 ∧ f i = true))) := by
  apply visit_spec _ (fun p => firstEx idx f p e) e _ b _ hbe (by omega)
  intro p
  induction hk : e - p generalizing p with
  | zero =>
    rw [firstEx, if_neg (by omega)]
    exact Or.inl ⟨rfl, fun i h1 h2 => by omega⟩
  | succ k ih =>
    have next : ¬ (wordGenus (idx p) ≠ 31 ∧ f p = true) →
        IsFirstSelected (fun i => wordGenus (idx i) ≠ 31 ∧ f i = true) p e (firstEx idx f (p + 1) e) := by
      intro hn
      rcases ih (p + 1) (by omega) with ⟨h1, h2⟩ | ⟨h1, h2, h3, h4⟩
      · refine Or.inl ⟨h1, fun i a b => ?_⟩
        by_cases hi : i = p
        · rw [hi]; exact hn
        · exact h2 i (by omega) b
      · refine Or.inr ⟨by omega, h2, h3, fun i a b => ?_⟩
        by_cases hi : i = p
        · rw [hi]; exact hn
        · exact h4 i (by omega) b
    rw [firstEx, if_pos (by omega)]
    by_cases hh : isHole (idx p) = true
    · rw [if_pos hh]
      exact next (fun h => h.1 ((isHole_iff _).1 hh))
    · rw [if_neg hh]
      have hl : wordGenus (idx p) ≠ 31 := fun h => hh ((isHole_iff _).2 h)
      by_cases hf : f p = true
      · rw [if_pos hf]
        exact Or.inr ⟨Nat.le_refl _, by omega, ⟨hl, hf⟩, fun i h1 h2 => by omega⟩
      · rw [if_neg hf]
        exact next (fun h => hf h.2)

/-- **C36 (erase).** `fptu_erase` rejects inadmissible columns, erases every selected field for a filter
and the first selected field for a type, and touches nothing else. -/
theorem C36_erase (idx : Nat → Nat) (hidx : ∀ i, idx i < 65536) (b e column tf : Nat) (hbe : b ≤ e)
    (htf : AdmissibleSelector tf) :
    erased idx b e column tf (e - b + 1) = some (
      if column > 2047 then .error .invalidArgument
      else
        let sel := (List.range' b (e - b)).filter (fun i => decide (Selected (idx i) column tf))
        .ok (if tf < 2 ^ 31 then sel else sel.take 1)) := by
  unfold erased
  have hm : maxIdent = 2047 := by decide
  rw [hm]
  by_cases hc : column > 2047
  · rw [if_pos hc, if_pos hc]
  · rw [if_neg hc, if_neg hc, C36_count idx hidx b e column tf hbe (by omega) htf]
    simp only [Option.map_some]
    congr 3
    have : isFilter tf = decide (tf < 2 ^ 31) := by
      rw [Bool.eq_iff_iff, isFilter_iff, decide_eq_true_eq]
      rcases htf with h | ⟨g, _, he⟩
      · exact ⟨fun _ => h, fun _ => by rw [Nat.div_eq_of_lt h]⟩
      · have := makeTag_facts ⟨g.code, code_lt g⟩
        simp only [ofCode_code] at this
        rw [he]
        exact ⟨fun h => (by rw [this.2.1] at h; cases h), fun h => by rw [Nat.div_eq_of_lt h]⟩
    rw [this]; simp

/-- Example: index with a hole, two uint16 in column 7, an int32 in column 7, a uint16 in column 8. -/
private def exIdx : Nat → Nat := fun i =>
  [31 * 2048 + 7, 7 * 2048 + 7, 8 * 2048 + 7, 7 * 2048 + 8, 7 * 2048 + 7][i]?.getD 0

example : visited exIdx 0 5 7 (makeTag .u16 0 true true false) 6 = some [1, 4] ∧
    visited exIdx 0 5 7 (2 ^ 31 - 1) 6 = some [1, 2, 4] ∧
    erased exIdx 0 5 7 (makeTag .u16 0 true true false) 6 = some (.ok [1]) := by decide +kernel

/-! ## C37 -/

/-- Independent definition: strict lexicographic order on byte strings, shorter prefix first. -/
inductive LexLt : List Nat → List Nat → Prop
  | nil {b bs} : LexLt [] (b :: bs)
  | head {a as b bs} (h : a < b) : LexLt (a :: as) (b :: bs)
  | tail {a as bs} (h : LexLt as bs) : LexLt (a :: as) (a :: bs)

private theorem cmp_cons_eq (a : Nat) (as bs : List Nat) :
    cmpBinary (a :: as) (a :: bs) = cmpBinary as bs := by
  unfold cmpBinary
  simp only [List.length_cons]
  rw [show min (as.length + 1) (bs.length + 1) = min as.length bs.length + 1 by omega]
  simp only [List.take_succ_cons, memcmp, if_true]
  congr 1
  split
  · unfold cmp2int
    by_cases h1 : bs.length > as.length
    · rw [if_pos h1, if_pos (by omega)]
    · rw [if_neg h1, if_neg (by omega)]
      by_cases h2 : as.length > bs.length
      · rw [if_pos h2, if_pos (by omega)]
      · rw [if_neg h2, if_neg (by omega)]
  · rfl

private theorem cmp_cons_ne {a b : Nat} (as bs : List Nat) (h : a ≠ b) :
    cmpBinary (a :: as) (b :: bs) = if a < b then .lt else .gt := by
  unfold cmpBinary
  simp only [List.length_cons]
  rw [show min (as.length + 1) (bs.length + 1) = min as.length bs.length + 1 by omega]
  simp only [List.take_succ_cons, memcmp, if_neg h]
  unfold diff2lge
  have hd : ¬ ((a : Int) - b = 0) := by omega
  rw [if_neg hd, if_neg hd]
  by_cases hl : a < b
  · rw [if_pos hl, if_pos (by omega)]
  · rw [if_neg hl, if_neg (by omega)]

/-- **C37 (meaning).** The comparison returns `lt`/`gt`/`eq` exactly for lexicographically smaller,
greater and equal byte strings. -/
theorem C37_cmp_binary_lex (l r : List Nat) :
    (cmpBinary l r = .lt ↔ LexLt l r) ∧ (cmpBinary l r = .gt ↔ LexLt r l) ∧
    (cmpBinary l r = .eq ↔ l = r) := by
  induction l generalizing r with
  | nil =>
    cases r with
    | nil =>
      refine ⟨⟨fun h => by simp [cmpBinary, memcmp, cmp2int, diff2lge] at h, fun h => by cases h⟩,
        ⟨fun h => by simp [cmpBinary, memcmp, cmp2int, diff2lge] at h, fun h => by cases h⟩,
        ⟨fun _ => rfl, fun _ => by simp [cmpBinary, memcmp, cmp2int, diff2lge]⟩⟩
    | cons b bs =>
      have e : cmpBinary [] (b :: bs) = .lt := by
        simp [cmpBinary, memcmp, cmp2int, diff2lge]
      rw [e]
      exact ⟨⟨fun _ => .nil, fun _ => rfl⟩, ⟨fun h => by simp at h, fun h => by cases h⟩,
        ⟨fun h => by simp at h, fun h => by cases h⟩⟩
  | cons a as ih =>
    cases r with
    | nil =>
      have e : cmpBinary (a :: as) [] = .gt := by
        simp [cmpBinary, memcmp, cmp2int, diff2lge]
      rw [e]
      exact ⟨⟨fun h => by simp at h, fun h => by cases h⟩, ⟨fun _ => .nil, fun _ => rfl⟩,
        ⟨fun h => by simp at h, fun h => by cases h⟩⟩
    | cons b bs =>
      by_cases hab : a = b
      · subst hab
        rw [cmp_cons_eq]
        obtain ⟨i1, i2, i3⟩ := ih bs
        refine ⟨⟨fun h => .tail (i1.1 h), fun h => ?_⟩, ⟨fun h => .tail (i2.1 h), fun h => ?_⟩,
          ⟨fun h => by rw [i3.1 h], fun h => i3.2 (by cases h; rfl)⟩⟩
        · cases h with
          | head h => omega
          | tail h => exact i1.2 h
        · cases h with
          | head h => omega
          | tail h => exact i2.2 h
      · rw [cmp_cons_ne as bs hab]
        refine ⟨⟨fun h => ?_, fun h => ?_⟩, ⟨fun h => ?_, fun h => ?_⟩,
          ⟨fun h => ?_, fun h => by cases h; exact absurd rfl hab⟩⟩
        · by_cases hl : a < b
          · exact .head hl
          · rw [if_neg hl] at h; cases h
        · cases h with
          | head h => rw [if_pos h]
          | tail h => exact absurd rfl hab
        · by_cases hl : a < b
          · rw [if_pos hl] at h; cases h
          · exact .head (by omega)
        · cases h with
          | head h => rw [if_neg (by omega)]
          | tail h => exact absurd rfl hab
        · by_cases hl : a < b
          · rw [if_pos hl] at h; cases h
          · rw [if_neg hl] at h; cases h

private theorem lexLt_trans {x y z : List Nat} (h1 : LexLt x y) (h2 : LexLt y z) : LexLt x z := by
  induction h1 generalizing z with
  | nil => cases h2 <;> exact .nil
  | head h => cases h2 with
    | head h' => exact .head (by omega)
    | tail _ => exact .head h
  | tail _ ih => cases h2 with
    | head h' => exact .head h'
    | tail h' => exact .tail (ih h')

/-- **C37 (order laws).** Antisymmetric, transitive, total. -/
theorem C37_cmp_binary_order (x y z : List Nat) :
    (cmpBinary x y = .lt ↔ cmpBinary y x = .gt) ∧ (cmpBinary x y = .eq ↔ cmpBinary y x = .eq) ∧
    (cmpBinary x y = .lt → cmpBinary y z = .lt → cmpBinary x z = .lt) ∧ cmpBinary x x = .eq := by
  refine ⟨?_, ?_, ?_, ?_⟩
  · rw [(C37_cmp_binary_lex x y).1, (C37_cmp_binary_lex y x).2.1]
  · rw [(C37_cmp_binary_lex x y).2.2, (C37_cmp_binary_lex y x).2.2]; exact eq_comm
  · intro h1 h2
    exact (C37_cmp_binary_lex x z).1.2
      (lexLt_trans ((C37_cmp_binary_lex x y).1.1 h1) ((C37_cmp_binary_lex y z).1.1 h2))
  · exact (C37_cmp_binary_lex x x).2.2.2 rfl

example : cmpBinary [1, 2, 200] [1, 3] = .lt ∧ cmpBinary [1, 2] [1, 2, 0] = .lt ∧
    cmpBinary [255] [127, 255] = .gt := by decide

end Fptu.Props
