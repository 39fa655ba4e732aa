import Verif.Model.CapiCmp
import Verif.Props.CapiRead
import Verif.Props.Capi
/-!
# C63: comparing a field with a value through the C API; C64: tags of the C API
-/
namespace Fptu.Props
open Fptu.Gear Fptu.Rw Fptu.Audit Fptu.Serial Fptu.CapiRw Fptu.CapiCmp

/-! ## Searching a serialized tuple -/

theorem capi_lookup_eq (m : Memory) (w e tag : Nat) (hw : tag % 65536 = w) (a : Nat) (h : ∀ i, a ≤ i → i < e → (m i).hi < 65536) :
    Capi.lookup (fun i => (m i).hi % 65536) a e tag = lookupFrom m w e a := by
  induction hk : e - a generalizing a with
  | zero => rw [Capi.lookup, if_neg (by omega), lookupFrom, if_neg (by omega)]
  | succ k ih =>
    have ha : a < e := by omega
    rw [Capi.lookup, if_pos ha, lookupFrom, if_pos ha, ih (a + 1) (fun i h1 h2 => h i (by omega) h2) (by omega), Nat.mod_eq_of_lt (h a le_rfl ha), hw]

theorem legacyType_word {g : Genus} {column : Nat} (hg : g ≠ .hole) (hc : column ≤ 2047) :
    Capi.isFilter (legacyType g) = false ∧ Capi.colid2tag (legacyType g) column % 65536 = capiWord g column := by
  have h1 : Capi.isFilter (legacyType g) = false := by cases g <;> decide
  refine ⟨h1, ?_⟩
  have h2 : legacyType g < 2 ^ 32 := Nat.mod_lt _ (by norm_num)
  have h3 : legacyType g % 65536 = g.code * 2048 := by cases g <;> decide
  have h4 : g.code < 32 := by cases g <;> decide
  unfold Capi.colid2tag capiWord
  rw [Nat.shiftLeft_zero]
  omega

/-- Words of the index below 2^16. -/
def WordsOk (s : RW) : Prop := ∀ a, s.head ≤ a → a < s.pivot → (s.mem a).hi < 65536

theorem wordsOk_of_wf {σ : Sch} {s : RW} (h : WF σ s) : WordsOk s := by
  intro a h1 h2
  by_cases c : (s.mem a).hi / 2048 = 31
  · omega
  · exact h.word a ⟨h1, h2, c⟩

/-- The entry which the C API finds is the one which the tuple itself finds. -/
theorem lookupRo_eq {m : Memory} {bytes column : Nat} {g : Genus} (hg : g ≠ .hole) (hc : column ≤ 2047) (hh : isHollow m bytes = false)
    (hw : WordsOk (roTuple m)) : lookupRo m bytes column (legacyType g) = (roTuple m).lookup (capiWord g column) := by
  obtain ⟨h1, h2⟩ := legacyType_word hg hc
  have h3 : Capi.first (fun i => (m i).hi % 65536) 1 (1 + Nested.indexSize (m 0)) column (legacyType g) =
      ((roTuple m).lookup (capiWord g column)).getD (1 + Nested.indexSize (m 0)) := by
    unfold Capi.first
    rw [if_neg (by rw [h1]; decide), capi_lookup_eq m _ (1 + Nested.indexSize (m 0)) _ h2 1 (fun i a b => hw i a b)]
    rfl
  unfold lookupRo
  rw [if_neg (by rw [hh]; decide)]
  dsimp only
  rw [h3]
  cases hl : (roTuple m).lookup (capiWord g column) with
  | none => exact if_neg (by simp)
  | some r =>
    have := lookupFrom_some hl
    exact if_pos (by show r ≠ _; have h4 := this.2.1; change r < 1 + Nested.indexSize (m 0) at h4; omega)

theorem lookup_genus {s : RW} {g : Genus} {column a : Nat} (hc : column ≤ 2047) (h : s.lookup (capiWord g column) = some a) :
    cellGenus (s.mem a) = g := by
  have h1 := (lookupFrom_some h).2.2.1
  unfold cellGenus
  rw [h1, show capiWord g column / 2048 = g.code by unfold capiWord; omega, Genus.ofCode_code]

/-- Reading the entry found is reading the field. -/
theorem fieldGet_eq {m : Memory} {g : Genus} {column : Nat} (hg : g ≠ .hole) (hc : column ≤ 2047) :
    fieldGet m ((roTuple m).lookup (capiWord g column)) g =
      match getLoose (roTuple m) (makeTag g column false true false) g with
      | .ok v => .ok v
      | .error e => .error (codeOf e) := by
  have ht := capi_tag (g := g) (column := column) false true hg hc
  unfold getLoose getEntry
  rw [if_neg (by rw [ht.coll]; decide), if_neg (fun k => k ht.genus), gid_eq, ht.word]
  cases hl : (roTuple m).lookup (capiWord g column) with
  | none =>
    show _ = match (if isDiscernible _ = true then _ else _ : Except Exc (Option Val)) with | .ok v => _ | .error e => _
    rw [if_pos ht.disc]
    rfl
  | some a =>
    have hg' : cellGenus (m a) = g := lookup_genus hc hl
    unfold fieldGet
    dsimp only
    rw [if_neg (fun k => k hg')]
    by_cases h1 : g.isInplaced = true
    · rw [if_pos h1, if_pos h1]; rfl
    · rw [if_neg h1, if_neg h1]
      by_cases h2 : g.isFixed = true ∨ (m a).lo ≠ 0
      · rw [if_pos h2, if_pos (show g.isFixed = true ∨ ((roTuple m).mem a).lo ≠ 0 from h2)]; rfl
      · rw [if_neg h2, if_neg (show ¬ (g.isFixed = true ∨ ((roTuple m).mem a).lo ≠ 0) from h2), if_pos ht.disc]

/-! ## C63 -/

theorem serialized_ro {F : Fix} {s : RW} (h : History F none s) (hmax : s.pivot - s.head ≤ 8191) (hsize : s.tail - s.head + 1 ≤ 65534) :
    isHollow (takeAsis none s) (bruttoSize s) = false ∧ WordsOk (roTuple (takeAsis none s)) ∧
    ∀ tag g, tag2genus tag ≠ .hole → g ≠ .varbin → getLoose (roTuple (takeAsis none s)) tag g = getLoose s tag g := by
  obtain ⟨_, k2, k3⟩ := C19_serialized_partial h (by show _ + 0 ≤ _; omega) hsize
  obtain ⟨wf, hp, hpre⟩ := h.facts
  have m := serialized_moved wf hpre hsize hmax
  refine ⟨?_, fun a h1 h2 => wordsOk_of_wf (m.wf wf) a h1 h2, fun tag g h1 h2 => k3.loose tag g h1 h2⟩
  unfold isHollow
  rw [k2]
  unfold bruttoSize units2bytes
  rw [Nat.shiftLeft_eq]
  simp

/-- **C63, single fields (partial).** Searching a field of a serialized tuple by type and column and reading it gives the value which the tuple had, and
`FPTU_ENOFIELD` when there is none. Missing: binaries of variable length (their defect: C05), and histories which meet the allocator's defects. -/
theorem C63_field_partial {F : Fix} {s : RW} (h : History F none s) (hmax : s.pivot - s.head ≤ 8191) (hsize : s.tail - s.head + 1 ≤ 65534)
    {g : Genus} {column : Nat} (hg : g ≠ .hole) (hv : g ≠ .varbin) (hc : column ≤ 2047) :
    fieldGet (takeAsis none s) (lookupRo (takeAsis none s) (bruttoSize s) column (legacyType g)) g =
      match getLoose s (makeTag g column false true false) g with
      | .ok v => .ok v
      | .error e => .error (codeOf e) := by
  obtain ⟨h1, h2, h3⟩ := serialized_ro h hmax hsize
  rw [lookupRo_eq hg hc h1 h2, fieldGet_eq hg hc, h3 _ _ (by rw [(capi_tag false true hg hc).genus]; exact hg) hv]

theorem cmpbin_eq {a b : List Nat} {n : Nat} (ha : a.length = n) (hb : b.length = n) : cmpbin a b n = Capi.cmpBinary a b := by
  unfold cmpbin Capi.cmpBinary
  dsimp only
  rw [ha, hb, Nat.min_self]
  have : Capi.cmp2int n n = 0 := by unfold Capi.cmp2int; rw [if_neg (by omega), if_neg (by omega)]
  rw [this]
  split
  · rename_i h; rw [h]
  · rfl

/-- The types with comparisons. -/
def cmpBytes : Genus → Nat
  | .bin96 => 12
  | .bin128 => 16
  | .bin160 => 20
  | .bin256 => 32
  | _ => 0

/-- **C63, binaries (partial).** Comparing a field of 96, 128, 160 or 256 bits with a value answers by the lexicographic order of the bytes of the field's
value and the given ones; when the field is absent or the pointer is null the answer is "incomparable". Missing: histories which meet the allocator's
defects. -/
theorem C63_compare_partial {F : Fix} {s : RW} (h : History F none s) (hmax : s.pivot - s.head ≤ 8191) (hsize : s.tail - s.head + 1 ≤ 65534)
    {g : Genus} {column : Nat} (hg : 0 < cmpBytes g) (hc : column ≤ 2047) :
    (∀ cs w, getLoose s (makeTag g column false true false) g = .ok (some (.units cs)) → (∀ c ∈ cs, Cell.ok c = true) → w.length = cmpBytes g →
      ∃ r, cmpFixed g (cmpBytes g) (takeAsis none s) (bruttoSize s) column (some w) = some r ∧ (r = .lt ↔ LexLt (cs.flatMap cellBytes) w) ∧
        (r = .gt ↔ LexLt w (cs.flatMap cellBytes)) ∧ (r = .eq ↔ cs.flatMap cellBytes = w)) ∧
    (∀ e w, getLoose s (makeTag g column false true false) g = .error e → cmpFixed g (cmpBytes g) (takeAsis none s) (bruttoSize s) column (some w) = none) ∧
    cmpFixed g (cmpBytes g) (takeAsis none s) (bruttoSize s) column none = none := by
  have hg' : g ≠ .hole := by rintro rfl; exact absurd hg (by decide)
  have hv : g ≠ .varbin := by rintro rfl; exact absurd hg (by decide)
  have hi : g.isInplaced = false ∧ g.isFixed = true ∧ cmpBytes g = 4 * g.looseUnits := by
    cases g <;> first | exact absurd hg (by decide) | exact ⟨rfl, rfl, rfl⟩
  have hr : ∀ m p, readPayload g m p = some (.units (m.readCells p g.looseUnits)) := by
    intro m p
    cases g <;> first | exact absurd hg (by decide) | rfl
  obtain ⟨h1, h2, h3⟩ := serialized_ro h hmax hsize
  have hl := lookupRo_eq (column := column) hg' hc h1 h2
  have key := fieldGet_eq (m := takeAsis none s) hg' hc
  rw [h3 _ _ (by rw [(capi_tag false true hg' hc).genus]; exact hg') hv] at key
  unfold cmpFixed
  dsimp only
  rw [hl]
  generalize takeAsis none s = m at *
  cases hf : (roTuple m).lookup (capiWord g column) with
  | none =>
    rw [hf] at key
    refine ⟨fun cs w e => ?_, fun e w _ => rfl, rfl⟩
    rw [e] at key; cases key
  | some a =>
    rw [hf] at key
    have hcell : cellGenus (m a) = g := lookup_genus hc hf
    have e1 : fieldGet m (some a) g = .ok (some (.units (m.readCells (a + (m a).lo) g.looseUnits))) := by
      unfold fieldGet
      dsimp only
      rw [if_neg (fun k => k hcell), if_neg (by rw [hi.1]; decide), if_pos (Or.inl hi.2.1), hr]
    rw [e1] at key
    refine ⟨fun cs w e hcs hw => ?_, fun e w he => ?_, rfl⟩
    · rw [e] at key
      dsimp only at key
      have ecs : m.readCells (a + (m a).lo) g.looseUnits = cs := Val.units.inj (Option.some.inj (Except.ok.inj key))
      have hb : m.readBytes (4 * (a + (m a).lo)) (cmpBytes g) = cs.flatMap cellBytes := by
        rw [hi.2.2, bytes_of_cells, ecs]
        intro i hi'
        refine hcs _ ?_
        rw [← ecs]
        exact List.mem_map.2 ⟨i, List.mem_range.2 hi', rfl⟩
      refine ⟨_, rfl, ?_⟩
      rw [cmpbin_eq (Memory.length_readBytes _ _ _) hw, hb]
      exact C37_cmp_binary_lex (cs.flatMap cellBytes) w
    · rw [he] at key; cases key

/-- A history with a 96-bit field. -/
def cmpOps : List Op := goodOps ++ [.set (fix .bin96 9) .bin96 (.units [⟨1, 2⟩, ⟨3, 4⟩, ⟨5, 6⟩])]

/-- The hypotheses meet: a tuple with fields of other types, a hole and a 96-bit field. -/
example : ∃ s, History .code none s ∧ s.jc = 1 ∧ s.pivot - s.head ≤ 8191 ∧ s.tail - s.head + 1 ≤ 65534 ∧
    cmpFixed .bin96 12 (takeAsis none s) (bruttoSize s) 9 (some [1, 0, 2, 0, 3, 0, 4, 0, 5, 0, 6, 0]) = some .eq ∧
    cmpFixed .bin96 12 (takeAsis none s) (bruttoSize s) 9 (some [1, 0, 2, 0, 3, 0, 4, 0, 5, 0, 5, 255]) = some .gt ∧
    cmpFixed .bin96 12 (takeAsis none s) (bruttoSize s) 8 (some [1, 0, 2, 0, 3, 0, 4, 0, 5, 0, 6, 0]) = none := by
  obtain ⟨s, hr, hp⟩ := run_decide (F := .code) (s := fresh 8 60) (ops := cmpOps) (fun s =>
      decide (s.jc = 1) && (decide (s.pivot - s.head ≤ 8191) && (decide (s.tail - s.head + 1 ≤ 65534) && (
      decide (cmpFixed .bin96 12 (takeAsis none s) (bruttoSize s) 9 (some [1, 0, 2, 0, 3, 0, 4, 0, 5, 0, 6, 0]) = some .eq) && (
      decide (cmpFixed .bin96 12 (takeAsis none s) (bruttoSize s) 9 (some [1, 0, 2, 0, 3, 0, 4, 0, 5, 0, 5, 255]) = some .gt) &&
      decide (cmpFixed .bin96 12 (takeAsis none s) (bruttoSize s) 8 (some [1, 0, 2, 0, 3, 0, 4, 0, 5, 0, 6, 0]) = none)))))) (by decide +kernel)
  simp only [Bool.and_eq_true, decide_eq_true_eq] at hp
  have hH : History .code none s := .of_run (mem := fun _ => .zero) (items := 8) (lim := 60) (image := [])
    (ops := cmpOps)
    (fun S k => (by cases k)) rfl (by decide) (by decide) (fun k g h => (by cases h)) (opOk_of (by decide +kernel)) (runBenign_of (by decide +kernel)) hr
  exact ⟨s, hH, hp⟩

/-- **C63, binaries of variable length.** For every serialized tuple, comparing a field with given bytes answers "equal" exactly when reading that field
gives these bytes (an absent field reads as empty), and otherwise by the lexicographic order, or "incomparable" when there is no field. -/
theorem C63_opaque {m : Memory} {bytes column : Nat} (hc : column ≤ 2047) (hh : isHollow m bytes = false) (hw : WordsOk (roTuple m)) (w : List Nat) :
    ∃ v, (getC m bytes .varbin column = .ok (some (.varbin v)) ∨ (getC m bytes .varbin column = .ok (some (.empty .varbin)) ∧ v = [])) ∧
      (cmpOpaque m bytes column w = some .eq ↔ v = w) ∧
      (lookupRo m bytes column (legacyType .varbin) = none → v ≠ w → cmpOpaque m bytes column w = none) ∧
      (lookupRo m bytes column (legacyType .varbin) ≠ none →
        (cmpOpaque m bytes column w = some .lt ↔ LexLt v w) ∧ (cmpOpaque m bytes column w = some .gt ↔ LexLt w v)) := by
  have hl := lookupRo_eq (g := .varbin) (by decide) hc hh hw
  have ht := capi_tag (g := .varbin) (column := column) false false (by decide) hc
  unfold cmpOpaque getC
  rw [hl, ht.made]
  dsimp only
  rw [if_neg (by rw [hh]; decide)]
  unfold getLoose getEntry
  rw [if_neg (by rw [ht.coll]; decide), if_neg (fun k => k ht.genus), gid_eq, ht.word]
  have hd : ¬ isDiscernible (makeTag .varbin column false false false) = true := by rw [ht.disc]; decide
  cases hf : (roTuple m).lookup (capiWord .varbin column) with
  | none =>
    refine ⟨[], Or.inr ⟨by rw [if_neg hd], rfl⟩, ?_, fun _ k => ?_, fun k => absurd rfl k⟩
    · dsimp only
      cases w with
      | nil => simp
      | cons x xs => simp
    · dsimp only
      rw [if_pos]
      cases w with
      | nil => exact absurd rfl k
      | cons x xs => simp
  | some a =>
    have hcell : cellGenus (m a) = .varbin := lookup_genus hc hf
    dsimp only
    rw [if_neg (show ¬ Genus.varbin.isInplaced = true by decide)]
    have lex : ∀ v, ((some (Capi.cmpBinary v w) : Answer) = some .eq ↔ v = w) ∧ ((some a : Option Nat) = none → v ≠ w → (some (Capi.cmpBinary v w) : Answer) = none) ∧
        ((some a : Option Nat) ≠ none → ((some (Capi.cmpBinary v w) : Answer) = some .lt ↔ LexLt v w) ∧ ((some (Capi.cmpBinary v w) : Answer) = some .gt ↔ LexLt w v)) := by
      intro v
      obtain ⟨a1, a2, a3⟩ := C37_cmp_binary_lex v w
      rw [Option.some_inj, Option.some_inj, Option.some_inj]
      exact ⟨a3, (fun k => by cases k), (fun _ => ⟨a1, a2⟩)⟩
    by_cases h0 : (m a).lo = 0
    · have e1 : fieldOpaque m a = [] := by
        unfold fieldOpaque fieldGet
        dsimp only
        rw [if_neg (fun k => k hcell), if_neg (by decide), if_neg (by rintro (k | k); exact absurd k (by decide); exact k h0)]
      rw [e1]
      refine ⟨[], Or.inr ⟨?_, rfl⟩, lex []⟩
      rw [if_neg (by rintro (k | k); exact absurd k (by decide); exact k h0), if_neg hd]
    · have e1 : fieldOpaque m a = Varbin.read m (a + (m a).lo) := by
        unfold fieldOpaque fieldGet
        dsimp only
        rw [if_neg (fun k => k hcell), if_neg (by decide), if_pos (Or.inr h0)]
        rfl
      rw [e1]
      refine ⟨_, Or.inl ?_, lex _⟩
      rw [if_pos (show Genus.varbin.isFixed = true ∨ ((roTuple m).mem a).lo ≠ 0 from Or.inr h0)]
      rfl

/-- **C63, refuted beyond the greatest column.** A column number above 2047 is not refused: the comparison of a 96-bit field looks at the 128-bit field of
column `c` when asked for column `2048 + c`. -/
theorem C63_column_refuted (m : Memory) (bytes c : Nat) (hc : c ≤ 2047) (w : List Nat) :
    cmpFixed .bin96 12 m bytes (2048 + c) (some w) =
      match lookupRo m bytes c (legacyType .bin128) with
      | none => none
      | some a => some (cmpbin (m.readBytes (4 * (a + (m a).lo)) 12) w 12) := by
  have e : lookupRo m bytes (2048 + c) (legacyType .bin96) = lookupRo m bytes c (legacyType .bin128) := by
    have e1 : Capi.isFilter (legacyType .bin96) = false := by decide
    have e2 : Capi.isFilter (legacyType .bin128) = false := by decide
    have e3 : Capi.colid2tag (legacyType .bin96) (2048 + c) = Capi.colid2tag (legacyType .bin128) c := by
      unfold Capi.colid2tag
      rw [Nat.shiftLeft_zero, Nat.shiftLeft_zero, show legacyType .bin128 = legacyType .bin96 + 2048 by decide]
      congr 1; omega
    have ef : ∀ idx b e, Capi.first idx b e (2048 + c) (legacyType .bin96) = Capi.first idx b e c (legacyType .bin128) := fun idx b e => by
      unfold Capi.first
      rw [if_neg (by rw [e1]; decide), if_neg (by rw [e2]; decide), e3]
    unfold lookupRo
    simp only [ef]
  unfold cmpFixed
  simp only [e]
  generalize lookupRo m bytes c (legacyType .bin128) = r
  cases r <;> rfl

/-- A serialized tuple with one 128-bit field in column 5 and one binary of four bytes in column 6. -/
def cmpSample : Memory := fun i => ([⟨9, 16⟩, ⟨2, capiWord .bin128 5⟩, ⟨5, capiWord .varbin 6⟩, ⟨1, 2⟩, ⟨3, 4⟩, ⟨5, 6⟩, ⟨7, 8⟩, ⟨2, 0⟩, ⟨0x0201, 0x0403⟩] : List Cell).getD i .zero

example : isHollow cmpSample 36 = false ∧ cmpFixed .bin96 12 cmpSample 36 (2048 + 5) (some [1, 0, 2, 0, 3, 0, 4, 0, 5, 0, 6, 0]) = some .eq := by decide +kernel

example : (∀ a < 3, 1 ≤ a → (cmpSample a).hi < 65536) ∧ cmpOpaque cmpSample 36 6 [1, 2, 3, 4] = some .eq ∧ cmpOpaque cmpSample 36 6 [1, 2, 4] = some .lt ∧
    cmpOpaque cmpSample 36 7 [1] = none ∧ cmpOpaque cmpSample 36 7 [] = some .eq := by decide +kernel

/-- **C63, the code of `fptu_get_cstr` (refuted).** After finding a text it leaves what `error` points to as it was, so an earlier error stays there. Every
other getter stores `FPTU_OK` on success (first part) and the code of the failure otherwise. An absent text is always reported. -/
theorem C63_error_refuted :
    (∀ (last : Code) (r : Except Code (Option Val)), ((guardError last r).1 = .ok ↔ (∃ v, r = .ok v) ∨ r = .error .ok) ∧ (∀ c, r = .error c → guardError last r = (c, c))) ∧
    (∀ prev a, cstrError prev (some a) = prev) ∧ (∀ prev, cstrError prev none = .nofield) ∧ cstrError .inval (some 1) ≠ .ok := by
  refine ⟨fun last r => ?_, fun _ _ => rfl, fun _ => rfl, by decide⟩
  cases r with
  | ok v => exact ⟨⟨fun _ => Or.inl ⟨v, rfl⟩, fun _ => rfl⟩, fun c k => by cases k⟩
  | error c =>
    refine ⟨⟨fun k => Or.inr (by rw [show c = .ok from k]), ?_⟩, fun d k => by cases k; rfl⟩
    rintro (⟨v, k⟩ | k)
    · cases k
    · cases k; rfl

/-! ## C64: tags -/

theorem tagC_word {g : Genus} {column : Nat} (hc : column ≤ 2047) : legacyType g column % 65536 = g.code * 2048 + column ∧ legacyType g column < 2 ^ 32 := by
  have h : legacyType g column < 2 ^ 32 := Nat.mod_lt _ (by norm_num)
  refine ⟨?_, h⟩
  have h4 : g.code < 32 := by cases g <;> decide
  have e : legacyType g column = (looseThreshold + g.code * 2 ^ 11 + column + collectionFlag + discernibleFlag + 0) % 2 ^ 32 := rfl
  rw [e, show looseThreshold = 65528 * 65536 from by decide, show collectionFlag = 4 * 65536 from by decide, show discernibleFlag = 65536 from by decide]
  omega

/-- **C64 (partial).** A tag made of a column and a type gives back both, is never one of a deleted field, and is of fixed size exactly when the type is; the
type of a tag is one of the named constants (`legacyType g`). Missing: columns above 2047 (`C64_tag_refuted`). -/
theorem C64_tag_partial {g : Genus} {column : Nat} (hg : g ≠ .hole) (hc : column ≤ 2047) :
    getColnum (makeTagC column (legacyType g)) = column ∧ getType (makeTagC column (legacyType g)) = legacyType g ∧
    isDeleted (makeTagC column (legacyType g)) = false ∧ (isFixedsize (makeTagC column (legacyType g)) = true ↔ g.isFixed = true) := by
  have h4 : g.code < 32 := by cases g <;> decide
  have e0 : tag2genus (legacyType g) = g := by cases g <;> decide
  have e1 : makeTagC column (legacyType g) = legacyType g column := by unfold makeTagC; rw [e0]
  obtain ⟨w1, w2⟩ := tagC_word (g := g) hc
  have e2 : legacyType g column % 2 ^ 32 = legacyType g column := Nat.mod_eq_of_lt w2
  have e3 : tag2genus (legacyType g column) = g := by
    unfold tag2genus
    rw [tag2genusCode_eq, show legacyType g column % 65536 / 2048 = g.code by omega, Genus.ofCode_code]
  rw [e1]
  unfold getColnum getType isDeleted isFixedsize
  rw [e2, e3]
  refine ⟨?_, rfl, ?_, ?_⟩
  · rw [tag2id_eq]; omega
  · exact beq_eq_false_iff_ne.2 hg
  · unfold tagIsFixedSize Genus.isFixed
    rw [bne_iff_ne, decide_eq_true_eq]
    have : legacyType g column &&& 0xE000 = (legacyType g column / 2 ^ 13 % 2 ^ 3) * 2 ^ 13 := by
      apply Nat.eq_of_testBit_eq
      intro i
      rw [Nat.testBit_and, Nat.testBit_mul_two_pow, Nat.testBit_mod_two_pow, Nat.testBit_div_two_pow]
      rw [show (0xE000 : Nat) = (2 ^ 3 - 1) * 2 ^ 13 from rfl, Nat.testBit_mul_two_pow, Nat.testBit_two_pow_sub_one]
      by_cases h1 : 13 ≤ i
      · rw [decide_eq_true h1, show i - 13 + 13 = i by omega]
        simp [Bool.and_comm]
      · rw [decide_eq_false h1]; simp
    rw [this]
    omega

/-- **C64, refuted beyond the greatest column.** A column above 2047 is not refused (the assertion is for debug builds) and makes a tag of another type. -/
theorem C64_tag_refuted : getColnum (makeTagC 2048 (legacyType .bin96)) = 0 ∧ getType (makeTagC 2048 (legacyType .bin96)) = legacyType .bin128 := by decide

/-- **C64, fields.** The type and column reported for an entry make up the tag of that entry, so searching for them in its tuple finds a field; the null pointer
is reported as dead, with the type `fptu_null` and column -1. -/
theorem C64_field (m : Memory) (a : Nat) (hw : (m a).hi < 65536) :
    (fieldIsDead m (some a) = true ↔ (m a).hi / 2048 = 31) ∧
    (∃ c : Nat, fieldColumn m (some a) = c ∧ c ≤ 2047 ∧ Capi.colid2tag (fieldType m (some a)) c % 65536 = (m a).hi) ∧
    fieldIsDead m none = true ∧ fieldColumn m none = -1 ∧ ∀ g, fieldType m none ≠ legacyType g := by
  have hcode : (cellGenus (m a)).code = (m a).hi / 2048 := by
    unfold cellGenus
    have : ∀ n < 32, (Genus.ofCode n).code = n := by decide
    exact this _ (by omega)
  refine ⟨?_, ⟨(m a).hi % 2048, rfl, by omega, ?_⟩, rfl, rfl, ?_⟩
  · unfold fieldIsDead
    rw [beq_iff_eq]
    constructor
    · intro h; rw [← hcode, h]; rfl
    · intro h; unfold cellGenus; rw [h]; rfl
  · have h3 := (tagC_word (g := cellGenus (m a)) (column := 0) (by omega)).1
    have h2 := (tagC_word (g := cellGenus (m a)) (column := 0) (by omega)).2
    unfold fieldType Capi.colid2tag
    dsimp only
    rw [Nat.shiftLeft_zero]
    omega
  · intro g
    show 2 ^ 32 - 1 ≠ legacyType g
    clear hcode hw
    cases g <;> decide

private theorem pair_inj {f : Genus → Option String} {l : List Genus} (h : l.Pairwise fun x y => (f x).isSome = true → f x ≠ f y) {g g' : Genus}
    (hg : g ∈ l) (hg' : g' ∈ l) (hs : (f g).isSome = true) (he : f g = f g') : g = g' := by
  obtain ⟨i, hi, rfl⟩ := List.getElem_of_mem hg
  obtain ⟨j, hj, rfl⟩ := List.getElem_of_mem hg'
  rw [List.pairwise_iff_getElem] at h
  rcases Nat.lt_trichotomy i j with k | k | k
  · exact absurd he (h i j hi hj k hs)
  · subst k; rfl
  · exact absurd he.symm (h j i hj hi k (he ▸ hs))

/-- The names of the types of the C API. -/
def capiNames : List (Genus × Option String) :=
  [(.u16, some "uint16"), (.i8, none), (.i32, some "int32"), (.u32, some "uint32"), (.f32, some "fp32"), (.i64, some "int64"), (.u64, some "uint64"),
    (.f64, some "fp64"), (.t64, some "datetime"), (.bin96, some "b96"), (.bin128, some "b128"), (.bin160, some "b160"), (.bin256, some "b256"),
    (.ip, none), (.mac, none), (.ipnet, none), (.text, some "cstr"), (.varbin, some "opaque"), (.nested, some "nested")]

/-- **C64, names (partial).** The names are those of the types, and types with different names are different. Missing: `fptu_bool`, `fptu_ip`, `fptu_mac`,
`fptu_ipnet` have no name (`C64_name_refuted`). -/
theorem C64_name_partial : (namedTypes.map fun g => (g, typeName (legacyType g))) = capiNames ∧
    ∀ g ∈ namedTypes, ∀ g' ∈ namedTypes, (typeName (legacyType g)).isSome = true → typeName (legacyType g) = typeName (legacyType g') → g = g' := by
  have h1 : (namedTypes.map fun g => (g, typeName (legacyType g))) = capiNames := by decide +kernel
  refine ⟨h1, ?_⟩
  have h2 : capiNames.Pairwise fun x y => x.2.isSome = true → x.2 ≠ y.2 := by
    unfold capiNames
    simp only [List.pairwise_cons, List.mem_cons, List.not_mem_nil, or_false, forall_eq_or_imp, forall_eq, Option.isSome_some, Option.isSome_none,
      Option.some.injEq, ne_eq, reduceCtorEq, not_false_eq_true, implies_true, String.reduceEq, List.Pairwise.nil, and_self,
      Bool.false_eq_true, forall_const, false_and, imp_self, IsEmpty.forall_iff]
  rw [← h1] at h2
  clear h1
  generalize namedTypes = l at h2 ⊢
  generalize hf : (fun g => typeName (legacyType g)) = f
  have hg : ∀ g, typeName (legacyType g) = f g := fun g => hf ▸ rfl
  simp only [hg] at h2 ⊢
  rw [List.pairwise_map] at h2
  exact fun g hg g' hg' hs he => pair_inj h2 hg hg' hs he

/-- **C64, names (refuted).** Four of the types of the C API are named "invalid(fptu_type)…". -/
theorem C64_name_refuted : ∀ g ∈ namedTypes, typeName (legacyType g) = none ↔ g = .i8 ∨ g = .ip ∨ g = .mac ∨ g = .ipnet := by decide +kernel

end Fptu.Props
