import Verif.Model.Token
import Verif.Props.Tags
/-!
# Property C75: tokens compare and convert consistently

The statements use the operators of tokens as a user writes them and the plain reading of a tag (`SameField`, C02).
-/
namespace Fptu.Props
open Fptu

/-- **C75 (order).** The four relations of order are one total order of fields: any two tokens are comparable, the relations are
transitive and agree with each other, and two tokens are mutually `<=` exactly when they address the same field. -/
theorem C75_order (a b c : Nat) (ha : a < 2 ^ 32) (hb : b < 2 ^ 32) :
    (Token.le a b = true ∨ Token.le b a = true) ∧ (Token.le a b = true → Token.le b c = true → Token.le a c = true) ∧
    (Token.lt a b = true ↔ Token.le b a = false) ∧ (Token.gt a b = true ↔ Token.lt b a = true) ∧ (Token.ge a b = true ↔ Token.le b a = true) ∧
    (Token.le a b = true ∧ Token.le b a = true ↔ SameField a b) := by
  rw [← C02_same_iff a b ha hb]
  simp only [Token.le, Token.lt, Token.ge, Token.gt, tagLess, tagSame, Bool.not_eq_true', Bool.not_eq_false', decide_eq_true_eq,
    decide_eq_false_iff_not, beq_iff_eq]
  generalize normalizeTag a = x, normalizeTag b = y, normalizeTag c = z
  refine ⟨by omega, by omega, trivial, trivial, trivial, by omega⟩

/-- **C75 (equality).** `==` and `!=` are complementary, `==` is equality of tokens, and equal tokens address one field, hash equally
and are not ordered strictly. -/
theorem C75_equality (a b : Nat) (ha : a < 2 ^ 32) :
    (Token.eq a b = true ↔ a = b) ∧ Token.ne a b = !Token.eq a b ∧
    (Token.eq a b = true → SameField a b ∧ tokenHash a = tokenHash b ∧ Token.lt a b = false ∧ Token.lt b a = false) := by
  refine ⟨beq_iff_eq, rfl, fun h => ?_⟩
  obtain rfl : a = b := beq_iff_eq.1 h
  have hl := (C02_strict_weak_order a a a ha ha).1
  exact ⟨((C02_strict_weak_order a a a ha ha).2.2.2).1 ⟨hl, hl⟩, rfl, hl, hl⟩

/-- **C75 (the order is that of `==`) is false**: two tokens that are mutually `<=` need not be `==`; none of `<`, `==`, `>` holds. -/
theorem C75_trichotomy_refuted : ∃ a b, tokenLoose 8 5 false false false = .ok a ∧ tokenLoose 8 5 false true false = .ok b ∧
    Token.le a b = true ∧ Token.le b a = true ∧ Token.eq a b = false ∧ Token.lt a b = false ∧ Token.gt a b = false := by
  exact ⟨_, _, rfl, rfl, by decide, by decide, by decide, by decide, by decide⟩

/-- **C75 (trichotomy).** For tokens of the same modes exactly one of `<`, `==`, `>` holds. -/
theorem C75_trichotomy_partial (a b : Nat) (ha : a < 2 ^ 32) (hb : b < 2 ^ 32) (hd : isDiscernible a = isDiscernible b)
    (hs : isSaturated a = isSaturated b) (hc : isLooseCollection a = isLooseCollection b) :
    (Token.lt a b = true ∧ Token.eq a b = false ∧ Token.gt a b = false) ∨ (Token.lt a b = false ∧ Token.eq a b = true ∧ Token.gt a b = false) ∨
    (Token.lt a b = false ∧ Token.eq a b = false ∧ Token.gt a b = true) := by
  obtain ⟨h1, _, h3, h4⟩ := C02_strict_weak_order a b a ha hb
  obtain ⟨_, _, h5, _⟩ := C02_strict_weak_order b a b hb ha
  have key : SameField a b → a = b := by
    intro h
    rw [isDiscernible_iff, isDiscernible_iff, decide_eq_decide] at hd
    rw [isSaturated_iff, isSaturated_iff, decide_eq_decide] at hs
    rw [isLooseCollection_eq, isLooseCollection_eq, decide_eq_decide] at hc
    unfold SameField at h
    split at h <;> omega
  unfold Token.gt Token.lt Token.eq
  by_cases e : a = b
  · subst e
    refine Or.inr (Or.inl ⟨h1, beq_self_eq_true _, h1⟩)
  · have e' : (a == b) = false := beq_eq_false_iff_ne.2 e
    rw [e']
    cases x : tagLess a b
    · cases y : tagLess b a
      · exact absurd (key (h4.1 ⟨x, y⟩)) e
      · exact Or.inr (Or.inr ⟨rfl, rfl, rfl⟩)
    · rw [h3 x]
      exact Or.inl ⟨rfl, rfl, rfl⟩

example : Token.lt 4294443013 4294443014 = true ∧ isDiscernible 4294443013 = isDiscernible 4294443014 ∧
    isSaturated 4294443013 = isSaturated 4294443014 ∧ isLooseCollection 4294443013 = isLooseCollection 4294443014 := by decide

/-- **C75 (casts of placement).** A cast succeeds exactly for tokens of that placement (`type_mismatch` otherwise), keeps the token and
answers every question about the placement as the token itself. -/
theorem C75_casts (a : Nat) :
    Token.castPreplaced a = (if a < 4294443008 then .ok (a, Token.placement a) else .error .typeMismatch) ∧
    Token.castLoose a = (if a < 4294443008 then .error .typeMismatch else .ok (a, Token.placement a)) := by
  unfold Token.castPreplaced Token.castLoose Token.placement
  by_cases h : a < 4294443008
  · have h1 := isPreplaced_true.2 h
    have h2 := isLoose_false.2 h
    have h3 : isLooseCollection a = false := by rw [isLooseCollection_eq, decide_eq_false_iff_not]; omega
    have h4 : isLooseInlay a = false := by
      unfold isLooseInlay
      rw [beq_eq_false_iff_ne]
      intro k
      have := Nat.and_le_left (n := a) (m := inlayPattern)
      rw [k, show inlayPattern = 4294444032 from by decide] at this
      omega
    rw [if_pos h, if_pos h, h1, h2, h3, h4]
    exact ⟨rfl, rfl⟩
  · have h1 := isPreplaced_false.2 (Nat.not_lt.1 h)
    have h2 := isLoose_true.2 (Nat.not_lt.1 h)
    rw [if_neg h, if_neg h, h1, h2]
    exact ⟨rfl, rfl⟩

/-- **C75 (cast of type).** A cast to a type succeeds exactly for tokens of this type, keeps the token and answers its type. -/
theorem C75_cast_type (g : Genus) (a : Nat) :
    Token.castTypecheck g a = (if tag2genusCode a = g.code then .ok (a, tag2genus a) else .error .typeMismatch) := by
  unfold Token.castTypecheck
  have hlt : tag2genusCode a < 32 := by rw [tag2genusCode_eq]; omega
  have key : tag2genus a = g ↔ tag2genusCode a = g.code := by
    unfold tag2genus
    constructor
    · rintro rfl
      exact (Genus.code_ofCode _ hlt).symm
    · intro h
      rw [h, Genus.ofCode_code]
  by_cases h : tag2genus a = g
  · rw [if_neg (not_not.2 h), if_pos (key.1 h), h]
  · rw [if_pos h, if_neg (fun k => h (key.2 k))]

example : Token.castPreplaced 4294443013 = .error .typeMismatch ∧ (∃ t, Token.castLoose 4294443013 = .ok t) :=
  ⟨rfl, _, rfl⟩

/-- **C75 (only tokens of fields are preplaced) is false**: the token made by default is not valid, but the cast to a preplaced token accepts
it; it names a text at offset 0. -/
theorem C75_default_refuted : Token.isValid Token.absentToken = false ∧ (∃ p, Token.castPreplaced Token.absentToken = .ok p) ∧
    tag2genus Token.absentToken = .text ∧ tag2offset Token.absentToken = 0 := by
  exact ⟨rfl, ⟨_, rfl⟩, rfl, rfl⟩

/-- **C75 (valid).** Every token made by the constructors is valid. -/
theorem C75_valid (t id : Nat) (off : Int) (c d s : Bool) (tag : Nat)
    (h : tokenLoose t id c d s = .ok tag ∨ (-(2 ^ 63) ≤ off ∧ off < 2 ^ 63) ∧ tokenPreplaced off t d s = .ok tag) :
    Token.isValid tag = true := by
  unfold Token.isValid
  rw [bne_iff_ne]
  rintro rfl
  rcases h with h | ⟨h0, h⟩
  · obtain ⟨_, _, _, k, _⟩ := C01_loose_token_lossless _ _ _ _ _ _ h
    exact absurd k (by decide)
  · obtain ⟨_, _, _, _, _, _, _, k1, k2, _⟩ := C01_preplaced_token_lossless _ _ _ _ _ h0 h
    rw [show tag2genusCode 0 = 0 from rfl] at k1
    subst k1
    exact absurd k2 (by decide)

/-- **C75 (asserted) is false for the type `hole`**: the constructor of preplaced tokens lets it pass (the check is `type > hole`) and
then violates the assertion that the size is not zero. -/
theorem C75_hole_refuted : Token.preplacedChecked 8 31 false false = .ok none := by rfl

/-- **C75 (asserted).** For every other type the constructor either throws or meets the assertions, and makes the token of C01. -/
theorem C75_asserted_partial (off : Int) (t : Nat) (d s : Bool) (ht : t ≠ 31) :
    Token.preplacedChecked off t d s = (tokenPreplaced off t d s).map some := by
  unfold Token.preplacedChecked tokenPreplaced
  by_cases h1 : (off % (2 ^ 64 : Int)).toNat > maxPreplacedOffset
  · rw [if_pos h1, if_pos h1]; rfl
  · rw [if_neg h1, if_neg h1]
    by_cases h2 : t > 31
    · rw [if_pos h2, if_pos h2]; rfl
    · rw [if_neg h2, if_neg h2]
      unfold Token.tagFromOffsetChecked
      rw [if_pos]
      · rfl
      · have : ∀ n, n < 31 → 0 < (Genus.ofCode n).preplacedBytes ∧ (Genus.ofCode n).preplacedBytes ≤ maxIdent := by decide
        exact ⟨Nat.not_lt.1 h1, this t (by omega)⟩

/-- **C75 (members of structures).** The token of a member of a structure, `FPTU_TOKEN`, is the token constructed from the offset and the
type when the member has the size of the type; a member beyond the largest offset does not compile. -/
theorem C75_native (off : Nat) (t : Nat) (d s : Bool) (ht : t < 31) :
    (off ≤ 16381 → (Token.native off (Genus.ofCode t) (Genus.ofCode t).preplacedBytes d s).map Except.ok = some (tokenPreplaced off t d s)) ∧
    (16381 < off → ∀ n, Token.native off (Genus.ofCode t) n d s = none) := by
  constructor
  · intro h
    have e : ((off : Int) % (2 ^ 64 : Int)).toNat = off := by omega
    have : ∀ n, n < 31 → 0 < (Genus.ofCode n).preplacedBytes ∧ (Genus.ofCode n).preplacedBytes ≤ maxIdent := by decide
    unfold Token.native Token.tagFromOffsetChecked tokenPreplaced
    rw [e, if_pos ⟨h, this t ht⟩, if_neg (show ¬ off > maxPreplacedOffset from Nat.not_lt.2 h), if_neg (by omega)]
    rfl
  · intro h n
    unfold Token.native Token.tagFromOffsetChecked
    exact if_neg (fun k => absurd k.1 (Nat.not_le.2 h))

/-- **C75 (kinds).** The questions about the type of a token: a number is either an integer or floating-point; a number is either signed
or unsigned; floating-point numbers are signed; a boolean is a signed 8-bit integer, an enumeration a signed 16-bit one, a decimal a
floating-point number; text is stretchy and no number. -/
theorem C75_kinds (a : Nat) :
    Token.isNumber a = Bool.xor (Token.isInteger a) (Token.isFloat a) ∧ Token.isNumber a = Bool.xor (Token.isSigned a) (Token.isUnsigned a) ∧
    (Token.isFloat a = true → Token.isSigned a = true) ∧ (Token.isBool a = true → Token.isInteger a = true ∧ Token.isSigned a = true) ∧
    (Token.isEnum a = true → Token.isInteger a = true ∧ Token.isSigned a = true) ∧ (Token.isDecimal a = true → Token.isFloat a = true) ∧
    (Token.isText a = true → Token.isStretchy a = true) ∧ (Token.isStretchy a = true → Token.isNumber a = false) := by
  have hlt : tag2genusCode a < 32 := by rw [tag2genusCode_eq]; omega
  have hf : Token.isStretchy a = decide (tag2genusCode a < 4) := by
    unfold Token.isStretchy
    rw [isFixedSize_iff, tag2genusCode_eq, ← decide_not, decide_eq_decide]
    omega
  rw [hf]
  unfold Token.isNumber Token.isInteger Token.isFloat Token.isSigned Token.isUnsigned Token.isBool Token.isEnum Token.isDecimal Token.isText tag2genus
  generalize tag2genusCode a = n at hlt
  revert n
  decide +kernel

end Fptu.Props
