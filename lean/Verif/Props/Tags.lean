import Verif.Lemmas.Tags
/-!
# Properties C01, C02: tokens

The statements use only the token constructors, the token accessors and plain arithmetic.
-/
set_option linter.unusedSimpArgs false
namespace Fptu.Props
open Fptu

/-- C01 (loose). For every type, id and flag combination accepted by the constructor the token
reports back exactly what it was built from. -/
theorem C01_loose_token_lossless (t id : Nat) (c d s : Bool) (tag : Nat)
    (h : tokenLoose t id c d s = .ok tag) :
    t < 31 ∧ id < 2048 ∧ tag < 2 ^ 32 ∧
    isLoose tag = true ∧ isPreplaced tag = false ∧
    tag2genusCode tag = t ∧ tag2id tag = id ∧
    isLooseCollection tag = c ∧ isDiscernible tag = d ∧ isSaturated tag = s ∧
    (isLooseInlay tag = decide (id ≥ 1024)) ∧
    (tagIsFixedSize tag = decide (t > 3)) := by
  unfold tokenLoose at h
  split at h
  · cases h
  · rename_i ht
    split at h
    · cases h
    · rename_i hid
      have ht' : t < 31 := by omega
      have hid' : id < 2048 := by simp [maxIdent] at hid; omega
      have hcode := Genus.code_ofCode t (by omega)
      injection h with h
      have htag : tag = looseThreshold + t * 2048 + id + (if c then 262144 else 0)
          + (if d then 65536 else 0) + (if s then 131072 else 0) := by
        rw [← h]
        simp only [makeTag, hcode, looseThreshold_eq, collectionFlag,
          discernibleFlag, saturationFlag]
        cases c <;> cases d <;> cases s <;> simp only [if_true, if_false, Bool.false_eq_true, decide_eq_true_eq, decide_eq_false_iff_not] <;> omega
      rw [looseThreshold_eq] at htag
      have hinl : isLooseInlay tag = decide (id ≥ 1024) := by
        have hb : tag / 2 ^ 10 % 2 = id / 1024 % 2 := by
          rw [htag]; cases c <;> cases d <;> cases s <;> simp only [if_true, if_false, Bool.false_eq_true, decide_eq_true_eq, decide_eq_false_iff_not] <;> omega
        have hhi : tag / 2 ^ 19 = 8191 := by
          rw [htag]; cases c <;> cases d <;> cases s <;> simp only [if_true, if_false, Bool.false_eq_true, decide_eq_true_eq, decide_eq_false_iff_not] <;> omega
        have e : inlayPattern = 2 ^ 19 * 8191 + 2 ^ 10 := by decide
        have hand : tag &&& inlayPattern = 2 ^ 19 * 8191 + 2 ^ 10 * (id / 1024 % 2) := by
          rw [Bits.land_split 19, hhi, show inlayPattern / 2 ^ 19 = 8191 by decide,
            show inlayPattern % 2 ^ 19 = 2 ^ 10 by decide, Bits.and_pow, Nat.and_self]
          congr 2
          omega
        unfold isLooseInlay
        rw [hand, e]
        by_cases hge : id ≥ 1024
        · have : id / 1024 % 2 = 1 := by omega
          simp [this, hge]
        · have : id / 1024 % 2 = 0 := by omega
          simp [this, hge]
      refine ⟨ht', hid', ?_, ?_, ?_, ?_, ?_, ?_, ?_, ?_, hinl, ?_⟩
      · rw [htag]; cases c <;> cases d <;> cases s <;> simp only [if_true, if_false, Bool.false_eq_true, decide_eq_true_eq, decide_eq_false_iff_not] <;> omega
      · rw [isLoose_true]; omega
      · rw [isPreplaced_false]; omega
      · rw [tag2genusCode_eq, htag]; cases c <;> cases d <;> cases s <;> simp only [if_true, if_false, Bool.false_eq_true, decide_eq_true_eq, decide_eq_false_iff_not] <;> omega
      · rw [tag2id_eq, htag]; cases c <;> cases d <;> cases s <;> simp only [if_true, if_false, Bool.false_eq_true, decide_eq_true_eq, decide_eq_false_iff_not] <;> omega
      · rw [isLooseCollection_eq, htag]
        cases c <;> cases d <;> cases s <;> simp only [if_true, if_false, Bool.false_eq_true, decide_eq_true_eq, decide_eq_false_iff_not] <;> omega
      · rw [isDiscernible_iff, htag]; cases c <;> cases d <;> cases s <;> simp only [if_true, if_false, Bool.false_eq_true, decide_eq_true_eq, decide_eq_false_iff_not] <;> omega
      · rw [isSaturated_iff, htag]; cases c <;> cases d <;> cases s <;> simp only [if_true, if_false, Bool.false_eq_true, decide_eq_true_eq, decide_eq_false_iff_not] <;> omega
      · rw [isFixedSize_iff, htag]
        have : ∀ a b : Prop, [Decidable a] → [Decidable b] → (a ↔ b) → decide a = decide b := by
          intro a b _ _ hab; simp [hab]
        apply this
        cases c <;> cases d <;> cases s <;> simp only [if_true, if_false, Bool.false_eq_true, decide_eq_true_eq, decide_eq_false_iff_not] <;> omega

/-- C01: the loose constructor accepts exactly the documented ranges, everything else throws
`invalid_argument`. -/
theorem C01_loose_token_accepts (t id : Nat) (c d s : Bool) :
    ((∃ tag, tokenLoose t id c d s = .ok tag) ↔ (t < 31 ∧ id ≤ 2047)) ∧
    (¬ (t < 31 ∧ id ≤ 2047) → tokenLoose t id c d s = .error .invalidArgument) := by
  unfold tokenLoose maxIdent
  by_cases ht : t ≥ 31
  · simp [ht]
    omega
  · by_cases hid : id > 2 ^ 11 - 1
    · simp [ht, hid]
    · have h1 : t < 31 := by omega
      have h2 : id ≤ 2047 := by omega
      simp [ht, hid, h1, h2]

example : tokenLoose 8 1023 true false true = .ok 0xFFFE43FF := by decide
example : tokenLoose 30 2047 true true true = .ok 0xFFFFF7FF := by decide
example : tokenLoose 31 0 false false false = .error .invalidArgument := by decide

/-- C01 (preplaced). Every accepted preplaced token reports back offset, type, size and flags, and
is never mistaken for a loose one. -/
theorem C01_preplaced_token_lossless (off : Int) (t : Nat) (d s : Bool) (tag : Nat)
    (hrange : -(2 ^ 63) ≤ off ∧ off < 2 ^ 63)
    (h : tokenPreplaced off t d s = .ok tag) :
    t ≤ 31 ∧ 0 ≤ off ∧ off ≤ 16381 ∧ tag < 2 ^ 32 ∧
    isPreplaced tag = true ∧ isLoose tag = false ∧
    (tag2offset tag : Int) = off ∧ tag2genusCode tag = t ∧
    tag2indysize tag = (Genus.ofCode t).preplacedBytes ∧
    isDiscernible tag = d ∧ isSaturated tag = s ∧
    isLooseCollection tag = false ∧
    (tagIsFixedSize tag = decide (t > 3)) := by
  unfold tokenPreplaced at h
  split at h
  · cases h
  · rename_i hoff
    split at h
    · cases h
    · rename_i ht
      have ht' : t < 32 := by omega
      have hcode := Genus.code_ofCode t ht'
      have hpb : (Genus.ofCode t).preplacedBytes ≤ 64 := by
        cases Genus.ofCode t <;> simp [Genus.preplacedBytes]
      generalize hsz : (Genus.ofCode t).preplacedBytes = sz at *
      generalize ho : (off % (2 ^ 64 : Int)).toNat = o at *
      simp only [maxPreplacedOffset] at hoff
      have hoff0 : 0 ≤ off ∧ off ≤ 16381 ∧ (o : Int) = off := by omega
      injection h with h
      have htag : tag = t * 2048 + o * 262144 + sz
          + (if d then 65536 else 0) + (if s then 131072 else 0) := by
        rw [← h]
        simp only [tagFromOffset, hcode, discernibleFlag, saturationFlag]
        cases d <;> cases s <;> simp only [if_true, if_false, Bool.false_eq_true, decide_eq_true_eq, decide_eq_false_iff_not] <;> omega
      refine ⟨by omega, hoff0.1, hoff0.2.1, ?_, ?_, ?_, ?_, ?_, ?_, ?_, ?_, ?_, ?_⟩
      · rw [htag]; cases d <;> cases s <;> simp only [if_true, if_false, Bool.false_eq_true, decide_eq_true_eq, decide_eq_false_iff_not] <;> omega
      · rw [isPreplaced_true, htag]; cases d <;> cases s <;> simp only [if_true, if_false, Bool.false_eq_true, decide_eq_true_eq, decide_eq_false_iff_not] <;> omega
      · rw [isLoose_false, htag]; cases d <;> cases s <;> simp only [if_true, if_false, Bool.false_eq_true, decide_eq_true_eq, decide_eq_false_iff_not] <;> omega
      · rw [tag2offset_eq, htag, ← hoff0.2.2]; cases d <;> cases s <;> simp only [if_true, if_false, Bool.false_eq_true, decide_eq_true_eq, decide_eq_false_iff_not] <;> omega
      · rw [tag2genusCode_eq, htag]; cases d <;> cases s <;> simp only [if_true, if_false, Bool.false_eq_true, decide_eq_true_eq, decide_eq_false_iff_not] <;> omega
      · rw [tag2indysize_eq, htag]; cases d <;> cases s <;> simp only [if_true, if_false, Bool.false_eq_true, decide_eq_true_eq, decide_eq_false_iff_not] <;> omega
      · rw [isDiscernible_iff, htag]; cases d <;> cases s <;> simp only [if_true, if_false, Bool.false_eq_true, decide_eq_true_eq, decide_eq_false_iff_not] <;> omega
      · rw [isSaturated_iff, htag]; cases d <;> cases s <;> simp only [if_true, if_false, Bool.false_eq_true, decide_eq_true_eq, decide_eq_false_iff_not] <;> omega
      · rw [isLooseCollection_eq, htag, decide_eq_false_iff_not]; cases d <;> cases s <;> simp only [if_true, if_false, Bool.false_eq_true, decide_eq_true_eq, decide_eq_false_iff_not] <;> omega
      · rw [isFixedSize_iff, htag]
        have : ∀ a b : Prop, [Decidable a] → [Decidable b] → (a ↔ b) → decide a = decide b := by
          intro a b _ _ hab; simp [hab]
        apply this
        cases d <;> cases s <;> simp only [if_true, if_false, Bool.false_eq_true, decide_eq_true_eq, decide_eq_false_iff_not] <;> omega

/-- C01: the preplaced constructor rejects negative and too large offsets. -/
theorem C01_preplaced_token_rejects (off : Int) (t : Nat) (d s : Bool)
    (hrange : -(2 ^ 63) ≤ off ∧ off < 2 ^ 63) (hbad : off < 0 ∨ off > 16381 ∨ t > 31) :
    tokenPreplaced off t d s = .error .invalidArgument := by
  unfold tokenPreplaced maxPreplacedOffset
  rcases hbad with h | h | h
  · have : (off % (2 ^ 64 : Int)).toNat > 2 ^ 14 - 3 := by omega
    rw [if_pos this]
  · have : (off % (2 ^ 64 : Int)).toNat > 2 ^ 14 - 3 := by omega
    rw [if_pos this]
  · split
    · rfl
    · rfl

example : tokenPreplaced 16381 14 true true = .ok (16381 * 262144 + 14 * 2048 + 8 + 3 * 65536) := by
  decide
example : tokenPreplaced (-1) 14 true true = .error .invalidArgument := by decide

/-- `0xFFF80000 = 4294443008`, the first loose tag, is written as a literal below.
Two tags address the same field: same placement and, for preplaced, same offset, genus and size;
for loose, same genus and id.  (Independent of `normalize_tag`.) -/
def SameField (a b : Nat) : Prop :=
  if a < 4294443008 then b < 4294443008 ∧ a / 262144 = b / 262144 ∧ a % 65536 = b % 65536
  else 4294443008 ≤ b ∧ a % 65536 = b % 65536

/-- C02: `is_same` holds exactly for tags addressing the same field. -/
theorem C02_same_iff (a b : Nat) (ha : a < 2 ^ 32) (hb : b < 2 ^ 32) :
    tagSame a b = true ↔ SameField a b := by
  unfold tagSame SameField
  rw [beq_iff_eq]
  by_cases h1 : a < 4294443008
  · rw [normalize_preplaced a (isPreplaced_true.2 h1), if_pos h1]
    by_cases h2 : b < 4294443008
    · rw [normalize_preplaced b (isPreplaced_true.2 h2)]; omega
    · rw [normalize_loose b (isPreplaced_false.2 (by omega))]; omega
  · rw [normalize_loose a (isPreplaced_false.2 (by omega)), if_neg h1]
    by_cases h2 : b < 4294443008
    · rw [normalize_preplaced b (isPreplaced_true.2 h2)]; omega
    · rw [normalize_loose b (isPreplaced_false.2 (by omega))]; omega

/-- C02: token order is irreflexive, transitive and total up to "same field". -/
theorem C02_strict_weak_order (a b c : Nat) (ha : a < 2 ^ 32) (hb : b < 2 ^ 32) :
    tagLess a a = false ∧
    (tagLess a b = true → tagLess b c = true → tagLess a c = true) ∧
    (tagLess a b = true → tagLess b a = false) ∧
    ((tagLess a b = false ∧ tagLess b a = false) ↔ SameField a b) := by
  rw [← C02_same_iff a b ha hb]
  simp only [tagLess, tagSame, decide_eq_true_eq, decide_eq_false_iff_not, beq_iff_eq]
  omega

/-- C02: preplaced tokens are ordered by their physical offset and precede all loose tokens. -/
theorem C02_order_physical (a b : Nat) :
    (isPreplaced a = true → isPreplaced b = true → tag2offset a < tag2offset b →
      tagLess a b = true) ∧
    (isPreplaced a = true → isLoose b = true → b < 2 ^ 32 → tagLess a b = true) := by
  constructor
  · intro h1 h2 h
    rw [tag2offset_eq, tag2offset_eq] at h
    simp only [tagLess, decide_eq_true_eq, normalize_preplaced a h1, normalize_preplaced b h2]
    omega
  · intro h1 h2 _
    have h2' : isPreplaced b = false := isPreplaced_false.2 (isLoose_true.1 h2)
    have h3 := isPreplaced_true.1 h1
    have h4 := isPreplaced_false.1 h2'
    simp only [tagLess, decide_eq_true_eq, normalize_preplaced a h1, normalize_loose b h2']
    omega

/-- C02: tokens of the same field hash equally. -/
theorem C02_hash_respects_same (a b : Nat) (ha : a < 2 ^ 32) (hb : b < 2 ^ 32)
    (h : SameField a b) : tokenHash a = tokenHash b := by
  have := (C02_same_iff a b ha hb).2 h
  simp only [tagSame, beq_iff_eq] at this
  simp [tokenHash, this]

/-- C02: switching the NULL or saturation mode of a token keeps the addressed field, sets the
requested flag and leaves the other flag alone. -/
theorem C02_modes_keep_field (a : Nat) (v : Bool) (ha : a < 2 ^ 32) :
    SameField (enforceDiscernible a v) a ∧ SameField (enforceSaturation a v) a ∧
    isDiscernible (enforceDiscernible a v) = v ∧ isSaturated (enforceSaturation a v) = v ∧
    isSaturated (enforceDiscernible a v) = isSaturated a ∧
    isDiscernible (enforceSaturation a v) = isDiscernible a ∧
    isLooseCollection (enforceDiscernible a v) = isLooseCollection a ∧
    isLooseCollection (enforceSaturation a v) = isLooseCollection a := by
  simp only [SameField, isDiscernible_iff, isSaturated_iff, enforceDiscernible_eq a v ha,
    enforceSaturation_eq a v ha, isLooseCollection_eq]
  cases v
  · simp only [Bool.false_eq_true, if_false]
    refine ⟨?_, ?_, ?_, ?_, ?_, ?_, ?_, ?_⟩
    · split <;> omega
    · split <;> omega
    all_goals simp <;> omega
  · simp only [if_true]
    refine ⟨?_, ?_, ?_, ?_, ?_, ?_, ?_, ?_⟩
    · split <;> omega
    · split <;> omega
    all_goals simp <;> omega

example : SameField 0xFFFE43FF 0xFFF843FF ∧ ¬ SameField 0xFFFE43FF 0xFFFE43FE := by
  unfold SameField; decide

end Fptu.Props
