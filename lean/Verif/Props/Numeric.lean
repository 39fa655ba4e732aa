import Verif.Lemmas.Numeric
import Verif.Props.TupleDefects
import Mathlib.Data.Rat.Floor
/-!
# C21, C22, C39, C44: numbers

The generic numeric setters and getters and the tables of the types.
-/
namespace Fptu.Props
open Fptu Fptu.Gear Fptu.Rw Fptu.Num

/-- The number stored in a field of a numeric genus with the given bytes (two's complement, IEEE 754). -/
def numberOf (g : Genus) (bytes : List Nat) : Option ℚ :=
  if signedInt g then some ((BitVec.ofNat (8 * g.preplacedBytes) (leNat bytes)).toInt : ℚ)
  else if unsignedInt g then some (leNat bytes : ℚ)
  else if g = .f32 then ieeeValue 23 8 (leNat bytes)
  else if g = .f64 then ieeeValue 52 11 (leNat bytes)
  else none

/-- The number read from a field with the getter for its kind: `get_integer`, `get_unsigned` or
`get_number_as_ieee754double`. -/
def readNumber (s : RW) (tag : Nat) : Except Exc (Option ℚ) :=
  if signedInt (tag2genus tag) then (getInteger s tag).map fun n => some (n : ℚ)
  else if unsignedInt (tag2genus tag) then (getUnsigned s tag).map fun n => some (n : ℚ)
  else getNumber s tag

/-- The number which means "no value" in a preplaced field with distinguished NULLs (the table in token.h:82-134). -/
def nullNumber (g : Genus) (n : Int) : Prop :=
  (signedInt g = true ∧ n = -2 ^ (8 * g.preplacedBytes - 1)) ∨ (unsignedInt g = true ∧ n = 0)

instance (g : Genus) (n : Int) : Decidable (nullNumber g n) := by unfold nullNumber; infer_instance

/-- What a numeric setter does for the number `n`: `types` are the genera which it serves, `holds` the numbers which such a
field can take. Either the number is stored and reads back (unless it is the designated NULL, or a zero under which another
value of the same collection shows up) and no other field changes, or an exception tells what is wrong and nothing changes,
and a lack of space is genuine. -/
structure SetsNumber (F : Fix) (σ : Sch) (s : RW) (tag : Nat) (n : Int) (o : Out Unit) (types : Genus → Bool)
    (holds : Genus → Int → Prop) : Prop where
  ok : ∀ t, o = .ok () t → types (tag2genus tag) = true ∧ holds (tag2genus tag) n ∧
    (isPreplaced tag = true → (if isDiscernible tag = true ∧ nullNumber (tag2genus tag) n then readNumber t tag = .error .fieldAbsent
        else readNumber t tag = .ok (some n)) ∧
      LooseKept s t (fun _ => True) ∧ PreplacedKept σ s t (tag2offset tag) (tag2genus tag).preplacedBytes) ∧
    (isLoose tag = true →
      ((n = 0 → isDiscernible tag = false → (fieldsOf s).countP (fun f => f.1 = tag % 65536) ≤ 1) → readNumber t tag = .ok (some n)) ∧
      LooseKept s t (fun w => w ≠ tag % 65536) ∧ PreplacedKept σ s t 0 0)
  exc : ∀ e t, o = .exc e t → t = s ∧
    ((e = .typeMismatch ∧ types (tag2genus tag) = false) ∨ (e = .valueRange ∧ ¬ holds (tag2genus tag) n) ∨
      (types (tag2genus tag) = true ∧ holds (tag2genus tag) n ∧ (∃ i, e = .insufficientSpace i (tag2genus tag).looseUnits) ∧
        GenuineDeficit s (tag2genus tag).looseUnits))
  completes : types (tag2genus tag) = true → holds (tag2genus tag) n → (tag2genus tag).looseUnits ≤ s.lim - s.tail → 0 < s.head →
    s.jv + occupied s tag ≤ 2047 → ∃ t, o = .ok () t

/-! ## Plumbing -/

theorem signExtend_toInt {w x : Nat} (hw : w = 8 ∨ w = 16 ∨ w = 32 ∨ w = 64 ∨ w = 128) (hx : x < 2 ^ w) :
    signExtend w x = (BitVec.ofNat w x).toInt := by
  unfold signExtend
  rw [BitVec.toInt_eq_toNat_cond, BitVec.toNat_ofNat, Nat.mod_eq_of_lt hx]
  rcases hw with rfl | rfl | rfl | rfl | rfl <;> norm_num at hx ⊢ <;> split_ifs <;> omega

theorem leNat_lt (bs : List Nat) (h : bs.all (· < 256) = true) : leNat bs < 2 ^ (8 * bs.length) := by
  induction bs with
  | nil => decide
  | cons b bs ih =>
    rw [List.all_cons, Bool.and_eq_true, decide_eq_true_eq] at h
    have := ih h.2
    rw [List.length_cons, Nat.mul_add, Nat.pow_add]
    show b + 256 * leNat bs < _
    omega

theorem intOf_number {g : Genus} (hg : isInt g = true) {bs : List Nat} (hx : leNat bs < 2 ^ width g) :
    numberOf g bs = some (intOf g bs : ℚ) := by
  unfold numberOf intOf
  by_cases c : signedInt g = true
  · rw [if_pos c, if_pos c, signExtend_toInt (width_or (width_int hg)) hx]
    rfl
  · have c2 : unsignedInt g = true := by
      unfold isInt at hg
      rw [Bool.or_eq_true] at hg
      tauto
    rw [if_neg c, if_pos c2, if_neg c]
    norm_cast

theorem readNumber_int {s : RW} {tag : Nat} (hg : isInt (tag2genus tag) = true) :
    readNumber s tag = (getFixed s tag (tag2genus tag)).map fun b => some (intOf (tag2genus tag) b : ℚ) := by
  unfold readNumber getInteger getUnsigned
  generalize htag : tag2genus tag = g at *
  cases hf : getFixed s tag g with
  | error e => rcases int_cases hg with rfl | rfl | rfl | rfl | rfl | rfl | rfl | rfl <;> simp [signedInt, unsignedInt, hf, Except.map]
  | ok b => rcases int_cases hg with rfl | rfl | rfl | rfl | rfl | rfl | rfl | rfl <;> simp [signedInt, unsignedInt, hf, Except.map]

theorem readNumber_float {s : RW} {tag : Nat} (hg : tag2genus tag = .f32 ∨ tag2genus tag = .f64) :
    readNumber s tag = (getFixed s tag (tag2genus tag)).map (numberOf (tag2genus tag)) := by
  unfold readNumber getNumber
  rcases hg with h | h <;> rw [h] <;> rfl

/-- The value which a setter passes on for the number `n`. -/
structure Passes (g : Genus) (v : Val) (n : Int) : Prop where
  num : isInt g = true ∨ g = .f32 ∨ g = .f64
  fits : v.fits g = true
  lt : leNat (v.bytes g) < 2 ^ width g
  value : numberOf g (v.bytes g) = some (n : ℚ)
  zero : v.isEmpty g = true → v = Val.empty g
  int : isInt g = true → v = intVal g n
  empty : n = 0 → v.isEmpty g = true

theorem Passes.fixed {g : Genus} {v : Val} {n : Int} (h : Passes g v n) : g.isFixed = true := by
  rcases h.num with h | h | h
  · rcases int_cases h with rfl | rfl | rfl | rfl | rfl | rfl | rfl | rfl <;> decide
  · rw [h]; decide
  · rw [h]; decide

theorem Passes.read {g : Genus} {v : Val} {n : Int} (h : Passes g v n) {t : RW} {tag : Nat} (hg : tag2genus tag = g) {bs : List Nat}
    (hf : getFixed t tag g = .ok bs) (hbs : bs = v.bytes g) : readNumber t tag = .ok (some n) := by
  subst hbs
  rcases h.num with hi | hi
  · rw [readNumber_int (by rw [hg]; exact hi), hg, hf, ← h.value, intOf_number hi h.lt]
    rfl
  · rw [readNumber_float (by rw [hg]; exact hi), hg, hf, ← h.value]
    rfl

theorem Passes.absent {g : Genus} {v : Val} {n : Int} (h : Passes g v n) {t : RW} {tag : Nat} (hg : tag2genus tag = g) {e : Exc}
    (hf : getFixed t tag g = .error e) : readNumber t tag = .error e := by
  rcases h.num with hi | hi
  · rw [readNumber_int (by rw [hg]; exact hi), hg, hf]; rfl
  · rw [readNumber_float (by rw [hg]; exact hi), hg, hf]; rfl

theorem natCells_zero {n x : Nat} (hx : x < 2 ^ (32 * n)) (h : (natCells n x).all (· = .zero) = true) : x = 0 := by
  induction n generalizing x with
  | zero => simpa using hx
  | succ n ih =>
    rw [natCells, List.all_cons, Bool.and_eq_true, decide_eq_true_eq] at h
    have e : 2 ^ (32 * (n + 1)) = 4294967296 * 2 ^ (32 * n) := by rw [Nat.mul_add, Nat.pow_add]; ring
    have h3 : x % 65536 = 0 := congrArg Cell.lo h.1
    have h4 : x / 65536 % 65536 = 0 := congrArg Cell.hi h.1
    rw [e] at hx
    have h5 : x / 4294967296 < 2 ^ (32 * n) := Nat.div_lt_of_lt_mul hx
    have h2 := ih h5 h.2
    clear hx h5 e h
    omega

theorem natCells_replicate (n : Nat) : natCells n 0 = List.replicate n .zero := by
  induction n with
  | zero => rfl
  | succ n ih => rw [natCells, Nat.zero_div, ih]; rfl

theorem Passes.ofInt {g : Genus} (hg : isInt g = true) {n : Int} (h : inRange g n) : Passes g (intVal g n) n := by
  have hlt : leNat ((intVal g n).bytes g) < 2 ^ width g := by rw [intVal_bytes hg]; exact pattern_lt _ _
  refine ⟨Or.inl hg, intVal_fits hg n, hlt, ?_, fun he => ?_, fun _ => rfl, fun h0 => ?_⟩
  · rw [intOf_number hg hlt, intOf_intVal hg h]
  · have hx : pattern (width g) n = 0 := by
      have hp := pattern_lt (width g) n
      unfold intVal bitsVal at he
      rcases int_cases hg with rfl | rfl | rfl | rfl | rfl | rfl | rfl | rfl
      · exact of_decide_eq_true he
      · exact of_decide_eq_true he
      · exact of_decide_eq_true he
      · exact of_decide_eq_true he
      · exact natCells_zero (n := 1) hp he
      · exact natCells_zero (n := 1) hp he
      · exact natCells_zero (n := 2) hp he
      · exact natCells_zero (n := 2) hp he
    unfold intVal bitsVal
    rw [hx]
    rcases int_cases hg with rfl | rfl | rfl | rfl | rfl | rfl | rfl | rfl <;> rfl
  · rw [h0]
    rcases int_cases hg with rfl | rfl | rfl | rfl | rfl | rfl | rfl | rfl <;> decide +kernel

theorem ieee_zero {p E x : Nat} (hE : 2 ≤ E) (h1 : x / 2 ^ p % 2 ^ E = 0) (h2 : x % 2 ^ p = 0) : ieeeValue p E x = some 0 := by
  unfold ieeeValue
  simp only
  rw [h1, h2]
  have : 2 ^ 2 ≤ 2 ^ E := Nat.pow_le_pow_right (by omega) hE
  rw [if_neg (by omega), if_pos rfl]
  simp

theorem Passes.ofF32 {n : Int} (h1 : -2 ^ 24 < n) (h2 : n < 2 ^ 24) : Passes .f32 (f32OfInt n) n := by
  obtain ⟨hv, hlt⟩ := f32_exact h1 h2
  have hb : leNat ((f32OfInt n).bytes .f32) = ieeeOfInt 23 127 32 n := bitsVal_bytes (Or.inr (Or.inl rfl)) hlt
  refine ⟨Or.inr (Or.inl rfl), bitsVal_fits (Or.inr (Or.inl rfl)) hlt, by rw [hb]; exact hlt, ?_, fun he => ?_, fun hh => (by cases hh), fun h0 => by rw [h0]; decide +kernel⟩
  · show ieeeValue 23 8 (leNat ((f32OfInt n).bytes .f32)) = _
    rw [hb, hv]
  · have hn : n = 0 := by
      unfold f32OfInt at he
      generalize ieeeOfInt 23 127 32 n = x at hv hlt he
      have he : decide (x % 65536 = 0 ∧ x / 65536 % 65536 % 32768 = 0) = true := he
      obtain ⟨k1, k2⟩ := of_decide_eq_true he
      have hz := ieee_zero (p := 23) (E := 8) (x := x) (by decide) (by norm_num; omega) (by norm_num; omega)
      rw [hz] at hv
      injection hv with hv
      exact_mod_cast hv.symm
    subst hn
    rfl

theorem f64_split {x : Nat} (k1 : x % 65536 = 0) (k2 : x / 65536 % 65536 = 0) (k3 : x / 4294967296 % 65536 = 0)
    (k4 : x / 4294967296 / 65536 % 65536 % 32768 = 0) : x / 2 ^ 52 % 2 ^ 11 = 0 ∧ x % 2 ^ 52 = 0 := by
  have e : (2 : Nat) ^ 52 = 4503599627370496 := by norm_num
  have e2 : (2 : Nat) ^ 11 = 2048 := by norm_num
  rw [e, e2]
  omega

theorem Passes.ofF64 {n : Int} (h1 : -2 ^ 53 < n) (h2 : n < 2 ^ 53) : Passes .f64 (f64OfInt n) n := by
  obtain ⟨hv, hlt⟩ := f64_exact h1 h2
  have hb : leNat ((f64OfInt n).bytes .f64) = ieeeOfInt 52 1023 64 n := bitsVal_bytes (Or.inr (Or.inr rfl)) hlt
  refine ⟨Or.inr (Or.inr rfl), bitsVal_fits (Or.inr (Or.inr rfl)) hlt, by rw [hb]; exact hlt, ?_, fun he => ?_, fun hh => (by cases hh), fun h0 => by rw [h0]; decide +kernel⟩
  · show ieeeValue 52 11 (leNat ((f64OfInt n).bytes .f64)) = _
    rw [hb, hv]
  · have hn : n = 0 := by
      unfold f64OfInt at he
      generalize ieeeOfInt 52 1023 64 n = x at hv hlt he
      have hc : bitsVal .f64 x = .units [⟨x % 65536, x / 65536 % 65536⟩, ⟨x / 4294967296 % 65536, x / 4294967296 / 65536 % 65536⟩] := by
        unfold bitsVal
        rw [if_neg (by decide)]
        rw [show Genus.f64.looseUnits = 2 from rfl, natCells, natCells, natCells]
      rw [hc] at he
      unfold Val.isEmpty at he
      simp only [decide_eq_true_eq] at he
      obtain ⟨k0, k3, k4⟩ := he
      have k1 : x % 65536 = 0 := congrArg Cell.lo k0
      have k2 : x / 65536 % 65536 = 0 := congrArg Cell.hi k0
      have hz := ieee_zero (p := 52) (E := 11) (x := x) (by decide) (f64_split k1 k2 k3 k4).1 (f64_split k1 k2 k3 k4).2
      rw [hz] at hv
      exact_mod_cast (Option.some.inj hv).symm
    rw [hn]
    decide +kernel

theorem denil_number {g : Genus} {v : Val} {n : Int} (h : Passes g v n) (hb : v.bytes g = denilBytes g) : nullNumber g n := by
  have hv := h.value
  rw [hb] at hv
  unfold nullNumber
  rcases h.num with hi | rfl | rfl
  · have key : ∀ m : Int, numberOf g (denilBytes g) = some (m : ℚ) → n = m := by
      intro m hm
      rw [hm] at hv
      injection hv with hv
      exact_mod_cast hv.symm
    rcases int_cases hi with rfl | rfl | rfl | rfl | rfl | rfl | rfl | rfl
    · exact Or.inl ⟨rfl, key (-128) (by decide +kernel)⟩
    · exact Or.inr ⟨rfl, key 0 (by decide +kernel)⟩
    · exact Or.inl ⟨rfl, key (-32768) (by decide +kernel)⟩
    · exact Or.inr ⟨rfl, key 0 (by decide +kernel)⟩
    · exact Or.inl ⟨rfl, key (-2147483648) (by decide +kernel)⟩
    · exact Or.inr ⟨rfl, key 0 (by decide +kernel)⟩
    · exact Or.inl ⟨rfl, key (-9223372036854775808) (by decide +kernel)⟩
    · exact Or.inr ⟨rfl, key 0 (by decide +kernel)⟩
  · rw [show numberOf .f32 (denilBytes .f32) = none by decide +kernel] at hv; cases hv
  · rw [show numberOf .f64 (denilBytes .f64) = none by decide +kernel] at hv; cases hv

/-- Numbers determine the bytes. -/
theorem number_denil {g : Genus} {n : Int} (hn : nullNumber g n) : isInt g = true ∧ (intVal g n).bytes g = denilBytes g := by
  rcases hn with ⟨h, rfl⟩ | ⟨h, rfl⟩
  · cases g <;> first | (exact absurd h (by decide)) | decide +kernel
  · cases g <;> first | (exact absurd h (by decide)) | decide +kernel

theorem not_loose {tag : Nat} (h : isPreplaced tag = true) : isLoose tag = false := by
  have := preplaced_not_loose tag
  rw [h] at this
  simpa using this.symm

theorem setsNumber {F : Fix} {σ : Sch} {s : RW} {tag : Nat} {n : Int} {arg : Genus → Except Exc Val} {types : Genus → Bool}
    {holds : Genus → Int → Prop} (h : Reachable F σ s) (ht : TokenOk σ s.pre tag) (hc : isLooseCollection tag = false)
    (hb : ∀ v, StepBenign F s (.set tag (tag2genus tag) v))
    (hspec : ∀ g, (types g = false → arg g = .error .typeMismatch ∨ arg g = .error .valueRange ∧ ¬ holds g n) ∧
      (types g = true → ¬ holds g n → arg g = .error .valueRange) ∧
      (types g = true → holds g n → ∃ v, arg g = .ok v ∧ Passes g v n)) :
    SetsNumber F σ s tag n (setWith F s tag arg) types holds := by
  have hst : setWith F s tag arg = match arg (tag2genus tag) with
      | .error e => .exc e s
      | .ok v => setField F s tag (tag2genus tag) v := by
    unfold setWith
    rw [if_neg (by rw [hc]; decide)]
    cases arg (tag2genus tag) <;> rfl
  generalize hg : tag2genus tag = g at *
  obtain ⟨s1, s2, s3⟩ := hspec g
  by_cases c1 : types g = true
  · by_cases c2 : holds g n
    · obtain ⟨v, hv, pv⟩ := s3 c1 c2
      rw [hv] at hst
      simp only at hst
      have hfx := pv.fixed
      have c15 := C15_set_partial h pv.fits hg hc ht (hb v)
      have huf : unitsFor g v = some g.looseUnits := by unfold unitsFor; rw [if_pos hfx]
      refine ⟨fun t e => ?_, fun e t he => ?_, fun _ _ k1 k2 k3 => ?_⟩
      · rw [hst] at e
        refine ⟨by rw [hg]; exact c1, by rw [hg]; exact c2, fun hp => ?_, fun hl => ?_⟩
        · obtain ⟨k1, k2, _, k3⟩ := C09_set_preplaced_fixed h hp ht hfx pv.fits e
          rw [hg]
          refine ⟨?_, k2, k3⟩
          have hget : getFixed t tag g = getPreplacedFixed t tag g := by unfold getFixed; rw [if_pos hp]
          by_cases c : isDiscernible tag = true ∧ nullNumber g n
          · rw [if_pos c]
            obtain ⟨m1, m2⟩ := number_denil c.2
            rw [← pv.int m1] at m2
            rw [if_pos ⟨c.1, m2⟩] at k1
            exact pv.absent hg (hget.trans k1)
          · rw [if_neg c]
            rw [if_neg (fun m => c ⟨m.1, denil_number pv m.2⟩)] at k1
            exact pv.read hg (hget.trans k1) rfl
        · have hnp : isPreplaced tag = false := by
            have := preplaced_not_loose tag
            rw [hl] at this
            simpa using this
          have hget : getFixed t tag g = (getLoose t tag g).map fun v => (v.map (·.bytes g)).getD [] := by
            unfold getFixed; rw [if_neg (by rw [hnp]; decide)]
          by_cases cd : dropped tag g v
          · obtain ⟨k1, _, k2, k3⟩ := C09_unset_partial h hl pv.fits (hb v) e cd
            refine ⟨fun hone => ?_, k2, k3⟩
            have hd : isDiscernible tag = false ∧ v.isEmpty g = true := by
              rcases cd with cd | cd
              · exact ⟨by simpa using cd.1, cd.2⟩
              · have := pv.fits
                rw [cd] at this
                rw [of_decide_eq_true this] at hfx
                cases hfx
            have hve := pv.zero hd.2
            have hn0 : n = 0 := by
              have hv0 := pv.value
              rw [hve] at hv0
              rcases pv.num with hi | hi | hi
              · have hr : numberOf g ((Val.empty g).bytes g) = some ((0 : Int) : ℚ) := by
                  rcases int_cases hi with rfl | rfl | rfl | rfl | rfl | rfl | rfl | rfl <;> decide +kernel
                rw [hr] at hv0
                exact_mod_cast (Option.some.inj hv0).symm
              · have hr : numberOf g ((Val.empty g).bytes g) = some ((0 : Int) : ℚ) := by rw [hi]; decide +kernel
                rw [hr] at hv0
                exact_mod_cast (Option.some.inj hv0).symm
              · have hr : numberOf g ((Val.empty g).bytes g) = some ((0 : Int) : ℚ) := by rw [hi]; decide +kernel
                rw [hr] at hv0
                exact_mod_cast (Option.some.inj hv0).symm
            have k := k1 (hone hn0 hd.1)
            unfold absent at k
            rw [if_neg (by rw [hd.1]; decide)] at k
            refine pv.read hg (hget.trans (by rw [k]; rfl)) ?_
            rw [hve]; rfl
          · obtain ⟨k1, _, _, k2, k3⟩ := C09_set_partial h hl pv.fits (hb v) e cd
            refine ⟨fun _ => ?_, k2, k3⟩
            have hnv : g ≠ .varbin := by rintro rfl; cases hfx
            exact pv.read hg (hget.trans (by rw [k1 hnv]; rfl)) rfl
      · rw [hst] at he
        refine ⟨C13_failed_partial (op := .set tag g v) h ⟨ht, pv.fits⟩ (hb v) he, ?_⟩
        rw [hg]
        rcases c15.1 e t he with k | ⟨m, k1, k2, k3⟩ | ⟨_, k1, k2, _⟩
        · rw [huf] at k; cases k
        · rw [huf] at k1
          injection k1 with k1
          subst k1
          exact Or.inr (Or.inr ⟨c1, c2, k2.imp fun _ k => k.1, k3.1⟩)
        · exfalso
          by_cases hp : isPreplaced tag = true
          · unfold setField at he
            rw [if_pos hp, if_pos hfx] at he
            unfold assignPreplacedFixed at he
            rw [if_neg (fun k => k hg)] at he
            cases he
          · have := preplaced_not_loose tag
            simp_all
      · rw [hst]
        rw [hg] at k1
        exact c15.2 _ huf k1 k2 k3
    · rw [s2 c1 c2] at hst
      refine ⟨fun t e => ?_, fun e t he => ?_, fun _ k => ?_⟩
      · rw [hst] at e; cases e
      · rw [hst] at he
        cases he
        rw [hg]
        exact ⟨rfl, Or.inr (Or.inl ⟨rfl, c2⟩)⟩
      · rw [hg] at k; exact absurd k c2
  · have c1 : types g = false := by simpa using c1
    refine ⟨fun t e => ?_, fun e t he => ?_, fun k => ?_⟩
    · rcases s1 c1 with k | ⟨k, _⟩ <;> rw [hst, k] at e <;> cases e
    · rw [hg]
      rcases s1 c1 with k | ⟨k, k2⟩
      · rw [hst, k] at he
        cases he
        exact ⟨rfl, Or.inl ⟨rfl, c1⟩⟩
      · rw [hst, k] at he
        cases he
        exact ⟨rfl, Or.inr (Or.inl ⟨rfl, k2⟩)⟩
    · rw [hg, c1] at k; cases k

/-! ## C21: integer setters -/

/-- The numbers which a numeric setter accepts for a field: those of the integer type; for floating-point fields those of
`safe32_number_max`, `safe64_number_max` (essentials.h:84-90). -/
def acceptable (g : Genus) (n : Int) : Prop :=
  if g = .f32 then -0x1FFFFF ≤ n ∧ n ≤ 0x1FFFFF
  else if g = .f64 then -0x1FFFFFFFFFFFFF ≤ n ∧ n ≤ 0x1FFFFFFFFFFFFF
  else if signedInt g then -2 ^ (8 * g.preplacedBytes - 1) ≤ n ∧ n < 2 ^ (8 * g.preplacedBytes - 1)
  else if unsignedInt g then 0 ≤ n ∧ n < 2 ^ (8 * g.preplacedBytes)
  else True

/-- The genera served by `set_number`. -/
def numeric (g : Genus) : Bool := signedInt g || unsignedInt g || decide (g = .f32) || decide (g = .f64)

theorem acceptable_int {g : Genus} (hg : isInt g = true) (n : Int) : acceptable g n ↔ inRange g n := by
  have h1 : g ≠ .f32 := by rintro rfl; cases hg
  have h2 : g ≠ .f64 := by rintro rfl; cases hg
  unfold acceptable inRange width
  rw [if_neg h1, if_neg h2]
  by_cases c : signedInt g = true
  · rw [if_pos c, if_pos c]
  · have c2 : unsignedInt g = true := by
      unfold isInt at hg
      rw [Bool.or_eq_true] at hg
      tauto
    rw [if_neg c, if_neg c, if_pos c2]

private theorem cast_arg {g : Genus} (hg : isInt g = true) {n : Int} {o : Except Exc Val}
    (ho : o = if n ≠ castInt g n then .error .valueRange else .ok (intVal g (castInt g n))) :
    (¬ acceptable g n → o = .error .valueRange) ∧ (acceptable g n → ∃ v, o = .ok v ∧ Passes g v n) := by
  rw [acceptable_int hg]
  constructor
  · intro h
    rw [ho, if_pos]
    intro e
    exact h ((castInt_iff hg n).1 e.symm)
  · intro h
    have e := castInt_eq hg h
    refine ⟨intVal g n, ?_, Passes.ofInt hg h⟩
    rw [ho, if_neg (fun k => k e.symm), e]

private theorem wide_arg {g : Genus} (hg : isInt g = true) {n : Int} (hn : inRange g n) {o : Except Exc Val} (ho : o = .ok (intVal g n)) :
    (¬ acceptable g n → o = .error .valueRange) ∧ (acceptable g n → ∃ v, o = .ok v ∧ Passes g v n) := by
  rw [acceptable_int hg]
  exact ⟨fun h => absurd hn h, fun h => ⟨_, ho, Passes.ofInt hg h⟩⟩

private theorem ranged_arg {g : Genus} (hg : isInt g = true) {n lo hi : Int} {o : Except Exc Val}
    (hr : inRange g n ↔ lo ≤ n ∧ n ≤ hi)
    (ho : o = if n < lo ∨ n > hi then .error .valueRange else .ok (intVal g (castInt g n))) :
    (¬ acceptable g n → o = .error .valueRange) ∧ (acceptable g n → ∃ v, o = .ok v ∧ Passes g v n) := by
  rw [acceptable_int hg]
  constructor
  · intro h
    rw [hr] at h
    rw [ho, if_pos (by omega)]
  · intro h
    have h2 := hr.1 h
    refine ⟨intVal g n, ?_, Passes.ofInt hg h⟩
    rw [ho, if_neg (by omega), castInt_eq hg h]

theorem integerArg_spec {n : Int} (hn : inRange .i64 n) (g : Genus) :
    (signedInt g = false → integerArg g n = .error .typeMismatch) ∧
    (signedInt g = true → ¬ acceptable g n → integerArg g n = .error .valueRange) ∧
    (signedInt g = true → acceptable g n → ∃ v, integerArg g n = .ok v ∧ Passes g v n) := by
  refine ⟨fun h => ?_, fun h => ?_, fun h => ?_⟩
  · cases g <;> first | rfl | (cases h)
  · cases g <;> first | (exact absurd h (by decide)) | skip
    · exact (cast_arg rfl rfl).1
    · exact (cast_arg rfl rfl).1
    · exact (cast_arg rfl rfl).1
    · exact (wide_arg rfl hn rfl).1
  · cases g <;> first | (exact absurd h (by decide)) | skip
    · exact (cast_arg rfl rfl).2
    · exact (cast_arg rfl rfl).2
    · exact (cast_arg rfl rfl).2
    · exact (wide_arg rfl hn rfl).2

theorem unsignedArg_spec {n : Int} (hn : inRange .u64 n) (g : Genus) :
    (unsignedInt g = false → unsignedArg g n = .error .typeMismatch) ∧
    (unsignedInt g = true → ¬ acceptable g n → unsignedArg g n = .error .valueRange) ∧
    (unsignedInt g = true → acceptable g n → ∃ v, unsignedArg g n = .ok v ∧ Passes g v n) := by
  refine ⟨fun h => ?_, fun h => ?_, fun h => ?_⟩
  · cases g <;> first | rfl | (cases h)
  · cases g <;> first | (exact absurd h (by decide)) | skip
    · exact (cast_arg rfl rfl).1
    · exact (cast_arg rfl rfl).1
    · exact (cast_arg rfl rfl).1
    · exact (wide_arg rfl hn rfl).1
  · cases g <;> first | (exact absurd h (by decide)) | skip
    · exact (cast_arg rfl rfl).2
    · exact (cast_arg rfl rfl).2
    · exact (cast_arg rfl rfl).2
    · exact (wide_arg rfl hn rfl).2

/-- **C21 (partial), `set_integer(int64_t)`.** The number is stored and reads back, or an exception tells why not and nothing
changes. Missing for the code as it is: histories in which a defect of `src/gear.cxx` shows. -/
theorem C21_set_integer_partial {F : Fix} {σ : Sch} {s : RW} {tag : Nat} {n : Int} (h : Reachable F σ s) (ht : TokenOk σ s.pre tag)
    (hc : isLooseCollection tag = false) (hb : ∀ v, StepBenign F s (.set tag (tag2genus tag) v)) (hn : -2 ^ 63 ≤ n ∧ n < 2 ^ 63) :
    SetsNumber F σ s tag n (setInteger F s tag n) signedInt acceptable := by
  refine setsNumber h ht hc hb fun g => ?_
  obtain ⟨h1, h2, h3⟩ := integerArg_spec hn g
  exact ⟨fun k => Or.inl (h1 k), h2, h3⟩

/-- **C21 (partial), `set_integer(uint64_t)`.** -/
theorem C21_set_integer_u64_partial {F : Fix} {σ : Sch} {s : RW} {tag : Nat} {n : Int} (h : Reachable F σ s) (ht : TokenOk σ s.pre tag)
    (hc : isLooseCollection tag = false) (hb : ∀ v, StepBenign F s (.set tag (tag2genus tag) v)) (hn : 0 ≤ n ∧ n < 2 ^ 64) :
    SetsNumber F σ s tag n (setIntegerU F s tag n) signedInt (fun g n => n < 2 ^ 63 ∧ acceptable g n) := by
  refine setsNumber h ht hc hb fun g => ?_
  by_cases c : n > 2 ^ 63 - 1
  · have e : integerArgU g n = .error .valueRange := by unfold integerArgU; rw [if_pos c]
    exact ⟨fun _ => Or.inr ⟨e, fun k => by omega⟩, fun _ _ => e, fun _ k => absurd k.1 (by omega)⟩
  · have hr : inRange .i64 n := by
      show -2 ^ 63 ≤ n ∧ n < 2 ^ 63
      omega
    have e : integerArgU g n = integerArg g n := by
      unfold integerArgU; rw [if_neg c, castInt_eq rfl hr]
    rw [e]
    obtain ⟨h1, h2, h3⟩ := integerArg_spec hr g
    exact ⟨fun k => Or.inl (h1 k), fun k1 k2 => h2 k1 (fun k3 => k2 ⟨by omega, k3⟩), fun k1 k2 => h3 k1 k2.2⟩

/-- **C21 (partial), `set_unsigned(uint64_t)`.** -/
theorem C21_set_unsigned_partial {F : Fix} {σ : Sch} {s : RW} {tag : Nat} {n : Int} (h : Reachable F σ s) (ht : TokenOk σ s.pre tag)
    (hc : isLooseCollection tag = false) (hb : ∀ v, StepBenign F s (.set tag (tag2genus tag) v)) (hn : 0 ≤ n ∧ n < 2 ^ 64) :
    SetsNumber F σ s tag n (setUnsigned F s tag n) unsignedInt acceptable := by
  refine setsNumber h ht hc hb fun g => ?_
  obtain ⟨h1, h2, h3⟩ := unsignedArg_spec hn g
  exact ⟨fun k => Or.inl (h1 k), h2, h3⟩

private theorem f32_arg {n : Int} {o : Except Exc Val} (ho : o = if n < -safe32 ∨ n > safe32 then .error .valueRange else .ok (f32OfInt n)) :
    (¬ acceptable .f32 n → o = .error .valueRange) ∧ (acceptable .f32 n → ∃ v, o = .ok v ∧ Passes .f32 v n) := by
  have e : acceptable .f32 n ↔ -0x1FFFFF ≤ n ∧ n ≤ 0x1FFFFF := Iff.rfl
  rw [e]
  have es : safe32 = 0x1FFFFF := rfl
  constructor
  · intro k; rw [ho, if_pos (by omega)]
  · intro k
    exact ⟨_, by rw [ho, if_neg (by omega)], Passes.ofF32 (by norm_num; omega) (by norm_num; omega)⟩

private theorem f64_arg {n : Int} {o : Except Exc Val} (ho : o = if n < -safe64 ∨ n > safe64 then .error .valueRange else .ok (f64OfInt n)) :
    (¬ acceptable .f64 n → o = .error .valueRange) ∧ (acceptable .f64 n → ∃ v, o = .ok v ∧ Passes .f64 v n) := by
  have e : acceptable .f64 n ↔ -0x1FFFFFFFFFFFFF ≤ n ∧ n ≤ 0x1FFFFFFFFFFFFF := Iff.rfl
  rw [e]
  have es : safe64 = 0x1FFFFFFFFFFFFF := rfl
  constructor
  · intro k; rw [ho, if_pos (by omega)]
  · intro k
    exact ⟨_, by rw [ho, if_neg (by omega)], Passes.ofF64 (by norm_num; omega) (by norm_num; omega)⟩

private theorem range_iff (n : Int) :
    (inRange .i8 n ↔ -128 ≤ n ∧ n ≤ 127) ∧ (inRange .i16 n ↔ -32768 ≤ n ∧ n ≤ 32767) ∧
    (inRange .i32 n ↔ -2 ^ 31 ≤ n ∧ n ≤ 2 ^ 31 - 1) ∧ (inRange .i64 n ↔ -2 ^ 63 ≤ n ∧ n ≤ 2 ^ 63 - 1) ∧
    (inRange .u8 n ↔ 0 ≤ n ∧ n ≤ 255) ∧ (inRange .u16 n ↔ 0 ≤ n ∧ n ≤ 65535) ∧
    (inRange .u32 n ↔ 0 ≤ n ∧ n ≤ 2 ^ 32 - 1) ∧ (inRange .u64 n ↔ 0 ≤ n ∧ n ≤ 2 ^ 64 - 1) := by
  have a1 : inRange .i8 n ↔ -2 ^ 7 ≤ n ∧ n < 2 ^ 7 := Iff.rfl
  have a2 : inRange .i16 n ↔ -2 ^ 15 ≤ n ∧ n < 2 ^ 15 := Iff.rfl
  have a3 : inRange .i32 n ↔ -2 ^ 31 ≤ n ∧ n < 2 ^ 31 := Iff.rfl
  have a4 : inRange .i64 n ↔ -2 ^ 63 ≤ n ∧ n < 2 ^ 63 := Iff.rfl
  have a5 : inRange .u8 n ↔ 0 ≤ n ∧ n < 2 ^ 8 := Iff.rfl
  have a6 : inRange .u16 n ↔ 0 ≤ n ∧ n < 2 ^ 16 := Iff.rfl
  have a7 : inRange .u32 n ↔ 0 ≤ n ∧ n < 2 ^ 32 := Iff.rfl
  have a8 : inRange .u64 n ↔ 0 ≤ n ∧ n < 2 ^ 64 := Iff.rfl
  rw [a1, a2, a3, a4, a5, a6, a7, a8]
  norm_num
  omega

/-- The number is in the range of the C++ type of the argument. -/
inductive ArgType where | s32 | u32 | s64 | u64
def ArgType.has : ArgType → Int → Prop
  | .s32, n => -2 ^ 31 ≤ n ∧ n < 2 ^ 31
  | .u32, n => 0 ≤ n ∧ n < 2 ^ 32
  | .s64, n => -2 ^ 63 ≤ n ∧ n < 2 ^ 63
  | .u64, n => 0 ≤ n ∧ n < 2 ^ 64
/-- The overloads of `set_number` and `insert_number` for integers. -/
def numberArg : ArgType → Genus → Int → Except Exc Val
  | .s32 => numberArgS32
  | .u32 => numberArgU32
  | .s64 => numberArgS64
  | .u64 => numberArgU64

private theorem plain_arg {g : Genus} (hg : isInt g = true) {n : Int} (hr : inRange g n) {o : Except Exc Val}
    (ho : o = .ok (intVal g (castInt g n))) :
    (¬ acceptable g n → o = .error .valueRange) ∧ (acceptable g n → ∃ v, o = .ok v ∧ Passes g v n) :=
  wide_arg hg hr (by rw [ho, castInt_eq hg hr])

private theorem capped_arg {g : Genus} (hg : isInt g = true) {n hi lo : Int} {o : Except Exc Val}
    (hr : inRange g n ↔ lo ≤ n ∧ n ≤ hi) (h0 : 0 ≤ n) (hlo : lo ≤ 0)
    (ho : o = if n > hi then .error .valueRange else .ok (intVal g (castInt g n))) :
    (¬ acceptable g n → o = .error .valueRange) ∧ (acceptable g n → ∃ v, o = .ok v ∧ Passes g v n) := by
  refine ranged_arg hg hr ?_
  rw [ho]
  by_cases c : n > hi
  · rw [if_pos c, if_pos (Or.inr c)]
  · rw [if_neg c, if_neg (by omega)]

private theorem floored_arg {g : Genus} (hg : isInt g = true) {n hi : Int} {o : Except Exc Val}
    (hr : inRange g n ↔ 0 ≤ n ∧ n ≤ hi) (h1 : n ≤ hi)
    (ho : o = if n < 0 then .error .valueRange else .ok (intVal g (castInt g n))) :
    (¬ acceptable g n → o = .error .valueRange) ∧ (acceptable g n → ∃ v, o = .ok v ∧ Passes g v n) := by
  refine ranged_arg hg hr ?_
  rw [ho]
  by_cases c : n < 0
  · rw [if_pos c, if_pos (Or.inl c)]
  · rw [if_neg c, if_neg (by omega)]

private theorem f32_capped {n : Int} (h0 : 0 ≤ n) {o : Except Exc Val} (ho : o = if n > safe32 then .error .valueRange else .ok (f32OfInt n)) :
    (¬ acceptable .f32 n → o = .error .valueRange) ∧ (acceptable .f32 n → ∃ v, o = .ok v ∧ Passes .f32 v n) := by
  refine f32_arg ?_
  have es : safe32 = 0x1FFFFF := rfl
  rw [ho]
  by_cases c : n > safe32
  · rw [if_pos c, if_pos (Or.inr c)]
  · rw [if_neg c, if_neg (by omega)]

private theorem f64_capped {n : Int} (h0 : 0 ≤ n) {o : Except Exc Val} (ho : o = if n > safe64 then .error .valueRange else .ok (f64OfInt n)) :
    (¬ acceptable .f64 n → o = .error .valueRange) ∧ (acceptable .f64 n → ∃ v, o = .ok v ∧ Passes .f64 v n) := by
  refine f64_arg ?_
  have es : safe64 = 0x1FFFFFFFFFFFFF := rfl
  rw [ho]
  by_cases c : n > safe64
  · rw [if_pos c, if_pos (Or.inr c)]
  · rw [if_neg c, if_neg (by omega)]

private theorem f64_plain {n : Int} (h0 : -2 ^ 32 < n ∧ n < 2 ^ 32) {o : Except Exc Val} (ho : o = .ok (f64OfInt n)) :
    (¬ acceptable .f64 n → o = .error .valueRange) ∧ (acceptable .f64 n → ∃ v, o = .ok v ∧ Passes .f64 v n) := by
  refine f64_arg ?_
  have es : safe64 = 0x1FFFFFFFFFFFFF := rfl
  norm_num at h0
  rw [ho, if_neg (by omega)]

theorem numberArg_spec {T : ArgType} {n : Int} (hn : T.has n) (g : Genus) :
    (numeric g = false → numberArg T g n = .error .typeMismatch) ∧
    (numeric g = true → (¬ acceptable g n → numberArg T g n = .error .valueRange) ∧
      (acceptable g n → ∃ v, numberArg T g n = .ok v ∧ Passes g v n)) := by
  obtain ⟨r1, r2, r3, r4, r5, r6, r7, r8⟩ := range_iff n
  constructor
  · intro h
    cases g <;> first | (exact absurd h (by decide)) | (cases T <;> rfl)
  · intro h
    cases T with
    | s32 =>
      have hn : -2 ^ 31 ≤ n ∧ n < 2 ^ 31 := hn
      norm_num at hn
      have d3 := r3.2 (by norm_num; omega)
      have d4 := r4.2 (by norm_num; omega)
      cases g <;> first | (exact absurd h (by decide)) | skip
      · exact ranged_arg rfl r1 rfl
      · exact ranged_arg rfl r5 rfl
      · exact ranged_arg rfl r2 rfl
      · exact ranged_arg rfl r6 rfl
      · exact wide_arg rfl d3 rfl
      · exact floored_arg rfl r7 (by norm_num; omega) rfl
      · exact f32_arg rfl
      · exact wide_arg rfl d4 rfl
      · exact floored_arg rfl r8 (by norm_num; omega) rfl
      · exact f64_plain (by norm_num; omega) rfl
    | u32 =>
      have hn : 0 ≤ n ∧ n < 2 ^ 32 := hn
      norm_num at hn
      have d4 := r4.2 (by norm_num; omega)
      have d7 := r7.2 (by norm_num; omega)
      have d8 := r8.2 (by norm_num; omega)
      cases g <;> first | (exact absurd h (by decide)) | skip
      · exact capped_arg rfl r1 hn.1 (by norm_num) rfl
      · exact capped_arg rfl r5 hn.1 (by norm_num) rfl
      · exact capped_arg rfl r2 hn.1 (by norm_num) rfl
      · exact capped_arg rfl r6 hn.1 (by norm_num) rfl
      · exact capped_arg rfl r3 hn.1 (by norm_num) rfl
      · exact wide_arg rfl d7 rfl
      · exact f32_capped hn.1 rfl
      · exact plain_arg rfl d4 rfl
      · exact wide_arg rfl d8 rfl
      · exact f64_plain (by norm_num; omega) rfl
    | s64 =>
      have hn : -2 ^ 63 ≤ n ∧ n < 2 ^ 63 := hn
      have d4 : inRange .i64 n := hn
      norm_num at hn
      cases g <;> first | (exact absurd h (by decide)) | skip
      · exact ranged_arg rfl r1 rfl
      · exact ranged_arg rfl r5 rfl
      · exact ranged_arg rfl r2 rfl
      · exact ranged_arg rfl r6 rfl
      · exact ranged_arg rfl r3 rfl
      · exact ranged_arg rfl r7 rfl
      · exact f32_arg rfl
      · exact wide_arg rfl d4 rfl
      · exact floored_arg rfl r8 (by norm_num; omega) rfl
      · exact f64_arg rfl
    | u64 =>
      have hn : 0 ≤ n ∧ n < 2 ^ 64 := hn
      have d8 : inRange .u64 n := hn
      norm_num at hn
      cases g <;> first | (exact absurd h (by decide)) | skip
      · exact capped_arg rfl r1 hn.1 (by norm_num) rfl
      · exact capped_arg rfl r5 hn.1 (by norm_num) rfl
      · exact capped_arg rfl r2 hn.1 (by norm_num) rfl
      · exact capped_arg rfl r6 hn.1 (by norm_num) rfl
      · exact capped_arg rfl r3 hn.1 (by norm_num) rfl
      · exact capped_arg rfl r7 hn.1 (by norm_num) rfl
      · exact f32_capped hn.1 rfl
      · exact capped_arg rfl r4 hn.1 (by norm_num) rfl
      · exact wide_arg rfl d8 rfl
      · exact f64_capped hn.1 rfl

/-- **C21 (partial), `set_number`** with an argument of any of the four integer types. -/
theorem C21_set_number_partial {F : Fix} {σ : Sch} {s : RW} {tag : Nat} {n : Int} {T : ArgType} (h : Reachable F σ s) (ht : TokenOk σ s.pre tag)
    (hc : isLooseCollection tag = false) (hb : ∀ v, StepBenign F s (.set tag (tag2genus tag) v)) (hn : T.has n) :
    SetsNumber F σ s tag n (setWith F s tag (numberArg T · n)) numeric acceptable := by
  refine setsNumber h ht hc hb fun g => ?_
  obtain ⟨h1, h2⟩ := numberArg_spec hn g
  exact ⟨fun k => Or.inl (h1 k), fun k => (h2 k).1, fun k => (h2 k).2⟩

/-- **C21 (partial), `set_int128`** of a field which is not `bin128`: as `set_integer`, for numbers of 64 bits. -/
theorem C21_set_int128_partial {F : Fix} {σ : Sch} {s : RW} {tag : Nat} {n : Int} (h : Reachable F σ s) (ht : TokenOk σ s.pre tag)
    (hc : isLooseCollection tag = false) (hb : ∀ v, StepBenign F s (.set tag (tag2genus tag) v)) (hn : -2 ^ 63 ≤ n ∧ n < 2 ^ 63)
    (hg : tag2genus tag ≠ .bin128) :
    SetsNumber F σ s tag n (setInt128 F s tag n) signedInt acceptable := by
  have e : setInt128 F s tag n = setInteger F s tag n := by
    unfold setInt128 setInteger setWith int128Arg
    beta_reduce
    rw [if_neg hg, castInt_eq (g := .i64) rfl hn]
  rw [e]
  exact C21_set_integer_partial h ht hc hb hn

/-- **C21 (partial), `set_uint128`** of a field which is not `bin128`: as `set_unsigned`, for numbers of 64 bits. -/
theorem C21_set_uint128_partial {F : Fix} {σ : Sch} {s : RW} {tag : Nat} {n : Int} (h : Reachable F σ s) (ht : TokenOk σ s.pre tag)
    (hc : isLooseCollection tag = false) (hb : ∀ v, StepBenign F s (.set tag (tag2genus tag) v)) (hn : 0 ≤ n ∧ n < 2 ^ 64)
    (hg : tag2genus tag ≠ .bin128) :
    SetsNumber F σ s tag n (setUint128 F s tag n) unsignedInt acceptable := by
  have e : setUint128 F s tag n = setUnsigned F s tag n := by
    unfold setUint128 setUnsigned setWith uint128Arg
    beta_reduce
    rw [if_neg hg, castInt_eq (g := .u64) rfl hn]
  rw [e]
  exact C21_set_unsigned_partial h ht hc hb hn

/-- What a numeric inserter does for the number `n`, see `SetsNumber`. -/
structure InsertsNumber (F : Fix) (σ : Sch) (s : RW) (tag : Nat) (n : Int) (o : Out (Option Nat)) (types : Genus → Bool)
    (holds : Genus → Int → Prop) : Prop where
  ok : ∀ r t, o = .ok r t → isLooseCollection tag = true ∧ types (tag2genus tag) = true ∧ holds (tag2genus tag) n ∧
    (n = 0 ∧ isDiscernible tag = false → t = s) ∧
    (¬ (n = 0 ∧ isDiscernible tag = false) → ∃ v : Val, numberOf (tag2genus tag) (v.bytes (tag2genus tag)) = some (n : ℚ) ∧
      fieldsOf t = (tag % 65536, some v) ::ₘ fieldsOf s) ∧
    LooseKept s t (fun w => w ≠ tag % 65536) ∧ PreplacedKept σ s t 0 0
  exc : ∀ e t, o = .exc e t → t = s ∧
    ((e = .typeMismatch ∧ types (tag2genus tag) = false) ∨ (e = .valueRange ∧ ¬ holds (tag2genus tag) n) ∨
      (e = .collectionRequired ∧ isLooseCollection tag = false) ∨
      (types (tag2genus tag) = true ∧ holds (tag2genus tag) n ∧ (∃ i, e = .insufficientSpace i (tag2genus tag).looseUnits) ∧
        GenuineDeficit s (tag2genus tag).looseUnits))
  completes : types (tag2genus tag) = true → holds (tag2genus tag) n → isLooseCollection tag = true →
    (tag2genus tag).looseUnits ≤ s.lim - s.tail → 0 < s.head → ∃ r t, o = .ok r t

theorem insertsNumber {F : Fix} {σ : Sch} {s : RW} {tag : Nat} {n : Int} {arg : Genus → Except Exc Val} {types : Genus → Bool}
    {holds : Genus → Int → Prop} (h : Reachable F σ s)
    (hb : ∀ v, StepBenign F s (.insert tag (tag2genus tag) v))
    (hspec : ∀ g, (types g = false → arg g = .error .typeMismatch ∨ arg g = .error .valueRange ∧ ¬ holds g n) ∧
      (types g = true → ¬ holds g n → arg g = .error .valueRange) ∧
      (types g = true → holds g n → ∃ v, arg g = .ok v ∧ Passes g v n)) :
    InsertsNumber F σ s tag n (insertWith F s tag arg) types holds := by
  have hst : insertWith F s tag arg = match arg (tag2genus tag) with
      | .error e => .exc e s
      | .ok v => insertField F s tag (tag2genus tag) v := by
    unfold insertWith
    cases arg (tag2genus tag) <;> rfl
  generalize hg : tag2genus tag = g at *
  obtain ⟨s1, s2, s3⟩ := hspec g
  by_cases c1 : types g = true
  · by_cases c2 : holds g n
    · obtain ⟨v, hv, pv⟩ := s3 c1 c2
      rw [hv] at hst
      simp only at hst
      have hfx := pv.fixed
      have huf : unitsFor g v = some g.looseUnits := by unfold unitsFor; rw [if_pos hfx]
      by_cases hc : isLooseCollection tag = true
      · have c15 := C15_insert_partial h pv.fits hg hc (hb v)
        refine ⟨fun r t e => ?_, fun e t he => ?_, fun _ _ _ k1 k2 => ?_⟩
        · rw [hst] at e
          obtain ⟨k1, k2, k3, k4⟩ := C10_insert_partial h pv.fits (hb v) e
          have hz : (¬ isDiscernible tag = true ∧ v.isEmpty g = true) ↔ (n = 0 ∧ isDiscernible tag = false) := by
            rw [Bool.not_eq_true]
            constructor
            · rintro ⟨a, b⟩
              refine ⟨?_, a⟩
              have hv := pv.value
              rw [pv.zero b] at hv
              have h0 : numberOf g ((Val.empty g).bytes g) = some 0 := by
                rcases pv.num with hi | rfl | rfl
                · rcases int_cases hi with rfl | rfl | rfl | rfl | rfl | rfl | rfl | rfl <;> decide +kernel
                · decide +kernel
                · decide +kernel
              rw [h0] at hv
              exact_mod_cast (Option.some.inj hv).symm
            · rintro ⟨a, b⟩
              exact ⟨b, pv.empty a⟩
          rw [hz] at k1 k2
          have hnn : v ≠ .nested none := by
            rintro rfl
            have := pv.fits
            rcases pv.num with hi | rfl | rfl
            · rcases int_cases hi with rfl | rfl | rfl | rfl | rfl | rfl | rfl | rfl <;> cases this
            · cases this
            · cases this
          refine ⟨hc, by rw [hg]; exact c1, by rw [hg]; exact c2, fun k => (k1 k).1, fun k => ⟨v, by rw [hg]; exact pv.value, ?_⟩, k3, k4⟩
          rw [(k2 k).2, if_neg hnn]
        · rw [hst] at he
          have key := insert_spec h.wf (hb v) hg pv.fits hc
          rw [he] at key
          refine ⟨key.1, Or.inr (Or.inr (Or.inr ⟨by rw [hg]; exact c1, by rw [hg]; exact c2, ?_⟩))⟩
          rw [hg]
          rcases c15.1 e t he with k | ⟨m, k1, k2, k3⟩
          · rw [huf] at k; cases k
          · rw [huf] at k1
            obtain rfl := Option.some.inj k1
            exact ⟨k2.imp fun _ k => k.1, k3⟩
        · rw [hst]
          rw [hg] at k1
          exact c15.2 _ huf k1 k2
      · have e : insertField F s tag g v = .exc .collectionRequired s := by
          unfold insertField
          rw [if_neg (fun k => k hg), if_pos hc]
        rw [e] at hst
        refine ⟨fun r t e => (by rw [hst] at e; cases e), fun e t he => ?_, fun _ _ k => absurd k hc⟩
        rw [hst] at he
        injection he with k1 k2
        exact ⟨k2.symm, Or.inr (Or.inr (Or.inl ⟨k1.symm, by simpa using hc⟩))⟩
    · have hv := s2 c1 c2
      rw [hv] at hst
      refine ⟨fun r t e => (by rw [hst] at e; cases e), fun e t he => ?_, fun _ k => absurd (by rw [hg] at k; exact k) c2⟩
      rw [hst] at he
      injection he with k1 k2
      exact ⟨k2.symm, Or.inr (Or.inl ⟨k1.symm, by rw [hg]; exact c2⟩)⟩
  · have c1' : types g = false := by simpa using c1
    rcases s1 c1' with hv | ⟨hv, hn⟩
    · rw [hv] at hst
      refine ⟨fun r t e => (by rw [hst] at e; cases e), fun e t he => ?_, fun k => absurd (by rw [hg] at k; exact k) c1⟩
      rw [hst] at he
      injection he with k1 k2
      exact ⟨k2.symm, Or.inl ⟨k1.symm, by rw [hg]; exact c1'⟩⟩
    · rw [hv] at hst
      refine ⟨fun r t e => (by rw [hst] at e; cases e), fun e t he => ?_, fun k => absurd (by rw [hg] at k; exact k) c1⟩
      rw [hst] at he
      injection he with k1 k2
      exact ⟨k2.symm, Or.inr (Or.inl ⟨k1.symm, by rw [hg]; exact hn⟩)⟩

/-- **C21 (partial), `insert_integer(int64_t)`, `insert_unsigned(uint64_t)`, `insert_number`** with an argument of any of the four
integer types. -/
theorem C21_insert_partial {F : Fix} {σ : Sch} {s : RW} {tag : Nat} {n : Int} (h : Reachable F σ s)
    (hb : ∀ v, StepBenign F s (.insert tag (tag2genus tag) v)) :
    (-2 ^ 63 ≤ n ∧ n < 2 ^ 63 → InsertsNumber F σ s tag n (insertWith F s tag (integerArg · n)) signedInt acceptable) ∧
    (0 ≤ n ∧ n < 2 ^ 64 → InsertsNumber F σ s tag n (insertWith F s tag (unsignedArg · n)) unsignedInt acceptable) ∧
    (∀ T : ArgType, T.has n → InsertsNumber F σ s tag n (insertWith F s tag (numberArg T · n)) numeric acceptable) := by
  refine ⟨fun hn => insertsNumber h hb fun g => ?_, fun hn => insertsNumber h hb fun g => ?_, fun T hn => insertsNumber h hb fun g => ?_⟩
  · obtain ⟨h1, h2, h3⟩ := integerArg_spec hn g
    exact ⟨fun k => Or.inl (h1 k), h2, h3⟩
  · obtain ⟨h1, h2, h3⟩ := unsignedArg_spec hn g
    exact ⟨fun k => Or.inl (h1 k), h2, h3⟩
  · obtain ⟨h1, h2⟩ := numberArg_spec hn g
    exact ⟨fun k => Or.inl (h1 k), fun k => (h2 k).1, fun k => (h2 k).2⟩

/-! ## C22: integer getters -/

theorem doubleOfInt_eq {n : Int} (h1 : -2 ^ 53 < n) (h2 : n < 2 ^ 53) : doubleOfInt n = some (n : ℚ) := (f64_exact h1 h2).1

/-- The number is within the bounds of `safe64_number_max`. -/
def exactDouble (x : Option ℚ) : Bool := x.all fun q => decide (-(2 ^ 53 - 1) ≤ q ∧ q ≤ 2 ^ 53 - 1)

/-- What the generic getters return when the field holds (for the typed getter) the object `r`: the number itself. -/
structure GetsNumber (s : RW) (tag : Nat) (r : Except Exc (List Nat)) : Prop where
  integer : getInteger s tag =
    if signedInt (tag2genus tag) then r.map fun b => (BitVec.ofNat (8 * (tag2genus tag).preplacedBytes) (leNat b)).toInt
    else .error .typeMismatch
  unsigned : getUnsigned s tag = if unsignedInt (tag2genus tag) then r.map fun b => (leNat b : Int) else .error .typeMismatch
  int128 : getInt128 s tag =
    if tag2genus tag = .bin128 ∨ signedInt (tag2genus tag) then
      r.map fun b => (BitVec.ofNat (8 * (tag2genus tag).preplacedBytes) (leNat b)).toInt
    else .error .typeMismatch
  uint128 : getUint128 s tag =
    if tag2genus tag = .bin128 ∨ unsignedInt (tag2genus tag) then r.map fun b => (leNat b : Int) else .error .typeMismatch
  number : getNumber s tag =
    if numeric (tag2genus tag) then r.bind fun b =>
      if (tag2genus tag = .i64 ∨ tag2genus tag = .u64) ∧ exactDouble (numberOf (tag2genus tag) b) = false then .error .valueRange
      else .ok (numberOf (tag2genus tag) b)
    else .error .typeMismatch

private theorem map_congr' {α β : Type} {r : Except Exc α} {f f' : α → β} (h : ∀ b, r = .ok b → f b = f' b) : r.map f = r.map f' := by
  cases r with
  | error e => rfl
  | ok b => exact congrArg Except.ok (h b rfl)

private theorem bind_congr' {α β : Type} {r : Except Exc α} {f f' : α → Except Exc β} (h : ∀ b, r = .ok b → f b = f' b) : r.bind f = r.bind f' := by
  cases r with
  | error e => rfl
  | ok b => exact h b rfl

private theorem map_bind {α β : Type} (r : Except Exc α) (f : α → β) : r.map f = r.bind fun b => .ok (f b) := by
  cases r <;> rfl

private theorem intOf_toInt {g : Genus} (hg : signedInt g = true) {b : List Nat} (hb : leNat b < 2 ^ width g) :
    intOf g b = (BitVec.ofNat (8 * g.preplacedBytes) (leNat b)).toInt := by
  unfold intOf
  rw [if_pos hg, signExtend_toInt (width_or (width_int (by unfold isInt; rw [hg]; rfl))) hb]
  rfl

private theorem small_range {g : Genus} (hg : isInt g = true) (h64 : g ≠ .i64 ∧ g ≠ .u64) {b : List Nat} (hb : leNat b < 2 ^ width g) :
    -2 ^ 53 < intOf g b ∧ intOf g b < 2 ^ 53 := by
  have key : -2 ^ 31 ≤ intOf g b ∧ intOf g b < 2 ^ 32 := by
    rcases int_cases hg with rfl | rfl | rfl | rfl | rfl | rfl | rfl | rfl
    · have k : -2 ^ 7 ≤ intOf .i8 b ∧ intOf .i8 b < 2 ^ 7 := signExtend_range (Or.inl rfl) hb
      norm_num at k ⊢; omega
    · have hb : leNat b < 2 ^ 8 := hb
      have e : intOf .u8 b = (leNat b : Int) := rfl
      rw [e]; norm_num at hb ⊢; omega
    · have k : -2 ^ 15 ≤ intOf .i16 b ∧ intOf .i16 b < 2 ^ 15 := signExtend_range (Or.inr (Or.inl rfl)) hb
      norm_num at k ⊢; omega
    · have hb : leNat b < 2 ^ 16 := hb
      have e : intOf .u16 b = (leNat b : Int) := rfl
      rw [e]; norm_num at hb ⊢; omega
    · have k : -2 ^ 31 ≤ intOf .i32 b ∧ intOf .i32 b < 2 ^ 31 := signExtend_range (Or.inr (Or.inr (Or.inl rfl))) hb
      norm_num at k ⊢; omega
    · have hb : leNat b < 2 ^ 32 := hb
      have e : intOf .u32 b = (leNat b : Int) := rfl
      rw [e]; norm_num at hb ⊢; omega
    · exact absurd rfl h64.1
    · exact absurd rfl h64.2
  norm_num at key ⊢; omega

private theorem number_small {g : Genus} (hg : isInt g = true) (h64 : g ≠ .i64 ∧ g ≠ .u64) {b : List Nat} (hb : leNat b < 2 ^ width g) :
    doubleOfInt (intOf g b) = numberOf g b := by
  obtain ⟨h1, h2⟩ := small_range hg h64 hb
  rw [doubleOfInt_eq h1 h2, intOf_number hg hb]

private theorem exact_int (n : Int) : exactDouble (some (n : ℚ)) = decide (-9007199254740991 ≤ n ∧ n ≤ 9007199254740991) := by
  unfold exactDouble
  show decide _ = decide _
  refine decide_eq_decide.2 ?_
  norm_num
  constructor
  · rintro ⟨a, b⟩; exact ⟨by exact_mod_cast a, by exact_mod_cast b⟩
  · rintro ⟨a, b⟩; exact ⟨by exact_mod_cast a, by exact_mod_cast b⟩

private theorem number_wide {g : Genus} (hg : isInt g = true) {b : List Nat} (hb : leNat b < 2 ^ width g) :
    (if intOf g b < -safe64 ∨ intOf g b > safe64 then Except.error Exc.valueRange else .ok (doubleOfInt (intOf g b))) =
      (if exactDouble (numberOf g b) = false then .error .valueRange else .ok (numberOf g b)) := by
  rw [intOf_number hg hb, exact_int]
  have es : safe64 = 9007199254740991 := rfl
  by_cases c : intOf g b < -safe64 ∨ intOf g b > safe64
  · rw [if_pos c, if_pos (decide_eq_false (by omega))]
  · rw [if_neg c, if_neg (by rw [decide_eq_false_iff_not]; omega), doubleOfInt_eq (by norm_num; omega) (by norm_num; omega)]

/-- **C22.** Whatever object of its type the field holds, the generic getters return its number exactly. -/
theorem C22_getters {s : RW} {tag : Nat} {r : Except Exc (List Nat)} (hr : getFixed s tag (tag2genus tag) = r)
    (hb : ∀ b, r = .ok b → b.length = (tag2genus tag).preplacedBytes ∧ b.all (· < 256) = true) : GetsNumber s tag r := by
  have hlt : ∀ b, r = .ok b → leNat b < 2 ^ width (tag2genus tag) := by
    intro b e
    have := leNat_lt b (hb b e).2
    rw [(hb b e).1] at this
    exact this
  clear hb
  have hi : getInteger s tag =
      if signedInt (tag2genus tag) then r.map fun b => (BitVec.ofNat (8 * (tag2genus tag).preplacedBytes) (leNat b)).toInt
      else .error .typeMismatch := by
    by_cases c : signedInt (tag2genus tag) = true
    · have e : getInteger s tag = r.map (intOf (tag2genus tag)) := by
        unfold getInteger
        rw [← hr]
        revert c
        cases tag2genus tag <;> first | (intro c; exact absurd c (by decide)) | (intro _; rfl)
      rw [if_pos c, e]
      exact map_congr' fun b k => intOf_toInt c (hlt b k)
    · rw [if_neg c]
      unfold getInteger
      revert c
      cases tag2genus tag <;> first | (intro _; rfl) | (intro c; exact absurd rfl c)
  have hu : getUnsigned s tag = if unsignedInt (tag2genus tag) then r.map fun b => (leNat b : Int) else .error .typeMismatch := by
    rw [← hr]
    unfold getUnsigned
    cases tag2genus tag <;> rfl
  refine ⟨hi, hu, ?_, ?_, ?_⟩
  · unfold getInt128
    by_cases c : tag2genus tag = .bin128
    · rw [if_pos c, if_pos (Or.inl c), ← hr, c]
      refine map_congr' fun b k => ?_
      refine signExtend_toInt (by tauto) ?_
      have := hlt b (by rw [← hr, c]; exact k)
      rw [c] at this
      exact this
    · rw [if_neg c, hi]
      by_cases c2 : signedInt (tag2genus tag) = true
      · rw [if_pos c2, if_pos (Or.inr c2)]
      · rw [if_neg c2, if_neg (by tauto)]
  · unfold getUint128
    by_cases c : tag2genus tag = .bin128
    · rw [if_pos c, if_pos (Or.inl c), ← hr, c]
    · rw [if_neg c, hu]
      by_cases c2 : unsignedInt (tag2genus tag) = true
      · rw [if_pos c2, if_pos (Or.inr c2)]
      · rw [if_neg c2, if_neg (by tauto)]
  · unfold getNumber
    generalize tag2genus tag = g at *
    have small : isInt g = true → g ≠ .i64 ∧ g ≠ .u64 → (r.map fun b => doubleOfInt (intOf g b)) = r.bind fun b =>
        if (g = .i64 ∨ g = .u64) ∧ exactDouble (numberOf g b) = false then .error .valueRange else .ok (numberOf g b) := by
      intro h1 h2
      rw [map_bind]
      refine bind_congr' fun b k => ?_
      rw [number_small h1 h2 (hlt b k), if_neg (by tauto)]
    have wide : isInt g = true → (g = .i64 ∨ g = .u64) →
        (r.bind fun b => if intOf g b < -safe64 ∨ intOf g b > safe64 then Except.error Exc.valueRange else .ok (doubleOfInt (intOf g b))) = r.bind fun b =>
        if (g = .i64 ∨ g = .u64) ∧ exactDouble (numberOf g b) = false then .error .valueRange else .ok (numberOf g b) := by
      intro h1 h2
      refine bind_congr' fun b k => ?_
      rw [number_wide h1 (hlt b k)]
      by_cases c : exactDouble (numberOf g b) = false
      · rw [if_pos c, if_pos ⟨h2, c⟩]
      · rw [if_neg c, if_neg (fun k => c k.2)]
    have flt : (g = .f32 ∨ g = .f64) → (r.map fun b => numberOf g b) = r.bind fun b =>
        if (g = .i64 ∨ g = .u64) ∧ exactDouble (numberOf g b) = false then .error .valueRange else .ok (numberOf g b) := by
      intro h1
      rw [map_bind]
      refine bind_congr' fun b k => ?_
      rw [if_neg]
      rintro ⟨k, _⟩
      rcases h1 with rfl | rfl <;> rcases k with k | k <;> cases k
    cases g <;> first | rfl | (rw [hr]; exact small rfl ⟨by decide, by decide⟩) | (rw [hr]; exact wide rfl (by decide)) | (rw [hr]; exact flt (by decide)) | skip
    · refine Eq.trans ?_ (wide rfl (by decide))
      rw [hr]
      refine bind_congr' fun b k => ?_
      have e : intOf .u64 b = (leNat b : Int) := rfl
      have es : safe64 = 9007199254740991 := rfl
      by_cases c : intOf .u64 b > safe64
      · rw [if_pos c, if_pos (Or.inr c)]
      · rw [if_neg c, if_neg (by omega)]

theorem fixed_bytes {g : Genus} {v : Val} (hf : v.fits g = true) (hfx : g.isFixed = true) :
    (v.bytes g).length = g.preplacedBytes ∧ (v.bytes g).all (· < 256) = true :=
  ⟨bytes_length hf hfx, List.all_eq_true.2 fun b hb => decide_eq_true (bytes_ok hf b hb)⟩

theorem getFixed_set {F : Fix} {σ : Sch} {s t : RW} {tag : Nat} {v : Val} (h : Reachable F σ s) (ht : TokenOk σ s.pre tag)
    (hfx : (tag2genus tag).isFixed = true) (hf : v.fits (tag2genus tag) = true) (hb : StepBenign F s (.set tag (tag2genus tag) v))
    (hs : setField F s tag (tag2genus tag) v = .ok () t) (hd : isLoose tag = true → ¬ dropped tag (tag2genus tag) v) :
    getFixed t tag (tag2genus tag) =
      if isPreplaced tag = true ∧ isDiscernible tag = true ∧ v.bytes (tag2genus tag) = denilBytes (tag2genus tag) then .error .fieldAbsent
      else .ok (v.bytes (tag2genus tag)) := by
  unfold getFixed
  by_cases hp : isPreplaced tag = true
  · obtain ⟨k1, _⟩ := C09_set_preplaced_fixed h hp ht hfx hf hs
    rw [if_pos hp, k1]
    by_cases c : isDiscernible tag = true ∧ v.bytes (tag2genus tag) = denilBytes (tag2genus tag)
    · rw [if_pos c, if_pos ⟨hp, c⟩]
    · rw [if_neg c, if_neg (fun k => c k.2)]
  · have hl : isLoose tag = true := by
      have := preplaced_not_loose tag
      simp_all
    obtain ⟨k1, _⟩ := C09_set_partial h hl hf hb hs (hd hl)
    rw [if_neg hp, k1 (by intro k; rw [k] at hfx; cases hfx), if_neg (fun k => hp k.1)]
    rfl

/-- **C22 (partial), with the typed setters.** After any fixed-size value was stored, the generic getters return its number.
Missing for the code as it is: histories in which a defect of `src/gear.cxx` shows. -/
theorem C22_after_set_partial {F : Fix} {σ : Sch} {s t : RW} {tag : Nat} {v : Val} (h : Reachable F σ s) (ht : TokenOk σ s.pre tag)
    (hfx : (tag2genus tag).isFixed = true) (hf : v.fits (tag2genus tag) = true) (hb : StepBenign F s (.set tag (tag2genus tag) v))
    (hs : setField F s tag (tag2genus tag) v = .ok () t) (hd : isLoose tag = true → ¬ dropped tag (tag2genus tag) v) :
    GetsNumber t tag
      (if isPreplaced tag = true ∧ isDiscernible tag = true ∧ v.bytes (tag2genus tag) = denilBytes (tag2genus tag) then .error .fieldAbsent
      else .ok (v.bytes (tag2genus tag))) := by
  refine C22_getters (getFixed_set h ht hfx hf hb hs hd) fun b e => ?_
  split at e
  · cases e
  · injection e with e
    rw [← e]
    exact fixed_bytes hf hfx

/-- **C21 (partial), `set_int128`, `set_uint128` of a `bin128` field**: the number reads back (zero stands for "no value" in such a
field, see C20). -/
theorem C21_bin128_partial {F : Fix} {σ : Sch} {s t : RW} {tag : Nat} {n : Int} (h : Reachable F σ s) (ht : TokenOk σ s.pre tag)
    (hg : tag2genus tag = .bin128) (hc : isLooseCollection tag = false) (hb : ∀ v, StepBenign F s (.set tag (tag2genus tag) v))
    (hn : n ≠ 0) :
    (-2 ^ 127 ≤ n ∧ n < 2 ^ 127 → setInt128 F s tag n = .ok () t → getInt128 t tag = .ok n) ∧
    (0 ≤ n ∧ n < 2 ^ 128 → setUint128 F s tag n = .ok () t → getUint128 t tag = .ok n) := by
  have key : ∀ x : Nat, x < 2 ^ 128 → x ≠ 0 → setField F s tag .bin128 (.units (natCells 4 x)) = .ok () t →
      getInt128 t tag = .ok (BitVec.ofNat 128 x).toInt ∧ getUint128 t tag = .ok x := by
    intro x hx h0 hs
    have hf : (Val.units (natCells 4 x)).fits .bin128 = true := by
      show (true && true && true && decide ((natCells 4 x).length = 4) && (natCells 4 x).all Cell.ok) = true
      rw [natCells_length, natCells_ok]; rfl
    have hle : leNat ((Val.units (natCells 4 x)).bytes .bin128) = x := by
      show leNat ((natCells 4 x).flatMap cellBytes) = x
      rw [leNat_natCells, Nat.mod_eq_of_lt hx]
    have hne : (Val.units (natCells 4 x)).isEmpty .bin128 = false := by
      by_contra hh
      rw [Bool.not_eq_false] at hh
      exact h0 (natCells_zero (n := 4) hx hh)
    have hnd : (Val.units (natCells 4 x)).bytes .bin128 ≠ denilBytes .bin128 := by
      intro e
      rw [e] at hle
      have : leNat (denilBytes .bin128) = 0 := by decide
      omega
    have k := C22_after_set_partial (v := .units (natCells 4 x)) h ht (by rw [hg]; rfl) (by rw [hg]; exact hf) (hb _) (by rw [hg]; exact hs)
      (fun _ hd => by
        rcases hd with ⟨_, hd⟩ | hd
        · rw [hg, hne] at hd; cases hd
        · cases hd)
    rw [if_neg (by rw [hg]; exact fun k => hnd k.2.2)] at k
    have k1 := k.int128
    have k2 := k.uint128
    rw [if_pos (Or.inl hg)] at k1 k2
    rw [hg] at k1 k2
    refine ⟨k1.trans ?_, k2.trans ?_⟩
    · show Except.ok (BitVec.toInt (BitVec.ofNat (8 * Genus.bin128.preplacedBytes) (leNat ((Val.units (natCells 4 x)).bytes .bin128)))) = _
      rw [hle]; rfl
    · show Except.ok ((leNat ((Val.units (natCells 4 x)).bytes .bin128) : Nat) : Int) = _
      rw [hle]
  have e1 : setInt128 F s tag n = setField F s tag .bin128 (.units (natCells 4 (pattern 128 n))) := by
    unfold setInt128 setWith int128Arg
    beta_reduce
    rw [if_neg (by rw [hc]; decide), if_pos hg, hg]
  have e2 : setUint128 F s tag n = setField F s tag .bin128 (.units (natCells 4 (pattern 128 n))) := by
    unfold setUint128 setWith uint128Arg
    beta_reduce
    rw [if_neg (by rw [hc]; decide), if_pos hg, hg]
  have hx0 : ∀ m : Int, m ≠ 0 → (-2 ^ 127 ≤ m ∧ m < 2 ^ 127 ∨ 0 ≤ m ∧ m < 2 ^ 128) → pattern 128 m ≠ 0 := by
    intro m hm hr e
    have := pattern_cast 128 m
    rw [e] at this
    norm_num at hr this
    omega
  refine ⟨fun hr hs => ?_, fun hr hs => ?_⟩
  · rw [e1] at hs
    rw [(key _ (pattern_lt _ _) (hx0 n hn (Or.inl hr)) hs).1, ← signExtend_toInt (by tauto) (pattern_lt _ _),
      signExtend_pattern (by tauto) hr.1 hr.2]
  · rw [e2] at hs
    rw [(key _ (pattern_lt _ _) (hx0 n hn (Or.inr hr)) hs).2, pattern_nonneg hr.1 hr.2]

/-! ## C44: floating-point arguments of integer fields -/

/-- The integer nearest to `q` in the direction of zero. -/
def Truncates (q : ℚ) (n : Int) : Prop :=
  (0 ≤ q → (n : ℚ) ≤ q ∧ q < n + 1) ∧ (q ≤ 0 → q ≤ n ∧ (n : ℚ) - 1 < q)

/-- The numbers which `set_number` accepts for an integer field from a `float` or `double` argument. -/
def realBounds (double : Bool) : Genus → ℚ × ℚ
  | .i8 => (-128, 127)
  | .i16 => (-32768, 32767)
  | .u8 => (0, 255)
  | .u16 => (0, 65535)
  | .i32 => if double then (-2147483647, 2147483647) else (-2147483520, 2147483520)
  | .u32 => if double then (0, 4294967295) else (0, 4294967040)
  | .i64 => if double then (-9223372036854774784, 9223372036854774784) else (-9223371487098961920, 9223371487098961920)
  | .u64 => if double then (0, 18446744073709549568) else (0, 18446742974197923840)
  | _ => (0, 0)

theorem tdiv_truncates (q : ℚ) : Truncates q (q.num.tdiv q.den) := by
  have pos : ∀ r : ℚ, 0 ≤ r → ((r.num.tdiv r.den : Int) : ℚ) ≤ r ∧ r < (r.num.tdiv r.den : Int) + 1 := by
    intro r hr
    have e : r.num.tdiv r.den = ⌊r⌋ := by
      rw [Int.tdiv_eq_ediv_of_nonneg (Rat.num_nonneg.2 hr), Rat.floor_def']
    rw [e]
    exact ⟨Int.floor_le r, Int.lt_floor_add_one r⟩
  refine ⟨fun h => pos q h, fun h => ?_⟩
  obtain ⟨k1, k2⟩ := pos (-q) (by linarith)
  rw [Rat.neg_num, Rat.neg_den, Int.neg_tdiv] at k1 k2
  push_cast at k1 k2
  constructor <;> linarith

theorem truncates_range {q : ℚ} {n lo hi : Int} (h : Truncates q n) (h1 : (lo : ℚ) ≤ q) (h2 : q ≤ hi) (hlo : lo ≤ 0) (hhi : 0 ≤ hi) :
    lo ≤ n ∧ n ≤ hi := by
  have c1 : (lo : ℚ) ≤ 0 := by exact_mod_cast hlo
  have c2 : (0 : ℚ) ≤ hi := by exact_mod_cast hhi
  rcases le_total 0 q with c | c
  · obtain ⟨a, b⟩ := h.1 c
    have k1 : ((-1 : Int) : ℚ) < n := by push_cast; linarith
    have k1 : -1 < n := by exact_mod_cast k1
    have k2 : (n : ℚ) ≤ hi := by linarith
    have k2 : n ≤ hi := by exact_mod_cast k2
    omega
  · obtain ⟨a, b⟩ := h.2 c
    have k1 : (n : ℚ) < ((1 : Int) : ℚ) := by push_cast; linarith
    have k1 : n < 1 := by exact_mod_cast k1
    have k2 : (lo : ℚ) ≤ n := by linarith
    have k2 : lo ≤ n := by exact_mod_cast k2
    omega

theorem realArg_spec (double : Bool) {g : Genus} (hg : isInt g = true) (q : ℚ) :
    (¬ ((realBounds double g).1 ≤ q ∧ q ≤ (realBounds double g).2) → numberArgReal double g (.fin q) = .exc .valueRange) ∧
    ((realBounds double g).1 ≤ q ∧ q ≤ (realBounds double g).2 → inRange g (q.num.tdiv q.den) ∧
      numberArgReal double g (.fin q) = .ok (intVal g (q.num.tdiv q.den))) := by
  obtain ⟨r1, r2, r3, r4, r5, r6, r7, r8⟩ := range_iff (q.num.tdiv q.den)
  norm_num at r3 r4 r7 r8
  have ht := tdiv_truncates q
  have cast : ∀ {g : Genus}, isInt g = true → inRange g (q.num.tdiv q.den) → realCast g (.fin q) = .ok (intVal g (q.num.tdiv q.den)) := by
    intro g hg hr
    have e : (Flt.fin q).toInt g = some (q.num.tdiv q.den) := by
      unfold Flt.toInt
      exact if_pos (castInt_eq hg hr)
    unfold realCast
    rw [e]
  have ranged : ∀ {g : Genus} {lo hi : Int} {a b : ℚ}, isInt g = true → (lo ≤ q.num.tdiv q.den → q.num.tdiv q.den ≤ hi → inRange g (q.num.tdiv q.den)) →
      a = lo → b = hi → lo ≤ 0 → 0 ≤ hi →
      (¬ (a ≤ q ∧ q ≤ b) → realRanged g lo hi (.fin q) = .exc .valueRange) ∧
      (a ≤ q ∧ q ≤ b → inRange g (q.num.tdiv q.den) ∧ realRanged g lo hi (.fin q) = .ok (intVal g (q.num.tdiv q.den))) := by
    rintro g lo hi _ _ hg hr rfl rfl h1 h2
    have e : ((Flt.fin q).lt lo || (Flt.fin q).gt hi) = !decide ((lo : ℚ) ≤ q ∧ q ≤ hi) := by
      show (decide (q < lo) || decide ((hi : ℚ) < q)) = _
      rw [← Bool.decide_or, ← decide_not]
      refine decide_eq_decide.2 ?_
      rw [not_and_or, not_le, not_le]
    unfold realRanged
    rw [e]
    constructor
    · intro k; rw [decide_eq_false k]; rfl
    · intro k
      obtain ⟨m1, m2⟩ := truncates_range ht k.1 k.2 h1 h2
      rw [decide_eq_true k]
      exact ⟨hr m1 m2, cast hg (hr m1 m2)⟩
  have safe : ∀ {g : Genus} {lo hi : Int} {a b : ℚ}, isInt g = true → (lo ≤ q.num.tdiv q.den → q.num.tdiv q.den ≤ hi → inRange g (q.num.tdiv q.den)) →
      roundtripBounds double g = (lo, hi) → a = lo → b = hi → lo ≤ 0 → 0 ≤ hi →
      (¬ (a ≤ q ∧ q ≤ b) → realSafe double g (.fin q) = .exc .valueRange) ∧
      (a ≤ q ∧ q ≤ b → inRange g (q.num.tdiv q.den) ∧ realSafe double g (.fin q) = .ok (intVal g (q.num.tdiv q.den))) := by
    rintro g lo hi _ _ hg hr hbd rfl rfl h1 h2
    have e : (!((Flt.fin q).ge lo && (Flt.fin q).le hi)) = !decide ((lo : ℚ) ≤ q ∧ q ≤ hi) := by
      show (!(decide ((lo : ℚ) ≤ q) && decide (q ≤ (hi : ℚ)))) = _
      rw [← Bool.decide_and]
    unfold realSafe
    rw [hbd, e]
    constructor
    · intro k; rw [decide_eq_false k]; rfl
    · intro k
      obtain ⟨m1, m2⟩ := truncates_range ht k.1 k.2 h1 h2
      rw [decide_eq_true k]
      exact ⟨hr m1 m2, cast hg (hr m1 m2)⟩
  rcases int_cases hg with rfl | rfl | rfl | rfl | rfl | rfl | rfl | rfl
  · exact ranged rfl (fun a b => r1.2 ⟨a, b⟩) (by norm_num [realBounds]) (by norm_num [realBounds]) (by norm_num) (by norm_num)
  · exact ranged rfl (fun a b => r5.2 ⟨a, b⟩) (by norm_num [realBounds]) (by norm_num [realBounds]) (by norm_num) (by norm_num)
  · exact ranged rfl (fun a b => r2.2 ⟨a, b⟩) (by norm_num [realBounds]) (by norm_num [realBounds]) (by norm_num) (by norm_num)
  · exact ranged rfl (fun a b => r6.2 ⟨a, b⟩) (by norm_num [realBounds]) (by norm_num [realBounds]) (by norm_num) (by norm_num)
  · cases double
    · exact safe (lo := -2147483520) (hi := 2147483520) rfl (fun a b => r3.2 ⟨by omega, by omega⟩) (by norm_num [roundtripBounds]) (by norm_num [realBounds]) (by norm_num [realBounds]) (by norm_num) (by norm_num)
    · exact safe (lo := -2147483647) (hi := 2147483647) rfl (fun a b => r3.2 ⟨by omega, by omega⟩) (by norm_num [roundtripBounds]) (by norm_num [realBounds]) (by norm_num [realBounds]) (by norm_num) (by norm_num)
  · cases double
    · exact safe (lo := 0) (hi := 4294967040) rfl (fun a b => r7.2 ⟨by omega, by omega⟩) (by norm_num [roundtripBounds]) (by norm_num [realBounds]) (by norm_num [realBounds]) (by norm_num) (by norm_num)
    · exact safe (lo := 0) (hi := 4294967295) rfl (fun a b => r7.2 ⟨by omega, by omega⟩) (by norm_num [roundtripBounds]) (by norm_num [realBounds]) (by norm_num [realBounds]) (by norm_num) (by norm_num)
  · cases double
    · exact safe (lo := -9223371487098961920) (hi := 9223371487098961920) rfl (fun a b => r4.2 ⟨by omega, by omega⟩) (by norm_num [roundtripBounds]) (by norm_num [realBounds]) (by norm_num [realBounds]) (by norm_num) (by norm_num)
    · exact safe (lo := -9223372036854774784) (hi := 9223372036854774784) rfl (fun a b => r4.2 ⟨by omega, by omega⟩) (by norm_num [roundtripBounds]) (by norm_num [realBounds]) (by norm_num [realBounds]) (by norm_num) (by norm_num)
  · cases double
    · exact safe (lo := 0) (hi := 18446742974197923840) rfl (fun a b => r8.2 ⟨by omega, by omega⟩) (by norm_num [roundtripBounds]) (by norm_num [realBounds]) (by norm_num [realBounds]) (by norm_num) (by norm_num)
    · exact safe (lo := 0) (hi := 18446744073709549568) rfl (fun a b => r8.2 ⟨by omega, by omega⟩) (by norm_num [roundtripBounds]) (by norm_num [realBounds]) (by norm_num [realBounds]) (by norm_num) (by norm_num)

/-- **C44 (partial).** `set_number` of an integer field with a finite `float` or `double` argument stores its integer part (the
fraction is lost without notice), or throws and changes nothing; the conversion is never undefined. Missing for the code as it
is: histories in which a defect of `src/gear.cxx` shows. -/
theorem C44_set_real_partial {F : Fix} {σ : Sch} {s : RW} {tag : Nat} {double : Bool} {q : ℚ} (h : Reachable F σ s) (ht : TokenOk σ s.pre tag)
    (hc : isLooseCollection tag = false) (hb : ∀ v, StepBenign F s (.set tag (tag2genus tag) v)) :
    ∃ n : Int, Truncates q n ∧ SetsNumber F σ s tag n (setReal F s tag double (.fin q)) isInt
      (fun g _ => isInt g = true → (realBounds double g).1 ≤ q ∧ q ≤ (realBounds double g).2) := by
  refine ⟨q.num.tdiv q.den, tdiv_truncates q, ?_⟩
  let arg : Genus → Except Exc Val := fun g =>
    match numberArgReal double g (.fin q) with
    | .ok v => .ok v
    | .exc e => .error e
    | .ub => .error .badAlloc
  have hmis : ∀ g, isInt g = false → numberArgReal double g (.fin q) = .exc .typeMismatch := by
    intro g
    cases g <;> first | (intro k; exact absurd k (by decide)) | (intro _; rfl)
  have hnub : ∀ g, numberArgReal double g (.fin q) ≠ .ub := by
    intro g
    by_cases hg : isInt g = true
    · by_cases c : (realBounds double g).1 ≤ q ∧ q ≤ (realBounds double g).2
      · rw [((realArg_spec double hg q).2 c).2]; exact fun k => by cases k
      · rw [(realArg_spec double hg q).1 c]; exact fun k => by cases k
    · rw [hmis g (by simpa using hg)]; exact fun k => by cases k
  have e : setReal F s tag double (.fin q) = setWith F s tag arg := by
    unfold setReal setWith
    show _ = if isLooseCollection tag = true then Out.exc .collectionUnallowed s else match (match numberArgReal double (tag2genus tag) (.fin q) with
      | .ok v => Except.ok v
      | .exc e => .error e
      | .ub => .error .badAlloc) with | .error e => Out.exc e s | .ok v => setField F s tag (tag2genus tag) v
    have := hnub (tag2genus tag)
    cases hm : numberArgReal double (tag2genus tag) (.fin q) with
    | ok v => rfl
    | exc e => rfl
    | ub => exact absurd hm this
  rw [e]
  refine setsNumber h ht hc hb fun g => ⟨fun k => Or.inl ?_, fun k1 k2 => ?_, fun k1 k2 => ?_⟩
  · show (match numberArgReal double g (.fin q) with | .ok v => Except.ok v | .exc e => .error e | .ub => .error .badAlloc) = _
    rw [hmis g k]
  · show (match numberArgReal double g (.fin q) with | .ok v => Except.ok v | .exc e => .error e | .ub => .error .badAlloc) = _
    rw [(realArg_spec double k1 q).1 (fun k => k2 fun _ => k)]
  · obtain ⟨m1, m2⟩ := (realArg_spec double k1 q).2 (k2 k1)
    refine ⟨_, ?_, Passes.ofInt k1 m1⟩
    show (match numberArgReal double g (.fin q) with | .ok v => Except.ok v | .exc e => .error e | .ub => .error .badAlloc) = _
    rw [m2]

/-- **C44, NaN and infinities**: always refused without any change. -/
theorem C44_not_finite (F : Fix) (s : RW) (tag : Nat) (double : Bool) (x : Flt) (hx : ∀ q, x ≠ .fin q) (hg : isInt (tag2genus tag) = true)
    (hc : isLooseCollection tag = false) : setReal F s tag double x = .exc .valueRange s := by
  unfold setReal
  rw [if_neg (by rw [hc]; decide)]
  have e : numberArgReal double (tag2genus tag) x = .exc .valueRange := by
    generalize tag2genus tag = g at hg
    cases x with
    | nan => rfl
    | fin q => exact absurd rfl (hx q)
    | inf b =>
      rcases int_cases hg with rfl | rfl | rfl | rfl | rfl | rfl | rfl | rfl <;> cases double <;> cases b <;> rfl
  rw [e]

/-! ## What the setters do not do -/

/-- **C21 refuted for `set_unsigned(int64_t)` and `insert_unsigned(int64_t)`**: they refuse every field of an unsigned type,
whatever the number (they call `set_integer`, rw.h:529, rw.cxx:318). -/
theorem C21_unsigned_int64_refuted (F : Fix) (s : RW) (tag : Nat) (n : Int) (hg : unsignedInt (tag2genus tag) = true)
    (hc : isLooseCollection tag = false) (hn : 0 ≤ n ∧ n < 2 ^ 63) :
    setUnsignedS F s tag n = .exc .typeMismatch s ∧ insertWith F s tag (unsignedArgS · n) = .exc .typeMismatch s := by
  have e : unsignedArgS (tag2genus tag) n = .error .typeMismatch := by
    unfold unsignedArgS integerArgU
    have h1 : inRange .u64 n := by show 0 ≤ n ∧ n < 2 ^ 64; omega
    rw [if_neg (by omega), castInt_eq (g := .u64) rfl h1, if_neg (by omega)]
    revert hg
    cases tag2genus tag <;> first | (intro k; exact absurd k (by decide)) | (intro _; rfl)
  constructor
  · unfold setUnsignedS setWith
    beta_reduce
    rw [if_neg (by rw [hc]; decide), e]
  · unfold insertWith
    beta_reduce
    rw [e]

/-- The outcome of a setter on a fresh tuple satisfies `p`. -/
def okWith (o : Out Unit) (p : RW → Bool) : Bool :=
  match o with | .ok _ t => p t | _ => false

/-- ... and they store into fields of signed types. -/
theorem C21_unsigned_int64_signed_refuted :
    okWith (setUnsignedS .code (fresh 8 60) (fix .i32 3) 77) (fun t => decide (getInteger t (fix .i32 3) = .ok 77)) = true := by
  decide +kernel

/-- **C21 refuted for `set_int128` and `set_uint128`**: a number beyond 64 bits is stored into a 64-bit field as another
number, without any exception. -/
theorem C21_int128_refuted :
    okWith (setInt128 .code (fresh 8 60) (fix .i64 3) (2 ^ 64 + 5)) (fun t => decide (getInteger t (fix .i64 3) = .ok 5)) = true ∧
    okWith (setInt128 .code (fresh 8 60) (fix .i8 3) (2 ^ 64 - 1)) (fun t => decide (getInteger t (fix .i8 3) = .ok (-1))) = true ∧
    okWith (setUint128 .code (fresh 8 60) (fix .u64 3) (2 ^ 64 + 5)) (fun t => decide (getUnsigned t (fix .u64 3) = .ok 5)) = true := by
  refine ⟨?_, ?_, ?_⟩ <;> decide +kernel

/-- **C21 refuted for saturated tokens**: schema.h:79-84 promises that with `saturation` the nearest acceptable number is
stored; the setters never do that. -/
theorem C21_saturation_refuted (F : Fix) (s : RW) (tag : Nat) (n : Int) (hg : signedInt (tag2genus tag) = true)
    (hc : isLooseCollection tag = false) (_ : isSaturated tag = true) (hn : -2 ^ 63 ≤ n ∧ n < 2 ^ 63) (hr : ¬ acceptable (tag2genus tag) n) :
    setInteger F s tag n = .exc .valueRange s := by
  unfold setInteger setWith
  beta_reduce
  rw [if_neg (by rw [hc]; decide), (integerArg_spec hn _).2.1 hg hr]

example : isSaturated (makeTag .i8 3 false false true) = true ∧ setInteger .code (fresh 8 60) (makeTag .i8 3 false false true) 300 =
    .exc .valueRange (fresh 8 60) :=
  ⟨by decide, C21_saturation_refuted _ _ _ _ (by decide) (by decide) (by decide) (by decide) (by
    show ¬ (-2 ^ 7 ≤ (300 : Int) ∧ (300 : Int) < 2 ^ 7); omega)⟩

/-! ## Concrete cases -/

/-- The hypotheses of the setter theorems are met on the code as it is; the number reads back. -/
example : SetsNumber .code noPre (fresh 8 60) (fix .i32 3) (-100000) (setInteger .code (fresh 8 60) (fix .i32 3) (-100000)) signedInt acceptable ∧
    okWith (setInteger .code (fresh 8 60) (fix .i32 3) (-100000)) (fun t => decide (getInteger t (fix .i32 3) = .ok (-100000))) = true := by
  refine ⟨C21_set_integer_partial ((fresh_ok (by decide) (by decide)).reachable (ops := []) (fun _ h => (by cases h)) trivial rfl)
    ⟨by decide, fun h => absurd h (by decide)⟩ (by decide) (fun v => stepBenign_of rfl) (by norm_num), by decide +kernel⟩

example : SetsNumber .code noPre (fresh 8 60) (fix .f64 3) (2 ^ 52 + 1) (setWith .code (fresh 8 60) (fix .f64 3) (numberArg .s64 · (2 ^ 52 + 1))) numeric acceptable ∧
    okWith (setWith .code (fresh 8 60) (fix .f64 3) (numberArg .s64 · (2 ^ 52 + 1)))
      (fun t => decide (getNumber t (fix .f64 3) = .ok (some (2 ^ 52 + 1)))) = true := by
  refine ⟨C21_set_number_partial ((fresh_ok (by decide) (by decide)).reachable (ops := []) (fun _ h => (by cases h)) trivial rfl)
    ⟨by decide, fun h => absurd h (by decide)⟩ (by decide) (fun v => stepBenign_of rfl) (by show _ ∧ _; norm_num), by decide +kernel⟩

example : okWith (setReal .code (fresh 8 60) (fix .i8 3) true (.fin (-7 / 2))) (fun t => decide (getInteger t (fix .i8 3) = .ok (-3))) = true := by
  decide +kernel

example : okWith (setUnsigned .code (fresh 8 60) (fix .u64 3) (2 ^ 64 - 1)) (fun t =>
    decide (getUnsigned t (fix .u64 3) = .ok (2 ^ 64 - 1) ∧ getNumber t (fix .u64 3) = .error .valueRange ∧
      getInteger t (fix .u64 3) = .error .typeMismatch)) = true := by decide +kernel

example : okWith (setInt128 .code (fresh 8 60) (fix .bin128 3) (-2 ^ 100)) (fun t => decide (getInt128 t (fix .bin128 3) = .ok (-2 ^ 100))) = true := by
  decide +kernel

/-! ## C39: the tables of the types -/

/-- **C39.** The arrays indexed by genus agree with the sizes of the types for every genus. -/
theorem C39_sizes (g : Genus) (h : g ≠ .hole) :
    looseUnitsArray.getD g.code 0 = g.looseUnits ∧ preplacedBytesArray.getD g.code 0 = g.preplacedBytes ∧
    (physique g = .inplaced ↔ g.isInplaced = true) ∧ (physique g = .stretchy ↔ g.isFixed = false) ∧
    (physique g = .inplaced → g.looseUnits = 0 ∧ 1 ≤ g.preplacedBytes ∧ g.preplacedBytes ≤ 2) ∧
    (physique g = .fixed → 1 ≤ g.looseUnits ∧ 4 * g.looseUnits < g.preplacedBytes + 4 ∧ g.preplacedBytes ≤ 4 * g.looseUnits) ∧
    (physique g = .stretchy → g.preplacedBytes = 4) := by
  revert h
  cases g <;> decide

/-- **C39.** The masks of the genera: integers are signed or unsigned, never both; numbers are integers or floating-point. -/
theorem C39_masks (g : Genus) :
    maskInteger.testBit g.code = (signedInt g || unsignedInt g) ∧
    maskUnsigned.testBit g.code = unsignedInt g ∧
    maskSigned.testBit g.code = (signedInt g || maskFloat.testBit g.code) ∧
    maskNumber.testBit g.code = (signedInt g || unsignedInt g || maskFloat.testBit g.code) ∧
    (maskFloat.testBit g.code = true ↔ g = .f32 ∨ g = .f64 ∨ g = .d64) := by
  cases g <;> decide

/-- **C39 (partial).** If the table says that an integer type converts to a numeric type, then every number of the former is
a number of the latter, except for `i8` to unsigned types. The other conversions of the table are in Props/Convert. -/
theorem C39_convertible_partial {src dst : Genus} {n : Int} (hs : isInt src = true) (hd : numeric dst = true) (hc : isConvertible src dst = true)
    (hx : ¬ (src = .i8 ∧ unsignedInt dst = true)) (hn : inRange src n) :
    ∃ v : Val, v.fits dst = true ∧ numberOf dst (v.bytes dst) = some (n : ℚ) := by
  obtain ⟨r1, r2, r3, r4, r5, r6, r7, r8⟩ := range_iff n
  norm_num at r3 r4 r7 r8
  have done : ∀ {g : Genus}, isInt g = true → inRange g n → ∃ v : Val, v.fits g = true ∧ numberOf g (v.bytes g) = some (n : ℚ) :=
    fun hg hr => ⟨_, (Passes.ofInt hg hr).fits, (Passes.ofInt hg hr).value⟩
  have d32 : -65536 ≤ n ∧ n ≤ 65536 → ∃ v : Val, v.fits .f32 = true ∧ numberOf .f32 (v.bytes .f32) = some (n : ℚ) := fun hr =>
    have k := Passes.ofF32 (n := n) (by norm_num; omega) (by norm_num; omega)
    ⟨_, k.fits, k.value⟩
  have d64 : -4294967296 ≤ n ∧ n ≤ 4294967296 → ∃ v : Val, v.fits .f64 = true ∧ numberOf .f64 (v.bytes .f64) = some (n : ℚ) := fun hr =>
    have k := Passes.ofF64 (n := n) (by norm_num; omega) (by norm_num; omega)
    ⟨_, k.fits, k.value⟩
  rcases int_cases hs with rfl | rfl | rfl | rfl | rfl | rfl | rfl | rfl
  · have hn' := r1.1 hn
    cases dst <;> first
    | (exact absurd hd (by decide))
    | (exact absurd hc (by decide +kernel))
    | exact done rfl hn
    | (exfalso; exact hx ⟨rfl, rfl⟩)
    | exact done rfl (r2.2 (by omega))
    | exact done rfl (r3.2 (by omega))
    | exact done rfl (r4.2 (by omega))
    | exact done rfl (r6.2 (by omega))
    | exact done rfl (r7.2 (by omega))
    | exact done rfl (r8.2 (by omega))
    | exact d32 (by omega)
    | exact d64 (by omega)
  · have hn' := r5.1 hn
    cases dst <;> first
    | (exact absurd hd (by decide))
    | (exact absurd hc (by decide +kernel))
    | exact done rfl hn
    | (exfalso; exact hx ⟨rfl, rfl⟩)
    | exact done rfl (r2.2 (by omega))
    | exact done rfl (r3.2 (by omega))
    | exact done rfl (r4.2 (by omega))
    | exact done rfl (r6.2 (by omega))
    | exact done rfl (r7.2 (by omega))
    | exact done rfl (r8.2 (by omega))
    | exact d32 (by omega)
    | exact d64 (by omega)
  · have hn' := r2.1 hn
    cases dst <;> first
    | (exact absurd hd (by decide))
    | (exact absurd hc (by decide +kernel))
    | exact done rfl hn
    | (exfalso; exact hx ⟨rfl, rfl⟩)
    | exact done rfl (r2.2 (by omega))
    | exact done rfl (r3.2 (by omega))
    | exact done rfl (r4.2 (by omega))
    | exact done rfl (r6.2 (by omega))
    | exact done rfl (r7.2 (by omega))
    | exact done rfl (r8.2 (by omega))
    | exact d32 (by omega)
    | exact d64 (by omega)
  · have hn' := r6.1 hn
    cases dst <;> first
    | (exact absurd hd (by decide))
    | (exact absurd hc (by decide +kernel))
    | exact done rfl hn
    | (exfalso; exact hx ⟨rfl, rfl⟩)
    | exact done rfl (r2.2 (by omega))
    | exact done rfl (r3.2 (by omega))
    | exact done rfl (r4.2 (by omega))
    | exact done rfl (r6.2 (by omega))
    | exact done rfl (r7.2 (by omega))
    | exact done rfl (r8.2 (by omega))
    | exact d32 (by omega)
    | exact d64 (by omega)
  · have hn' := r3.1 hn
    cases dst <;> first
    | (exact absurd hd (by decide))
    | (exact absurd hc (by decide +kernel))
    | exact done rfl hn
    | (exfalso; exact hx ⟨rfl, rfl⟩)
    | exact done rfl (r2.2 (by omega))
    | exact done rfl (r3.2 (by omega))
    | exact done rfl (r4.2 (by omega))
    | exact done rfl (r6.2 (by omega))
    | exact done rfl (r7.2 (by omega))
    | exact done rfl (r8.2 (by omega))
    | exact d32 (by omega)
    | exact d64 (by omega)
  · have hn' := r7.1 hn
    cases dst <;> first
    | (exact absurd hd (by decide))
    | (exact absurd hc (by decide +kernel))
    | exact done rfl hn
    | (exfalso; exact hx ⟨rfl, rfl⟩)
    | exact done rfl (r2.2 (by omega))
    | exact done rfl (r3.2 (by omega))
    | exact done rfl (r4.2 (by omega))
    | exact done rfl (r6.2 (by omega))
    | exact done rfl (r7.2 (by omega))
    | exact done rfl (r8.2 (by omega))
    | exact d32 (by omega)
    | exact d64 (by omega)
  · have hn' := r4.1 hn
    cases dst <;> first
    | (exact absurd hd (by decide))
    | (exact absurd hc (by decide +kernel))
    | exact done rfl hn
    | (exfalso; exact hx ⟨rfl, rfl⟩)
    | exact done rfl (r2.2 (by omega))
    | exact done rfl (r3.2 (by omega))
    | exact done rfl (r4.2 (by omega))
    | exact done rfl (r6.2 (by omega))
    | exact done rfl (r7.2 (by omega))
    | exact done rfl (r8.2 (by omega))
    | exact d32 (by omega)
    | exact d64 (by omega)
  · have hn' := r8.1 hn
    cases dst <;> first
    | (exact absurd hd (by decide))
    | (exact absurd hc (by decide +kernel))
    | exact done rfl hn
    | (exfalso; exact hx ⟨rfl, rfl⟩)
    | exact done rfl (r2.2 (by omega))
    | exact done rfl (r3.2 (by omega))
    | exact done rfl (r4.2 (by omega))
    | exact done rfl (r6.2 (by omega))
    | exact done rfl (r7.2 (by omega))
    | exact done rfl (r8.2 (by omega))
    | exact d32 (by omega)
    | exact d64 (by omega)

example : isConvertible .u16 .f32 = true ∧ isConvertible .i32 .i64 = true ∧ isConvertible .u32 .f64 = true := by decide

/-- **C39 refuted**: the table lets `i8` pass for the unsigned types (which cannot hold negative numbers) and `u8` for none, not
even for itself (`genus_traits<u8>::trivially_convertible_from` names `i8`, meta.h:297). -/
theorem C39_convertible_refuted :
    isConvertible .i8 .u8 = true ∧ isConvertible .i8 .u16 = true ∧ isConvertible .i8 .u32 = true ∧ isConvertible .i8 .u64 = true ∧
    (∀ dst, unsignedInt dst = true → ∀ v : Val, numberOf dst (v.bytes dst) ≠ some (-1)) ∧ (∀ dst, isConvertible .u8 dst = false) := by
  refine ⟨by decide, by decide, by decide, by decide, fun dst hd v => ?_, fun dst => by cases dst <;> decide⟩
  have hs : signedInt dst = false := by revert hd; cases dst <;> decide
  unfold numberOf
  rw [if_neg (by rw [hs]; decide), if_pos hd]
  intro e
  have e := Option.some.inj e
  have : (0 : ℚ) ≤ (leNat (v.bytes dst) : ℚ) := Nat.cast_nonneg _
  linarith

end Fptu.Props
