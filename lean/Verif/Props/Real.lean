import Verif.Lemmas.Real
import Verif.Props.Convert
/-!
# C57, C58, C59: real numbers, dates and booleans in fields
-/
namespace Fptu.Props
open Fptu Fptu.Gear Fptu.Rw Fptu.Num Fptu.Real

/-- What a setter does with its argument: `types` are the genera which it serves, `holds` the genera whose fields can take the
argument, `null` tells that the argument is the designated NULL, `zero` that it is stored as zero, `read` is the getter and `good` tells which results the user
expects. Either the value is stored and reads back (unless it is the designated NULL, or a zero under which another value of the same
collection shows up) and no other field changes, or an exception tells what is wrong and nothing changes, and a lack of space is genuine. -/
structure SetsValue {α : Type} (F : Fix) (σ : Sch) (s : RW) (tag : Nat) (o : Out Unit) (types : Genus → Bool) (holds : Genus → Prop)
    (null zero : Prop) (read : RW → Except Exc α) (good : α → Prop) : Prop where
  ok : ∀ t, o = .ok () t → types (tag2genus tag) = true ∧ holds (tag2genus tag) ∧
    (isPreplaced tag = true → (isDiscernible tag = true ∧ null → read t = .error .fieldAbsent) ∧
      (¬ (isDiscernible tag = true ∧ null) → ∃ y, read t = .ok y ∧ good y) ∧
      LooseKept s t (fun _ => True) ∧ PreplacedKept σ s t (tag2offset tag) (tag2genus tag).preplacedBytes) ∧
    (isLoose tag = true →
      ((zero → isDiscernible tag = false → (fieldsOf s).countP (fun f => f.1 = tag % 65536) ≤ 1) → ∃ y, read t = .ok y ∧ good y) ∧
      LooseKept s t (fun w => w ≠ tag % 65536) ∧ PreplacedKept σ s t 0 0)
  exc : ∀ e t, o = .exc e t → t = s ∧
    ((e = .typeMismatch ∧ types (tag2genus tag) = false) ∨ (e = .valueRange ∧ ¬ holds (tag2genus tag)) ∨
      (types (tag2genus tag) = true ∧ holds (tag2genus tag) ∧ (∃ i, e = .insufficientSpace i (tag2genus tag).looseUnits) ∧
        GenuineDeficit s (tag2genus tag).looseUnits))
  completes : types (tag2genus tag) = true → holds (tag2genus tag) → (tag2genus tag).looseUnits ≤ s.lim - s.tail → 0 < s.head →
    s.jv + occupied s tag ≤ 2047 → ∃ t, o = .ok () t

/-- The same for the inserters into a collection; `made` tells which objects the user expects in the collection. -/
structure InsertsValue (F : Fix) (σ : Sch) (s : RW) (tag : Nat) (o : Out (Option Nat)) (types : Genus → Bool) (holds : Genus → Prop)
    (zero : Prop) (made : List Nat → Prop) : Prop where
  ok : ∀ r t, o = .ok r t → isLooseCollection tag = true ∧ types (tag2genus tag) = true ∧ holds (tag2genus tag) ∧
    (zero ∧ isDiscernible tag = false → t = s) ∧
    (¬ (zero ∧ isDiscernible tag = false) → ∃ v : Val, made (v.bytes (tag2genus tag)) ∧ fieldsOf t = (tag % 65536, some v) ::ₘ fieldsOf s) ∧
    LooseKept s t (fun w => w ≠ tag % 65536) ∧ PreplacedKept σ s t 0 0
  exc : ∀ e t, o = .exc e t → t = s ∧
    ((e = .typeMismatch ∧ types (tag2genus tag) = false) ∨ (e = .valueRange ∧ ¬ holds (tag2genus tag)) ∨
      (e = .collectionRequired ∧ isLooseCollection tag = false) ∨
      (types (tag2genus tag) = true ∧ holds (tag2genus tag) ∧ (∃ i, e = .insufficientSpace i (tag2genus tag).looseUnits) ∧
        GenuineDeficit s (tag2genus tag).looseUnits))
  completes : types (tag2genus tag) = true → holds (tag2genus tag) → isLooseCollection tag = true →
    (tag2genus tag).looseUnits ≤ s.lim - s.tail → 0 < s.head → ∃ r t, o = .ok r t

theorem setField_mismatch {F : Fix} {s : RW} {tag : Nat} {g : Genus} {v : Val} (hc : isLooseCollection tag = false) (hfx : g.isFixed = true)
    (hg : tag2genus tag ≠ g) : setField F s tag g v = .exc .typeMismatch s := by
  unfold setField
  by_cases hp : isPreplaced tag = true
  · rw [if_pos hp, if_pos hfx]
    unfold assignPreplacedFixed
    rw [if_pos hg]
  · rw [if_neg hp, if_neg (by rw [hc]; decide), if_pos hfx]
    unfold assignLooseFixed
    rw [if_pos hg]
    rfl

/-- What is needed of the value that a setter passes on to the field of genus `g`. -/
structure PassesOn {α : Type} (tag : Nat) (g : Genus) (v : Val) (null zero : Prop) (read : RW → Except Exc α) (good : α → Prop) : Prop where
  fixed : g.isFixed = true
  fits : v.fits g = true
  null : v.bytes g = denilBytes g ↔ null
  zero : v.isEmpty g = true → zero
  read : ∃ f : List Nat → α, (∀ t, read t = (getFixed t tag g).map f) ∧ good (f (v.bytes g)) ∧
    (v.isEmpty g = true → isLoose tag = true → isDiscernible tag = false → good (f ((Val.empty g).bytes g)))

/-- The three outcomes of the selection of a setter. -/
structure ArgSpec (tag : Nat) (arg : Genus → Except Exc (Genus × Val)) (types : Genus → Bool) (holds : Genus → Prop) (P : Genus → Val → Prop) : Prop where
  other : types (tag2genus tag) = false → arg (tag2genus tag) = .error .typeMismatch ∨
    arg (tag2genus tag) = .error .valueRange ∧ ¬ holds (tag2genus tag) ∨
    ∃ g v, arg (tag2genus tag) = .ok (g, v) ∧ g.isFixed = true ∧ tag2genus tag ≠ g
  range : types (tag2genus tag) = true → ¬ holds (tag2genus tag) → arg (tag2genus tag) = .error .valueRange
  pass : types (tag2genus tag) = true → holds (tag2genus tag) → ∃ v, arg (tag2genus tag) = .ok (tag2genus tag, v) ∧ P (tag2genus tag) v

theorem setsValue {α : Type} {F : Fix} {σ : Sch} {s : RW} {tag : Nat} {arg : Genus → Except Exc (Genus × Val)} {types : Genus → Bool}
    {holds : Genus → Prop} {null zero : Prop} {read : RW → Except Exc α} {good : α → Prop}
    (h : Reachable F σ s) (ht : TokenOk σ s.pre tag) (hc : isLooseCollection tag = false)
    (hb : ∀ v, StepBenign F s (.set tag (tag2genus tag) v))
    (hs : ArgSpec tag arg types holds fun g v => PassesOn tag g v null zero read good) :
    SetsValue F σ s tag (setBy F s tag arg) types holds null zero read good := by
  have hst : setBy F s tag arg = match arg (tag2genus tag) with
      | .error e => .exc e s
      | .ok (g, v) => setField F s tag g v := by
    unfold setBy
    rw [if_neg (by rw [hc]; decide)]
    cases arg (tag2genus tag) <;> rfl
  obtain ⟨s1, s2, s3⟩ := hs
  generalize hg : tag2genus tag = g at *
  by_cases c1 : types g = true
  · by_cases c2 : holds g
    · obtain ⟨v, hv, pv⟩ := s3 c1 c2
      rw [hv] at hst
      simp only at hst
      have hfx := pv.fixed
      obtain ⟨f, f1, f2, f3⟩ := pv.read
      have c15 := C15_set_partial h pv.fits hg hc ht (hb v)
      have huf : unitsFor g v = some g.looseUnits := by unfold unitsFor; rw [if_pos hfx]
      refine ⟨fun t e => ?_, fun e t he => ?_, fun _ _ k1 k2 k3 => ?_⟩
      · rw [hst] at e
        refine ⟨by rw [hg]; exact c1, by rw [hg]; exact c2, fun hp => ?_, fun hl => ?_⟩
        · obtain ⟨k1, k2, _, k3⟩ := C09_set_preplaced_fixed h hp ht hfx pv.fits e
          rw [hg]
          have hget : getFixed t tag g = getPreplacedFixed t tag g := by unfold getFixed; rw [if_pos hp]
          rw [← hget] at k1
          refine ⟨fun c => ?_, fun c => ?_, k2, k3⟩
          · rw [if_pos ⟨c.1, pv.null.2 c.2⟩] at k1
            rw [f1, k1]; rfl
          · rw [if_neg (fun k => c ⟨k.1, pv.null.1 k.2⟩)] at k1
            exact ⟨_, by rw [f1, k1]; rfl, f2⟩
        · have hnp : isPreplaced tag = false := by
            have := preplaced_not_loose tag
            rw [hl] at this
            simpa using this
          have hget : getFixed t tag g = (getLoose t tag g).map fun v => (v.map (·.bytes g)).getD [] := by
            unfold getFixed; rw [if_neg (by rw [hnp]; decide)]
          by_cases cd : dropped tag g v
          · obtain ⟨k1, _, k2, k3⟩ := C09_unset_partial h hl pv.fits (hb v) e cd
            refine ⟨fun hone => ?_, k2, k3⟩
            have hd : isDiscernible tag = false ∧ v.isEmpty g = true := by
              rcases cd with cd | cd
              · exact ⟨by simpa using cd.1, cd.2⟩
              · have := pv.fits
                rw [cd] at this
                rw [of_decide_eq_true this] at hfx
                cases hfx
            have k := k1 (hone (pv.zero hd.2) hd.1)
            unfold absent at k
            rw [if_neg (by rw [hd.1]; decide)] at k
            exact ⟨_, by rw [f1, hget, k]; rfl, f3 hd.2 hl hd.1⟩
          · obtain ⟨k1, _, _, k2, k3⟩ := C09_set_partial h hl pv.fits (hb v) e cd
            refine ⟨fun _ => ?_, k2, k3⟩
            have hnv : g ≠ .varbin := by rintro rfl; cases hfx
            exact ⟨_, by rw [f1, hget, k1 hnv]; rfl, f2⟩
      · rw [hst] at he
        refine ⟨C13_failed_partial (op := .set tag g v) h ⟨ht, pv.fits⟩ (hb v) he, ?_⟩
        rw [hg]
        rcases c15.1 e t he with k | ⟨m, k1, k2, k3⟩ | ⟨_, k1, k2, _⟩
        · rw [huf] at k; cases k
        · rw [huf] at k1
          injection k1 with k1
          subst k1
          exact Or.inr (Or.inr ⟨c1, c2, k2.imp fun _ k => k.1, k3.1⟩)
        · exfalso
          by_cases hp : isPreplaced tag = true
          · unfold setField at he
            rw [if_pos hp, if_pos hfx] at he
            unfold assignPreplacedFixed at he
            rw [if_neg (fun k => k hg)] at he
            cases he
          · have := preplaced_not_loose tag
            simp_all
      · rw [hst]
        rw [hg] at k1
        exact c15.2 _ huf k1 k2 k3
    · rw [s2 c1 c2] at hst
      refine ⟨fun t e => ?_, fun e t he => ?_, fun _ k => ?_⟩
      · rw [hst] at e; cases e
      · rw [hst] at he
        cases he
        rw [hg]
        exact ⟨rfl, Or.inr (Or.inl ⟨rfl, c2⟩)⟩
      · rw [hg] at k; exact absurd k c2
  · have c1 : types g = false := by simpa using c1
    have hbad : (setBy F s tag arg = .exc .typeMismatch s) ∨ (setBy F s tag arg = .exc .valueRange s ∧ ¬ holds g) := by
      rcases s1 c1 with k | ⟨k, k2⟩ | ⟨g', v, k, k2, k3⟩
      · rw [k] at hst; exact Or.inl hst
      · rw [k] at hst; exact Or.inr ⟨hst, k2⟩
      · rw [k] at hst
        exact Or.inl (hst.trans (setField_mismatch hc k2 (by rw [hg]; exact k3)))
    refine ⟨fun t e => ?_, fun e t he => ?_, fun k => ?_⟩
    · rcases hbad with k | ⟨k, _⟩ <;> rw [k] at e <;> cases e
    · rw [hg]
      rcases hbad with k | ⟨k, k2⟩
      · rw [k] at he
        cases he
        exact ⟨rfl, Or.inl ⟨rfl, c1⟩⟩
      · rw [k] at he
        cases he
        exact ⟨rfl, Or.inr (Or.inl ⟨rfl, k2⟩)⟩
    · rw [hg, c1] at k; cases k

theorem insertsValue {F : Fix} {σ : Sch} {s : RW} {tag : Nat} {arg : Genus → Except Exc (Genus × Val)} {types : Genus → Bool}
    {holds : Genus → Prop} {zero : Prop} {made : List Nat → Prop}
    (h : Reachable F σ s) (hb : ∀ v, StepBenign F s (.insert tag (tag2genus tag) v))
    (hs : ArgSpec tag arg types holds fun g v => g.isFixed = true ∧ v.fits g = true ∧ (v.isEmpty g = true ↔ zero) ∧ made (v.bytes g)) :
    InsertsValue F σ s tag (insertBy F s tag arg) types holds zero made := by
  have hst : insertBy F s tag arg = match arg (tag2genus tag) with
      | .error e => .exc e s
      | .ok (g, v) => insertField F s tag g v := by
    unfold insertBy
    cases arg (tag2genus tag) <;> rfl
  obtain ⟨s1, s2, s3⟩ := hs
  generalize hg : tag2genus tag = g at *
  by_cases c1 : types g = true
  · by_cases c2 : holds g
    · obtain ⟨v, hv, hfx, hfit, hz, hm⟩ := s3 c1 c2
      rw [hv] at hst
      simp only at hst
      have huf : unitsFor g v = some g.looseUnits := by unfold unitsFor; rw [if_pos hfx]
      by_cases hc : isLooseCollection tag = true
      · have c15 := C15_insert_partial h hfit hg hc (hb v)
        refine ⟨fun r t e => ?_, fun e t he => ?_, fun _ _ _ k1 k2 => ?_⟩
        · rw [hst] at e
          obtain ⟨k1, k2, k3, k4⟩ := C10_insert_partial h hfit (hb v) e
          have hz' : (¬ isDiscernible tag = true ∧ v.isEmpty g = true) ↔ (zero ∧ isDiscernible tag = false) := by
            rw [Bool.not_eq_true, hz, and_comm]
          rw [hz'] at k1 k2
          have hnn : v ≠ .nested none := by
            rintro rfl
            rw [of_decide_eq_true hfit] at hfx
            cases hfx
          refine ⟨hc, by rw [hg]; exact c1, by rw [hg]; exact c2, fun k => (k1 k).1, fun k => ⟨v, by rw [hg]; exact hm, ?_⟩, k3, k4⟩
          rw [(k2 k).2, if_neg hnn]
        · rw [hst] at he
          have key := insert_spec h.wf (hb v) hg hfit hc
          rw [he] at key
          refine ⟨key.1, Or.inr (Or.inr (Or.inr ⟨by rw [hg]; exact c1, by rw [hg]; exact c2, ?_⟩))⟩
          rw [hg]
          rcases c15.1 e t he with k | ⟨m, k1, k2, k3⟩
          · rw [huf] at k; cases k
          · rw [huf] at k1
            obtain rfl := Option.some.inj k1
            exact ⟨k2.imp fun _ k => k.1, k3⟩
        · rw [hst]
          rw [hg] at k1
          exact c15.2 _ huf k1 k2
      · have e : insertField F s tag g v = .exc .collectionRequired s := by
          unfold insertField
          rw [if_neg (fun k => k hg), if_pos hc]
        rw [e] at hst
        refine ⟨fun r t e => (by rw [hst] at e; cases e), fun e t he => ?_, fun _ _ k => absurd k hc⟩
        rw [hst] at he
        injection he with k1 k2
        exact ⟨k2.symm, Or.inr (Or.inr (Or.inl ⟨k1.symm, by simpa using hc⟩))⟩
    · have hv := s2 c1 c2
      rw [hv] at hst
      refine ⟨fun r t e => (by rw [hst] at e; cases e), fun e t he => ?_, fun _ k => absurd (by rw [hg] at k; exact k) c2⟩
      rw [hst] at he
      injection he with k1 k2
      exact ⟨k2.symm, Or.inr (Or.inl ⟨k1.symm, by rw [hg]; exact c2⟩)⟩
  · have c1' : types g = false := by simpa using c1
    have hbad : (insertBy F s tag arg = .exc .typeMismatch s) ∨ (insertBy F s tag arg = .exc .valueRange s ∧ ¬ holds g) := by
      rcases s1 c1' with k | ⟨k, k2⟩ | ⟨g', v, k, k2, k3⟩
      · rw [k] at hst; exact Or.inl hst
      · rw [k] at hst; exact Or.inr ⟨hst, k2⟩
      · rw [k] at hst
        refine Or.inl (hst.trans ?_)
        show insertField F s tag g' v = _
        unfold insertField
        rw [if_pos (by rw [hg]; exact k3)]
    refine ⟨fun r t e => ?_, fun e t he => ?_, fun k => ?_⟩
    · rcases hbad with k | ⟨k, _⟩ <;> rw [k] at e <;> cases e
    · rw [hg]
      rcases hbad with k | ⟨k, k2⟩
      · rw [k] at he
        injection he with k1 k2
        exact ⟨k2.symm, Or.inl ⟨k1.symm, c1'⟩⟩
      · rw [k] at he
        injection he with m1 m2
        exact ⟨m2.symm, Or.inr (Or.inl ⟨m1.symm, k2⟩)⟩
    · rw [hg, c1'] at k; cases k

/-! ## Objects with a bit pattern -/

theorem bits64 {g : Genus} (hg : g = .f64 ∨ g = .t64) {x : Nat} (hx : x < 2 ^ 64) :
    g.isFixed = true ∧ (bitsVal g x).fits g = true ∧ leNat ((bitsVal g x).bytes g) = x ∧ leNat ((Val.empty g).bytes g) = 0 := by
  have hb : bitsVal g x = .units (natCells 2 x) := by rcases hg with rfl | rfl <;> rfl
  refine ⟨by rcases hg with rfl | rfl <;> rfl, ?_, ?_, ?_⟩
  · rw [hb]
    show (g.isFixed && !g.isInplaced && decide (g ≠ .hole) && decide ((natCells 2 x).length = g.looseUnits) && (natCells 2 x).all Cell.ok) = true
    rw [natCells_ok, natCells_length]
    rcases hg with rfl | rfl <;> rfl
  · rw [hb]
    show leNat ((natCells 2 x).flatMap cellBytes) = x
    rw [leNat_natCells]
    exact Nat.mod_eq_of_lt hx
  · rcases hg with rfl | rfl <;> decide +kernel

theorem bits32 {g : Genus} (hg : g = .f32 ∨ g = .t32) {x : Nat} (hx : x < 2 ^ 32) :
    g.isFixed = true ∧ (bitsVal g x).fits g = true ∧ leNat ((bitsVal g x).bytes g) = x ∧ leNat ((Val.empty g).bytes g) = 0 := by
  have hb : bitsVal g x = .units (natCells 1 x) := by rcases hg with rfl | rfl <;> rfl
  refine ⟨by rcases hg with rfl | rfl <;> rfl, ?_, ?_, ?_⟩
  · rw [hb]
    show (g.isFixed && !g.isInplaced && decide (g ≠ .hole) && decide ((natCells 1 x).length = g.looseUnits) && (natCells 1 x).all Cell.ok) = true
    rw [natCells_ok, natCells_length]
    rcases hg with rfl | rfl <;> rfl
  · rw [hb]
    show leNat ((natCells 1 x).flatMap cellBytes) = x
    rw [leNat_natCells]
    exact Nat.mod_eq_of_lt hx
  · rcases hg with rfl | rfl <;> decide +kernel

theorem empty_f32 {x : Nat} (hx : x < 2 ^ 32) : (bitsVal .f32 x).isEmpty .f32 = true ↔ x = 0 ∨ x = 2 ^ 31 := by
  have e : (bitsVal .f32 x).isEmpty .f32 = decide (x % 65536 = 0 ∧ x / 65536 % 65536 % 32768 = 0) := rfl
  rw [e, decide_eq_true_eq]
  norm_num at hx ⊢
  omega

theorem empty_f64 {x : Nat} (hx : x < 2 ^ 64) : (bitsVal .f64 x).isEmpty .f64 = true ↔ x = 0 ∨ x = 2 ^ 63 := by
  have hc : bitsVal .f64 x = .units [⟨x % 65536, x / 65536 % 65536⟩, ⟨x / 4294967296 % 65536, x / 4294967296 / 65536 % 65536⟩] := by
    unfold bitsVal
    rw [if_neg (by decide)]
    rw [show Genus.f64.looseUnits = 2 from rfl, natCells, natCells, natCells]
  constructor
  · rw [hc]
    intro he
    unfold Val.isEmpty at he
    simp only [decide_eq_true_eq] at he
    obtain ⟨k0, k3, k4⟩ := he
    have k1 : x % 65536 = 0 := congrArg Cell.lo k0
    have k2 : x / 65536 % 65536 = 0 := congrArg Cell.hi k0
    clear k0 hc
    norm_num at hx ⊢
    omega
  · rintro (rfl | rfl) <;> decide +kernel

theorem empty_cells {n x : Nat} (hx : x < 2 ^ (32 * n)) : (natCells n x).all (· = .zero) = true ↔ x = 0 := by
  constructor
  · exact natCells_zero hx
  · rintro rfl
    rw [natCells_replicate]
    simp

theorem empty_t32 {x : Nat} (hx : x < 2 ^ 32) : (bitsVal .t32 x).isEmpty .t32 = true ↔ x = 0 := empty_cells (n := 1) hx
theorem empty_t64 {x : Nat} (hx : x < 2 ^ 64) : (bitsVal .t64 x).isEmpty .t64 = true ↔ x = 0 := empty_cells (n := 2) hx

theorem denil_bits {g : Genus} {x c : Nat} (h1 : leNat ((bitsVal g x).bytes g) = x) (h2 : leNat (denilBytes g) = c)
    (h3 : (bitsVal g c).bytes g = denilBytes g) : (bitsVal g x).bytes g = denilBytes g ↔ x = c := by
  constructor
  · intro k; rw [← h1, k, h2]
  · rintro rfl; exact h3

/-! ## C57: real numbers -/

/-- The types of `float` and `double`. -/
def real (g : Genus) : Bool := decide (g = .f32) || decide (g = .f64)

theorem real_cases {g : Genus} (h : real g = true) : g = .f32 ∨ g = .f64 := by
  unfold real at h
  rw [Bool.or_eq_true, decide_eq_true_eq, decide_eq_true_eq] at h
  exact h

theorem real_not {g : Genus} (h : real g = false) : g ≠ .f32 ∧ g ≠ .f64 := by
  constructor <;> rintro rfl <;> cases h

/-- The `float` (bit pattern `z`) which the number given as `x` has to become: infinities and NaN stay, other numbers are rounded to the nearest `float`,
in the middle between two to the even one. -/
def ToFloat (x : Flt) (z : Nat) : Prop :=
  match x with
  | .nan => fltOf 23 8 z = .nan
  | .inf b => fltOf 23 8 z = .inf b
  | .fin q => ∃ r, ieeeValue 23 8 z = some r ∧
      ∀ z' r', ieeeValue 23 8 z' = some r' → |q - r| ≤ |q - r'| ∧ (|q - r| = |q - r'| → r' = r ∨ z % 2 = 0)

/-- The result of `get_float` which the user expects after storing the `double` with the bit pattern `x` into a field of genus `g`. -/
def ReadsReal (g : Genus) (loose : Prop) (x y : Nat) : Prop :=
  if g = .f32 then ∃ z, z < 2 ^ 32 ∧ ToFloat (fltOf 52 11 x) z ∧ fltOf 52 11 y = fltOf 23 8 z
  else y = x ∨ (x = 2 ^ 63 ∧ y = 0 ∧ loose)

/-- The numbers which a field can take: those of `float` up to its largest one, infinities and NaN; all numbers for a field of `double`. -/
def fitsReal (x : Flt) (g : Genus) : Prop :=
  g = .f32 → ∀ q, x = .fin q → |q| ≤ (2 ^ 24 - 1) * 2 ^ 104

theorem beyond_iff {x : Flt} : beyondFloat x = false ↔ fitsReal x .f32 := by
  unfold fitsReal
  cases x with
  | nan => exact ⟨fun _ _ q k => (by cases k), fun _ => rfl⟩
  | inf b => exact ⟨fun _ _ q k => (by cases k), fun _ => rfl⟩
  | fin q =>
    have e : beyondFloat (.fin q) = (decide (fltMax < q) || decide (q < -fltMax)) := rfl
    rw [e, Bool.or_eq_false_iff, decide_eq_false_iff_not, decide_eq_false_iff_not, not_lt, not_lt]
    constructor
    · rintro ⟨h1, h2⟩ _ q' k
      injection k with k
      subst k
      exact abs_le.2 ⟨h2, h1⟩
    · intro h
      have := abs_le.1 (h rfl q rfl)
      exact ⟨this.2, this.1⟩

theorem toFloat {x : Nat} (hx : x < 2 ^ 64) (hf : fitsReal (fltOf 52 11 x) .f32) : ToFloat (fltOf 52 11 x) (f64to32 x) := by
  obtain ⟨_, h1, h2, h3⟩ := f64to32_spec hx
  cases e : fltOf 52 11 x with
  | nan => exact h2 e
  | inf b => exact h1 b e
  | fin q =>
    obtain ⟨r, r1, r2⟩ := h3 q e (hf rfl q e)
    refine ⟨r, ?_, r2⟩
    unfold fltOf at r1
    cases e2 : ieeeValue 23 8 (f64to32 x) with
    | some v => rw [e2] at r1; injection r1 with r1; rw [r1]
    | none => rw [e2] at r1; dsimp only at r1; split_ifs at r1

theorem fltOf_zero32 {z : Nat} (h : z = 0 ∨ z = 2 ^ 31) : fltOf 23 8 z = .fin 0 := by
  rcases h with rfl | rfl
  · exact fltOf_fin (ieee_zero (by decide) (by decide) (by decide))
  · exact fltOf_fin (ieee_zero (by decide) (by decide +kernel) (by decide +kernel))

theorem fltOf_zero64 : fltOf 52 11 0 = .fin 0 ∧ fltOf 52 11 (2 ^ 63) = .fin 0 :=
  ⟨fltOf_fin (ieee_zero (by decide) (by decide) (by decide)), fltOf_fin (ieee_zero (by decide) (by decide +kernel) (by decide +kernel))⟩

theorem toFloat_zero {x : Flt} {z : Nat} (h : ToFloat x z) (hz : z = 0 ∨ z = 2 ^ 31) : ToFloat x 0 := by
  have h0 := fltOf_zero32 hz
  have v0 : ieeeValue 23 8 0 = some 0 := ieee_zero (by decide) (by decide) (by decide)
  cases x with
  | nan => have h : fltOf 23 8 z = .nan := h; rw [h0] at h; cases h
  | inf b => have h : fltOf 23 8 z = .inf b := h; rw [h0] at h; cases h
  | fin q =>
    obtain ⟨r, r1, r2⟩ := h
    have : r = 0 := by
      rw [fltOf_fin r1] at h0
      injection h0
    subst this
    exact ⟨0, v0, fun z' r' k => ⟨(r2 z' r' k).1, fun _ => Or.inr rfl⟩⟩

theorem denil_f32 {z : Nat} (hz : z < 2 ^ 32) : (bitsVal .f32 z).bytes .f32 = denilBytes .f32 ↔ z = 2 ^ 32 - 1 :=
  denil_bits (bits32 (Or.inl rfl) hz).2.2.1 (by decide +kernel) (by decide +kernel)
theorem denil_f64 {z : Nat} (hz : z < 2 ^ 64) : (bitsVal .f64 z).bytes .f64 = denilBytes .f64 ↔ z = 2 ^ 64 - 1 :=
  denil_bits (bits64 (Or.inl rfl) hz).2.2.1 (by decide +kernel) (by decide +kernel)

/-- The pattern stored for the `double` `x` in a field of genus `g`. -/
def storedReal (g : Genus) (x : Nat) : Nat := if g = .f32 then f64to32 x else x

/-- The NaN that stands for NULL (all bits set). -/
def nullReal (g : Genus) (x : Nat) : Prop := storedReal g x = if g = .f32 then 2 ^ 32 - 1 else 2 ^ 64 - 1

/-- The number is stored as a zero. -/
def zeroReal (g : Genus) (x : Nat) : Prop := if g = .f32 then fltOf 23 8 (f64to32 x) = .fin 0 else fltOf 52 11 x = .fin 0

theorem getFloat_f32 {tag : Nat} (hg : tag2genus tag = .f32) (t : RW) : getFloat t tag = (getFixed t tag .f32).map fun b => f32to64 (leNat b) := by
  unfold getFloat; rw [if_pos hg]
theorem getFloat_f64 {tag : Nat} (hg : tag2genus tag = .f64) (t : RW) : getFloat t tag = (getFixed t tag .f64).map leNat := by
  unfold getFloat; rw [if_neg (by rw [hg]; decide)]

theorem pass_f32 {tag x z : Nat} {null zero : Prop} (hg : tag2genus tag = .f32) (hz : z < 2 ^ 32) (ht : ToFloat (fltOf 52 11 x) z)
    (hn : z = 2 ^ 32 - 1 ↔ null) (h0 : fltOf 23 8 z = .fin 0 → zero) :
    PassesOn tag .f32 (bitsVal .f32 z) null zero (getFloat · tag)
      (ReadsReal .f32 (isLoose tag = true ∧ isDiscernible tag = false) x) := by
  obtain ⟨b1, b2, b3, b4⟩ := bits32 (g := .f32) (Or.inl rfl) hz
  have hr : ∀ w, w < 2 ^ 32 → ToFloat (fltOf 52 11 x) w → ReadsReal .f32 (isLoose tag = true ∧ isDiscernible tag = false) x (f32to64 w) := by
    intro w hw hw2
    unfold ReadsReal
    rw [if_pos rfl]
    exact ⟨w, hw, hw2, (f32to64_spec hw).2⟩
  refine ⟨b1, b2, (denil_f32 hz).trans hn, fun k => h0 (fltOf_zero32 ((empty_f32 hz).1 k)), _, getFloat_f32 hg, ?_, fun k _ _ => ?_⟩
  · rw [b3]; exact hr z hz ht
  · rw [b4]; exact hr 0 (by norm_num) (toFloat_zero ht ((empty_f32 hz).1 k))

theorem pass_f64 {tag x : Nat} {null zero : Prop} (hg : tag2genus tag = .f64) (hx : x < 2 ^ 64)
    (hn : x = 2 ^ 64 - 1 ↔ null) (h0 : fltOf 52 11 x = .fin 0 → zero) :
    PassesOn tag .f64 (bitsVal .f64 x) null zero (getFloat · tag)
      (ReadsReal .f64 (isLoose tag = true ∧ isDiscernible tag = false) x) := by
  obtain ⟨b1, b2, b3, b4⟩ := bits64 (g := .f64) (Or.inl rfl) hx
  refine ⟨b1, b2, (denil_f64 hx).trans hn, fun k => h0 ?_, _, getFloat_f64 hg, ?_, fun k l d => ?_⟩
  · rcases (empty_f64 hx).1 k with k | k <;> rw [k]
    · exact fltOf_zero64.1
    · exact fltOf_zero64.2
  · rw [b3]; unfold ReadsReal; rw [if_neg (by decide)]; exact Or.inl rfl
  · rw [b4]; unfold ReadsReal; rw [if_neg (by decide)]
    rcases (empty_f64 hx).1 k with k | k
    · exact Or.inl k.symm
    · exact Or.inr ⟨k, rfl, l, d⟩

theorem floatArg_spec {tag x : Nat} {P : Genus → Val → Prop}
    (h32 : tag2genus tag = .f32 → fitsReal (fltOf 52 11 x) .f32 → P .f32 (bitsVal .f32 (f64to32 x)))
    (h64 : tag2genus tag = .f64 → P .f64 (bitsVal .f64 x)) :
    ArgSpec tag (floatArg · x) real (fitsReal (fltOf 52 11 x)) P := by
  refine ⟨fun h => ?_, fun h k => ?_, fun h k => ?_⟩
  · refine Or.inr (Or.inr ⟨.f64, bitsVal .f64 x, ?_, rfl, (real_not h).2⟩)
    show floatArg _ x = _
    unfold floatArg
    rw [if_neg (real_not h).1]
  · have hg : tag2genus tag = .f32 := by
      by_contra c
      exact k fun e => absurd e c
    rw [hg] at k ⊢
    have hb : beyondFloat (fltOf 52 11 x) = true := by
      cases e : beyondFloat (fltOf 52 11 x) with
      | true => rfl
      | false => exact absurd (beyond_iff.1 e) k
    show floatArg .f32 x = _
    unfold floatArg
    rw [if_pos rfl, if_pos hb]
  · rcases real_cases h with hg | hg
    · rw [hg] at k ⊢
      have hb := beyond_iff.2 k
      refine ⟨_, ?_, h32 hg k⟩
      show floatArg .f32 x = _
      unfold floatArg
      rw [if_pos rfl, if_neg (by rw [hb]; decide)]
    · rw [hg]
      refine ⟨_, ?_, h64 hg⟩
      show floatArg .f64 x = _
      unfold floatArg
      rw [if_neg (by decide)]

/-- **C57 (partial), `set_float(double)`.** The number is stored: exactly in a field of `double`, rounded to the nearest number in a field of `float`;
`get_float` returns it. A number beyond the range of `float` is refused, and nothing else changes. (The negative zero in a loose field without NULLs reads back as zero.)
Missing for the code as it is: histories in which a defect of `src/gear.cxx` shows. -/
theorem C57_set_float_partial {F : Fix} {σ : Sch} {s : RW} {tag x : Nat} (h : Reachable F σ s) (ht : TokenOk σ s.pre tag)
    (hc : isLooseCollection tag = false) (hb : ∀ v, StepBenign F s (.set tag (tag2genus tag) v)) (hx : x < 2 ^ 64) :
    SetsValue F σ s tag (setBy F s tag (floatArg · x)) real (fitsReal (fltOf 52 11 x)) (nullReal (tag2genus tag) x) (zeroReal (tag2genus tag) x)
      (getFloat · tag) (ReadsReal (tag2genus tag) (isLoose tag = true ∧ isDiscernible tag = false) x) := by
  refine setsValue h ht hc hb (floatArg_spec (fun hg k => ?_) (fun hg => ?_)) <;> unfold nullReal zeroReal storedReal <;> rw [hg]
  · exact pass_f32 hg (f64to32_spec hx).1 (toFloat hx k) Iff.rfl id
  · exact pass_f64 hg hx Iff.rfl id

/-- Patterns of zero. -/
theorem zero_bits {p E x : Nat} (hE : 1 ≤ E) (hx : x < 2 ^ (p + E + 1)) (h : fltOf p E x = .fin 0) : x = 0 ∨ x = 2 ^ (p + E) := by
  have hsp := split_bits hx
  have hS : x / 2 ^ (p + E) % 2 < 2 := Nat.mod_lt _ (by norm_num)
  have he : x / 2 ^ p % 2 ^ E < 2 ^ E := Nat.mod_lt _ (by positivity)
  have hf : x % 2 ^ p < 2 ^ p := Nat.mod_lt _ (by positivity)
  generalize x / 2 ^ (p + E) % 2 = S at *
  generalize x / 2 ^ p % 2 ^ E = e at *
  generalize x % 2 ^ p = f at *
  rw [hsp] at h
  have hz : e = 0 ∧ f = 0 := by
    by_cases c : e = 2 ^ E - 1
    · rw [c, (special_value hE hf).2] at h
      split_ifs at h
    · rw [fltOf_fin (value_parts hE hS (by omega) hf)] at h
      injection h with h
      have h2 : (2 : ℚ) ^ (((max e 1 : Nat) : Int) + (1 - 2 ^ (E - 1) - (p : Int))) ≠ 0 := by positivity
      have h3 : (if S = 1 then (-1 : ℚ) else 1) ≠ 0 := by split_ifs <;> norm_num
      have h4 := (mul_eq_zero.1 h).resolve_right h2
      have h5 := (mul_eq_zero.1 h4).resolve_left h3
      have h6 : (if e = 0 then f else 2 ^ p + f) = 0 := by exact_mod_cast h5
      have h7 : 0 < 2 ^ p := by positivity
      split_ifs at h6 with k
      · exact ⟨k, h6⟩
      · omega
  rw [hz.1, hz.2] at hsp
  rw [hsp, Nat.zero_mul, Nat.add_zero]
  rcases (show S = 0 ∨ S = 1 by omega) with k | k
  · exact Or.inl (by rw [k, Nat.zero_mul])
  · exact Or.inr (by rw [k, Nat.one_mul])

/-- The object which the user expects in a collection after `insert_float`. -/
def MadeReal (g : Genus) (x : Nat) (bytes : List Nat) : Prop :=
  if g = .f32 then ToFloat (fltOf 52 11 x) (leNat bytes) else leNat bytes = x

/-- **C57 (partial), `insert_float(double)`.** -/
theorem C57_insert_float_partial {F : Fix} {σ : Sch} {s : RW} {tag x : Nat} (h : Reachable F σ s)
    (hb : ∀ v, StepBenign F s (.insert tag (tag2genus tag) v)) (hx : x < 2 ^ 64) :
    InsertsValue F σ s tag (insertBy F s tag (floatArg · x)) real (fitsReal (fltOf 52 11 x)) (zeroReal (tag2genus tag) x)
      (MadeReal (tag2genus tag) x) := by
  refine insertsValue h hb (floatArg_spec (fun hg k => ?_) (fun hg => ?_)) <;> unfold MadeReal zeroReal <;> rw [hg]
  · have hz := (f64to32_spec hx).1
    obtain ⟨b1, b2, b3, _⟩ := bits32 (g := .f32) (Or.inl rfl) hz
    refine ⟨b1, b2, (empty_f32 hz).trans ⟨fltOf_zero32, fun k => zero_bits (by norm_num) hz k⟩, ?_⟩
    rw [if_pos rfl, b3]
    exact toFloat hx k
  · obtain ⟨b1, b2, b3, _⟩ := bits64 (g := .f64) (Or.inl rfl) hx
    refine ⟨b1, b2, (empty_f64 hx).trans ⟨fun k => ?_, fun k => zero_bits (by norm_num) hx k⟩, ?_⟩
    · rw [if_neg (by decide)]
      rcases k with k | k <;> rw [k]
      · exact fltOf_zero64.1
      · exact fltOf_zero64.2
    · rw [if_neg (by decide)]
      exact b3

/-- A NaN is only for fields of real types. -/
def fitsNumber (x : Flt) (g : Genus) : Prop := fitsReal x g ∧ (x = .nan → isFloatMask g = true)

theorem numberF64_real {g : Genus} {x : Nat} (hg : real g = true) : numberArgF64 g x = floatArg g x := by
  unfold numberArgF64 floatArg
  rcases real_cases hg with rfl | rfl
  · rw [show isFloatMask .f32 = true by decide +kernel]
    cases fltOf 52 11 x <;> rfl
  · rw [show isFloatMask .f64 = true by decide +kernel]
    cases fltOf 52 11 x <;> rfl

theorem number_other {g : Genus} (hg : real g = false) (x : Nat) :
    (numberArgF64 g x = .error .typeMismatch ∨ numberArgF64 g x = .error .valueRange ∧ ¬ fitsNumber (fltOf 52 11 x) g) ∧
    (numberArgF32 g x = .error .typeMismatch ∨ numberArgF32 g x = .error .valueRange ∧ ¬ fitsNumber (fltOf 23 8 x) g) := by
  obtain ⟨g1, g2⟩ := real_not hg
  unfold numberArgF64 numberArgF32
  constructor
  · cases e : fltOf 52 11 x with
    | nan =>
      cases e2 : isFloatMask g with
      | false => exact Or.inr ⟨rfl, fun k => by have := k.2 rfl; rw [e2] at this; cases this⟩
      | true => refine Or.inl ?_; dsimp only; split <;> first | rfl | contradiction
    | inf b => refine Or.inl ?_; dsimp only; split <;> first | rfl | contradiction
    | fin q => refine Or.inl ?_; dsimp only; split <;> first | rfl | contradiction
  · cases e : fltOf 23 8 x with
    | nan =>
      cases e2 : isFloatMask g with
      | false => exact Or.inr ⟨rfl, fun k => by have := k.2 rfl; rw [e2] at this; cases this⟩
      | true => refine Or.inl ?_; dsimp only; split <;> first | rfl | contradiction
    | inf b => refine Or.inl ?_; dsimp only; split <;> first | rfl | contradiction
    | fin q => refine Or.inl ?_; dsimp only; split <;> first | rfl | contradiction

theorem fitsNumber_real {x : Flt} {g : Genus} (hg : real g = true) : fitsNumber x g ↔ fitsReal x g := by
  unfold fitsNumber
  refine and_iff_left fun _ => ?_
  rcases real_cases hg with rfl | rfl <;> decide +kernel

theorem numberF64_spec {tag x : Nat} {P : Genus → Val → Prop}
    (h32 : tag2genus tag = .f32 → fitsReal (fltOf 52 11 x) .f32 → P .f32 (bitsVal .f32 (f64to32 x)))
    (h64 : tag2genus tag = .f64 → P .f64 (bitsVal .f64 x)) :
    ArgSpec tag (numberArgF64 · x) real (fitsNumber (fltOf 52 11 x)) P := by
  obtain ⟨_, s2, s3⟩ := floatArg_spec h32 h64
  refine ⟨fun h => ?_, fun h k => ?_, fun h k => ?_⟩
  · rcases (number_other h x).1 with k | k
    · exact Or.inl k
    · exact Or.inr (Or.inl k)
  · rw [fitsNumber_real h] at k
    exact (numberF64_real h).trans (s2 h k)
  · rw [fitsNumber_real h] at k
    obtain ⟨v, v1, v2⟩ := s3 h k
    exact ⟨v, (numberF64_real h).trans v1, v2⟩

theorem setNumber_by {F : Fix} {s : RW} {tag x : Nat} {double : Bool} (hg : isInt (tag2genus tag) = false) :
    setNumber F s tag double x = setBy F s tag fun g => if double then numberArgF64 g x else numberArgF32 g x := by
  unfold setNumber
  rw [if_neg]
  unfold isInt at hg
  rw [hg]
  decide

/-- **C57 (partial), `set_number(double)`** of a field which is not an integer (C44 is about those): as `set_float`; a NaN is refused by fields of other types. -/
theorem C57_set_number_double_partial {F : Fix} {σ : Sch} {s : RW} {tag x : Nat} (h : Reachable F σ s) (ht : TokenOk σ s.pre tag)
    (hc : isLooseCollection tag = false) (hb : ∀ v, StepBenign F s (.set tag (tag2genus tag) v)) (hg : isInt (tag2genus tag) = false) (hx : x < 2 ^ 64) :
    SetsValue F σ s tag (setNumber F s tag true x) real (fitsNumber (fltOf 52 11 x)) (nullReal (tag2genus tag) x) (zeroReal (tag2genus tag) x)
      (getFloat · tag) (ReadsReal (tag2genus tag) (isLoose tag = true ∧ isDiscernible tag = false) x) := by
  rw [setNumber_by hg]
  refine setsValue h ht hc hb (numberF64_spec (fun hg k => ?_) (fun hg => ?_)) <;> unfold nullReal zeroReal storedReal <;> rw [hg]
  · exact pass_f32 hg (f64to32_spec hx).1 (toFloat hx k) Iff.rfl id
  · exact pass_f64 hg hx Iff.rfl id

/-- **C57 (partial), `insert_number(double)`** for a field which is not an integer. -/
theorem C57_insert_number_double_partial {F : Fix} {σ : Sch} {s : RW} {tag x : Nat} (h : Reachable F σ s)
    (hb : ∀ v, StepBenign F s (.insert tag (tag2genus tag) v)) (hx : x < 2 ^ 64) :
    InsertsValue F σ s tag (insertBy F s tag (numberArgF64 · x)) real (fitsNumber (fltOf 52 11 x)) (zeroReal (tag2genus tag) x)
      (MadeReal (tag2genus tag) x) := by
  refine insertsValue h hb (numberF64_spec (fun hg k => ?_) (fun hg => ?_)) <;> unfold MadeReal zeroReal <;> rw [hg]
  · have hz := (f64to32_spec hx).1
    obtain ⟨b1, b2, b3, _⟩ := bits32 (g := .f32) (Or.inl rfl) hz
    refine ⟨b1, b2, (empty_f32 hz).trans ⟨fltOf_zero32, fun k => zero_bits (by norm_num) hz k⟩, ?_⟩
    rw [if_pos rfl, b3]
    exact toFloat hx k
  · obtain ⟨b1, b2, b3, _⟩ := bits64 (g := .f64) (Or.inl rfl) hx
    refine ⟨b1, b2, (empty_f64 hx).trans ⟨fun k => ?_, fun k => zero_bits (by norm_num) hx k⟩, ?_⟩
    · rw [if_neg (by decide)]
      rcases k with k | k <;> rw [k]
      · exact fltOf_zero64.1
      · exact fltOf_zero64.2
    · rw [if_neg (by decide)]
      exact b3

theorem widen_not_null {x : Nat} (hx : x < 2 ^ 32) : f32to64 x ≠ 2 ^ 64 - 1 := by
  intro k
  have hsp := split_bits (p := 23) (E := 8) (x := x) (by exact hx)
  have hS : x / 2 ^ (23 + 8) % 2 < 2 := Nat.mod_lt _ (by norm_num)
  have hE : x / 2 ^ 23 % 2 ^ 8 < 2 ^ 8 := Nat.mod_lt _ (by norm_num)
  have hF : x % 2 ^ 23 < 2 ^ 23 := Nat.mod_lt _ (by norm_num)
  have hw := (f32to64_spec hx).2
  generalize x / 2 ^ (23 + 8) % 2 = S at *
  generalize x / 2 ^ 23 % 2 ^ 8 = e at *
  generalize x % 2 ^ 23 = f at *
  by_cases c : e = 255
  · rw [hsp, f32to64_parts hS hE hF, if_pos c] at k
    split_ifs at k
    · norm_num at k; omega
    · norm_num at k hF; omega
  · rw [k, hsp, fltOf_fin (value_parts (by norm_num) hS (by norm_num at hE ⊢; omega) hF)] at hw
    have h1 : fltOf 52 11 (2 ^ 64 - 1) = .nan := by
      have := (special_value (p := 52) (E := 11) (s := 1) (f := 2 ^ 52 - 1) (by norm_num) (by norm_num)).2
      rw [if_neg (by norm_num)] at this
      refine Eq.trans ?_ this
      congr 1
    rw [h1] at hw
    cases hw

/-- **C57 (partial), `set_number(float)`** of a field which is not an integer: the number reads back exactly, from fields of either type. -/
theorem C57_set_number_float_partial {F : Fix} {σ : Sch} {s : RW} {tag x : Nat} (h : Reachable F σ s) (ht : TokenOk σ s.pre tag)
    (hc : isLooseCollection tag = false) (hb : ∀ v, StepBenign F s (.set tag (tag2genus tag) v)) (hg : isInt (tag2genus tag) = false) (hx : x < 2 ^ 32) :
    SetsValue F σ s tag (setNumber F s tag false x) real (fun g => fltOf 23 8 x = .nan → isFloatMask g = true)
      (tag2genus tag = .f32 ∧ x = 2 ^ 32 - 1) (fltOf 23 8 x = .fin 0)
      (getFloat · tag) (fun y => fltOf 52 11 y = fltOf 23 8 x) := by
  rw [setNumber_by hg]
  obtain ⟨w1, w2⟩ := f32to64_spec hx
  refine setsValue h ht hc hb ⟨fun hg => ?_, fun hg k => ?_, fun hg _ => ?_⟩
  · rcases (number_other hg x).2 with k | ⟨k1, k2⟩
    · exact Or.inl k
    · refine Or.inr (Or.inl ⟨k1, fun k => k2 ⟨fun e => absurd e (real_not hg).1, k⟩⟩)
  · exact absurd (fun _ => by rcases real_cases hg with e | e <;> rw [e] <;> decide +kernel) k
  · rcases real_cases hg with hg | hg
    · obtain ⟨b1, b2, b3, b4⟩ := bits32 (g := .f32) (Or.inl rfl) hx
      rw [hg]
      refine ⟨bitsVal .f32 x, ?_, b1, b2, (denil_f32 hx).trans ⟨fun k => ⟨rfl, k⟩, And.right⟩, fun k => fltOf_zero32 ((empty_f32 hx).1 k), _, getFloat_f32 hg, ?_, fun k _ _ => ?_⟩
      · show numberArgF32 .f32 x = _
        unfold numberArgF32
        rw [show isFloatMask .f32 = true by decide +kernel]
        cases fltOf 23 8 x <;> rfl
      · rw [b3]; exact w2
      · rw [b4, fltOf_zero32 ((empty_f32 hx).1 k), (f32to64_spec (by norm_num)).2, fltOf_zero32 (Or.inl rfl)]
    · obtain ⟨b1, b2, b3, b4⟩ := bits64 (g := .f64) (Or.inl rfl) w1
      have hz : (bitsVal .f64 (f32to64 x)).isEmpty .f64 = true → fltOf 23 8 x = .fin 0 := by
        intro k
        rw [← w2]
        rcases (empty_f64 w1).1 k with k | k <;> rw [k]
        · exact fltOf_zero64.1
        · exact fltOf_zero64.2
      rw [hg]
      refine ⟨bitsVal .f64 (f32to64 x), ?_, b1, b2, (denil_f64 w1).trans ⟨fun k => absurd k (widen_not_null hx), fun k => by cases k.1⟩, hz, _, getFloat_f64 hg, ?_, fun k _ _ => ?_⟩
      · show numberArgF32 .f64 x = _
        unfold numberArgF32
        rw [show isFloatMask .f64 = true by decide +kernel]
        cases fltOf 23 8 x <;> rfl
      · rw [b3]; exact w2
      · rw [b4, hz k]; exact fltOf_zero64.1

/-- The hypotheses are met on the code as it is: 0.1 becomes the nearest `float` and reads back so. -/
example : SetsValue .code noPre (fresh 8 60) (fix .f32 3) (setBy .code (fresh 8 60) (fix .f32 3) (floatArg · 0x3FB999999999999A)) real
      (fitsReal (fltOf 52 11 0x3FB999999999999A)) (nullReal .f32 0x3FB999999999999A) (zeroReal .f32 0x3FB999999999999A)
      (getFloat · (fix .f32 3)) (ReadsReal .f32 (isLoose (fix .f32 3) = true ∧ isDiscernible (fix .f32 3) = false) 0x3FB999999999999A) ∧
    okWith (setBy .code (fresh 8 60) (fix .f32 3) (floatArg · 0x3FB999999999999A))
      (fun t => decide (getFloat t (fix .f32 3) = .ok 0x3FB99999A0000000)) = true :=
  ⟨C57_set_float_partial ((fresh_ok (by decide) (by decide)).reachable (ops := []) (fun _ h => (by cases h)) trivial rfl)
    ⟨by decide, fun h => absurd h (by decide)⟩ (by decide) (fun v => stepBenign_of rfl) (by norm_num), by decide +kernel⟩

/-- The least number of `float`, half of it (rounded to even: zero), a bit more than half of it; the largest number, and the next `double`, which is refused;
an infinity and a NaN. -/
example : f64to32 0x36A0000000000000 = 1 ∧ f64to32 0x3690000000000000 = 0 ∧ f64to32 0x3690000000000001 = 1 ∧
    f64to32 0x47EFFFFFE0000000 = 0x7F7FFFFF ∧ beyondFloat (fltOf 52 11 0x47EFFFFFE0000000) = false ∧ beyondFloat (fltOf 52 11 0x47EFFFFFE0000001) = true ∧
    f64to32 0xFFF0000000000000 = 0xFF800000 ∧ f64to32 0x7FF0000000000001 = 0x7FC00000 ∧ f32to64 1 = 0x36A0000000000000 ∧
    f32to64 0x3DCCCCCD = 0x3FB99999A0000000 := by decide +kernel

/-- `set_number(float)` into a field of `double`, and `insert_float`. -/
example : okWith (setNumber .code (fresh 8 60) (fix .f64 3) false 0x3DCCCCCD) (fun t => decide (getFloat t (fix .f64 3) = .ok 0x3FB99999A0000000)) = true ∧
    (match insertBy .code (fresh 8 60) (col .f32 3) (floatArg · 0x47EFFFFFE0000001) with | .exc .valueRange _ => true | _ => false) = true ∧
    (match insertBy .code (fresh 8 60) (col .f32 3) (floatArg · 0x3FB999999999999A) with | .ok (some _) _ => true | _ => false) = true ∧
    (match setNumber .code (fresh 8 60) (fix .t64 3) true 0x7FF8000000000000 with | .exc .valueRange _ => true | _ => false) = true ∧
    (match setNumber .code (fresh 8 60) (fix .t64 3) true 0x3FF8000000000000 with | .exc .typeMismatch _ => true | _ => false) = true := by
  decide +kernel

/-- **C57, a sign is lost.** In a loose field without distinguished NULLs the negative zero turns into the positive one (in others it is kept). -/
theorem C57_negative_zero_refuted :
    okWith (setBy .code (fresh 8 60) (fix .f64 3) (floatArg · (2 ^ 63))) (fun t => decide (getFloat t (fix .f64 3) = .ok 0)) = true ∧
    okWith (setBy .code (fresh 8 60) (makeTag .f64 3 false true false) (floatArg · (2 ^ 63)))
      (fun t => decide (getFloat t (makeTag .f64 3 false true false) = .ok (2 ^ 63))) = true := by
  decide +kernel

/-! ## C58: dates -/

/-- The types of times. -/
def isTime (g : Genus) : Bool := decide (g = .t32) || decide (g = .t64)

/-- The time which the user expects: the same, or for a field in whole seconds without the fraction. -/
def ReadsTime (g : Genus) (d y : Nat) : Prop := y = if g = .t32 then d / 2 ^ 32 * 2 ^ 32 else d

theorem getDatetime_t32 {tag : Nat} (hg : tag2genus tag = .t32) (t : RW) :
    getDatetime t tag = (getFixed t tag .t32).map fun b => Datetime.fromSeconds (leNat b) := by
  unfold getDatetime; rw [if_pos hg]
theorem getDatetime_t64 {tag : Nat} (hg : tag2genus tag = .t64) (t : RW) : getDatetime t tag = (getFixed t tag .t64).map leNat := by
  unfold getDatetime; rw [if_neg (by rw [hg]; decide)]

theorem fromSeconds_eq {x : Nat} (hx : x < 2 ^ 32) : Datetime.fromSeconds x = x * 2 ^ 32 := by
  unfold Datetime.fromSeconds
  rw [Nat.shiftLeft_eq]
  refine Nat.mod_eq_of_lt ?_
  norm_num at hx ⊢
  omega

theorem seconds_lt {d : Nat} (hd : d < 2 ^ 64) : Datetime.utcSeconds d < 2 ^ 32 := by
  unfold Datetime.utcSeconds
  norm_num at hd ⊢
  omega

/-- **C58 (partial), `set_datetime`.** The time is stored, in a field in whole seconds without its fraction, and `get_datetime` returns it; a field of any other type refuses it; nothing else changes.
The time zero (for a field in seconds: any time of the first second) is the designated NULL. Missing: the fraction (`C58_seconds_refuted`), and for the code as it is histories in which
a defect of `src/gear.cxx` shows. -/
theorem C58_set_partial {F : Fix} {σ : Sch} {s : RW} {tag d : Nat} (h : Reachable F σ s) (ht : TokenOk σ s.pre tag)
    (hc : isLooseCollection tag = false) (hb : ∀ v, StepBenign F s (.set tag (tag2genus tag) v)) (hd : d < 2 ^ 64) :
    SetsValue F σ s tag (setBy F s tag (datetimeArg · d)) isTime (fun _ => True) (if tag2genus tag = .t32 then d < 2 ^ 32 else d = 0)
      (if tag2genus tag = .t32 then d < 2 ^ 32 else d = 0) (getDatetime · tag) (ReadsTime (tag2genus tag) d) := by
  refine setsValue h ht hc hb ⟨fun hg => ?_, fun _ k => absurd trivial k, fun hg _ => ?_⟩
  · have h1 : tag2genus tag ≠ .t32 := by intro e; rw [e] at hg; cases hg
    have h2 : tag2genus tag ≠ .t64 := by intro e; rw [e] at hg; cases hg
    refine Or.inr (Or.inr ⟨.t64, bitsVal .t64 d, ?_, rfl, h2⟩)
    show datetimeArg _ d = _
    unfold datetimeArg
    rw [if_neg h1]
  · have hc : tag2genus tag = .t32 ∨ tag2genus tag = .t64 := by
      unfold isTime at hg
      rw [Bool.or_eq_true, decide_eq_true_eq, decide_eq_true_eq] at hg
      exact hg
    rcases hc with hg | hg
    · have hs := seconds_lt hd
      obtain ⟨b1, b2, b3, b4⟩ := bits32 (g := .t32) (Or.inr rfl) hs
      have h0 : Datetime.utcSeconds d = 0 ↔ d < 2 ^ 32 := by
        unfold Datetime.utcSeconds
        rw [Nat.div_eq_zero_iff]
        simp
      rw [hg, if_pos rfl]
      refine ⟨bitsVal .t32 (Datetime.utcSeconds d), rfl, b1, b2, (denil_bits b3 (by decide +kernel) (by decide +kernel)).trans h0,
        fun k => h0.1 ((empty_t32 hs).1 k), _, getDatetime_t32 hg, ?_, fun k _ _ => ?_⟩
      · rw [b3, fromSeconds_eq hs]; rfl
      · have e := (empty_t32 hs).1 k
        rw [b4, fromSeconds_eq (by norm_num)]
        unfold ReadsTime
        rw [if_pos rfl]
        unfold Datetime.utcSeconds at e
        rw [e]
    · obtain ⟨b1, b2, b3, b4⟩ := bits64 (g := .t64) (Or.inr rfl) hd
      rw [hg, if_neg (by decide)]
      refine ⟨bitsVal .t64 d, rfl, b1, b2, denil_bits b3 (by decide +kernel) (by decide +kernel),
        fun k => (empty_t64 hd).1 k, _, getDatetime_t64 hg, ?_, fun k _ _ => ?_⟩
      · rw [b3]; unfold ReadsTime; rw [if_neg (by decide)]
      · rw [b4]; unfold ReadsTime; rw [if_neg (by decide)]; exact ((empty_t64 hd).1 k).symm

/-- **C58 (partial), `insert_datetime`.** It serves fields with fractions only; missing: fields in whole seconds (`C58_insert_refuted`), histories in which
a defect of `src/gear.cxx` shows. -/
theorem C58_insert_partial {F : Fix} {σ : Sch} {s : RW} {tag d : Nat} (h : Reachable F σ s)
    (hb : ∀ v, StepBenign F s (.insert tag (tag2genus tag) v)) (hd : d < 2 ^ 64) :
    InsertsValue F σ s tag (insertBy F s tag (datetimeInsertArg · d)) (fun g => decide (g = .t64)) (fun _ => True) (d = 0)
      (fun bytes => leNat bytes = d) := by
  refine insertsValue h hb ⟨fun hg => ?_, fun _ k => absurd trivial k, fun hg _ => ?_⟩
  · exact Or.inr (Or.inr ⟨.t64, bitsVal .t64 d, rfl, rfl, of_decide_eq_false hg⟩)
  · have hg := of_decide_eq_true hg
    obtain ⟨b1, b2, b3, b4⟩ := bits64 (g := .t64) (Or.inr rfl) hd
    rw [hg]
    exact ⟨_, rfl, b1, b2, empty_t64 hd, b3⟩

/-- **C58, refuted for fields in whole seconds.** Two different times read back as the same one. -/
theorem C58_seconds_refuted : ∀ d1 d2, d1 < 2 ^ 64 → d2 < 2 ^ 64 → d1 / 2 ^ 32 = d2 / 2 ^ 32 → ∀ F s tag, tag2genus tag = .t32 →
    setBy F s tag (datetimeArg · d1) = setBy F s tag (datetimeArg · d2) := by
  intro d1 d2 _ _ h F s tag hg
  unfold setBy datetimeArg
  rw [hg]
  unfold Datetime.utcSeconds
  rw [h]
  rfl

example : okWith (setBy .code (fresh 8 60) (fix .t32 3) (datetimeArg · (5 * 2 ^ 32 + 2 ^ 31)))
    (fun t => decide (getDatetime t (fix .t32 3) = .ok (5 * 2 ^ 32))) = true := by decide +kernel

/-- **C58, refuted for collections of times in whole seconds.** `insert_datetime` refuses them, whatever the time, though `set_datetime` serves this type. -/
theorem C58_insert_refuted (F : Fix) (s : RW) (tag d : Nat) (hg : tag2genus tag = .t32) (_hc : isLooseCollection tag = true) :
    insertBy F s tag (datetimeInsertArg · d) = .exc .typeMismatch s := by
  unfold insertBy datetimeInsertArg
  beta_reduce
  show insertField F s tag .t64 _ = _
  unfold insertField
  rw [if_pos (by rw [hg]; decide)]

example : tag2genus (col .t32 7) = .t32 ∧ isLooseCollection (col .t32 7) = true := by decide

/-- The hypotheses are met on the code as it is. -/
example : SetsValue .code noPre (fresh 8 60) (fix .t64 3) (setBy .code (fresh 8 60) (fix .t64 3) (datetimeArg · 0x123456789ABCDEF0)) isTime (fun _ => True)
      (if Genus.t64 = .t32 then (0x123456789ABCDEF0 : Nat) < 2 ^ 32 else (0x123456789ABCDEF0 : Nat) = 0)
      (if Genus.t64 = .t32 then (0x123456789ABCDEF0 : Nat) < 2 ^ 32 else (0x123456789ABCDEF0 : Nat) = 0) (getDatetime · (fix .t64 3))
      (ReadsTime .t64 0x123456789ABCDEF0) ∧
    okWith (setBy .code (fresh 8 60) (fix .t64 3) (datetimeArg · 0x123456789ABCDEF0))
      (fun t => decide (getDatetime t (fix .t64 3) = .ok 0x123456789ABCDEF0)) = true :=
  ⟨C58_set_partial ((fresh_ok (by decide) (by decide)).reachable (ops := []) (fun _ h => (by cases h)) trivial rfl)
    ⟨by decide, fun h => absurd h (by decide)⟩ (by decide) (fun v => stepBenign_of rfl) (by norm_num), by decide +kernel⟩

/-! ## C59: booleans and enumerations -/

theorem bits8 (b : Bool) : Genus.i8.isFixed = true ∧ (bitsVal .i8 (if b then 1 else 0)).fits .i8 = true ∧
    intOf .i8 ((bitsVal .i8 (if b then 1 else 0)).bytes .i8) = (if b then 1 else 0) ∧
    ((bitsVal .i8 (if b then 1 else 0)).isEmpty .i8 = true ↔ b = false) ∧ intOf .i8 ((Val.empty .i8).bytes .i8) = 0 ∧
    (bitsVal .i8 (if b then 1 else 0)).bytes .i8 ≠ denilBytes .i8 := by
  cases b <;> decide +kernel

/-- **C59 (partial), `set_bool`.** Both truth values read back with `get_bool`, also from fields with distinguished NULLs. Missing for the code as it is: histories
in which a defect of `src/gear.cxx` shows. -/
theorem C59_set_bool_partial {F : Fix} {σ : Sch} {s : RW} {tag : Nat} {b : Bool} (h : Reachable F σ s) (ht : TokenOk σ s.pre tag)
    (hc : isLooseCollection tag = false) (hb : ∀ v, StepBenign F s (.set tag (tag2genus tag) v)) :
    SetsValue F σ s tag (setBy F s tag (boolArg · b)) (fun g => decide (g = .i8)) (fun _ => True) False (b = false) (getBool · tag) (· = b) := by
  refine setsValue h ht hc hb ⟨fun hg => ?_, fun _ k => absurd trivial k, fun hg _ => ?_⟩
  · exact Or.inr (Or.inr ⟨.i8, _, rfl, rfl, of_decide_eq_false hg⟩)
  · have hg := of_decide_eq_true hg
    obtain ⟨b1, b2, b3, b4, b5, b6⟩ := bits8 b
    rw [hg]
    refine ⟨_, rfl, b1, b2, ⟨fun k => absurd k b6, False.elim⟩, b4.1, _, fun t => rfl, ?_, fun k _ _ => ?_⟩
    · show decide (intOf .i8 ((bitsVal .i8 (if b then 1 else 0)).bytes .i8) ≠ 0) = b
      rw [b3]; cases b <;> decide
    · show decide (intOf .i8 ((Val.empty .i8).bytes .i8) ≠ 0) = b
      rw [b5, b4.1 k]; decide

/-- **C59 (partial), `insert_bool`.** -/
theorem C59_insert_bool_partial {F : Fix} {σ : Sch} {s : RW} {tag : Nat} {b : Bool} (h : Reachable F σ s)
    (hb : ∀ v, StepBenign F s (.insert tag (tag2genus tag) v)) :
    InsertsValue F σ s tag (insertBy F s tag (boolArg · b)) (fun g => decide (g = .i8)) (fun _ => True) (b = false)
      (fun bytes => bytes = [if b then 1 else 0]) := by
  refine insertsValue h hb ⟨fun hg => ?_, fun _ k => absurd trivial k, fun hg _ => ?_⟩
  · exact Or.inr (Or.inr ⟨.i8, _, rfl, rfl, of_decide_eq_false hg⟩)
  · have hg := of_decide_eq_true hg
    obtain ⟨b1, b2, b3, b4, b5, b6⟩ := bits8 b
    rw [hg]
    exact ⟨_, rfl, b1, b2, b4, by cases b <;> decide +kernel⟩

/-- **C59 (partial), `set_enum`.** -/
theorem C59_set_enum_partial {F : Fix} {σ : Sch} {s : RW} {tag : Nat} {n : Int} (h : Reachable F σ s) (ht : TokenOk σ s.pre tag)
    (hc : isLooseCollection tag = false) (hb : ∀ v, StepBenign F s (.set tag (tag2genus tag) v)) (hn : -2 ^ 15 ≤ n ∧ n < 2 ^ 15) :
    SetsValue F σ s tag (setBy F s tag (enumArg · n)) (fun g => decide (g = .i16)) (fun _ => True) (n = -2 ^ 15) (n = 0) (getEnum · tag) (· = n) := by
  refine setsValue h ht hc hb ⟨fun hg => ?_, fun _ k => absurd trivial k, fun hg _ => ?_⟩
  · exact Or.inr (Or.inr ⟨.i16, _, rfl, rfl, of_decide_eq_false hg⟩)
  · have hg := of_decide_eq_true hg
    have hp := Passes.ofInt (g := .i16) rfl hn
    have hz : (intVal .i16 n).isEmpty .i16 = true → n = 0 := by
      intro k
      have h1 := intOf_intVal (g := .i16) rfl hn
      rw [hp.zero k, show intOf .i16 ((Val.empty .i16).bytes .i16) = 0 by decide +kernel] at h1
      exact h1.symm
    rw [hg]
    refine ⟨_, rfl, rfl, hp.fits, ⟨fun k => ?_, fun k => ?_⟩, hz, _, fun t => rfl, ?_, fun k _ _ => ?_⟩
    · have h1 := intOf_intVal (g := .i16) rfl hn
      rw [k, show intOf .i16 (denilBytes .i16) = -2 ^ 15 by decide +kernel] at h1
      exact h1.symm
    · rw [k]; decide +kernel
    · exact intOf_intVal rfl hn
    · rw [hz k]; decide +kernel

/-- The hypotheses are met on the code as it is; with distinguished NULLs too. -/
example : SetsValue .code noPre (fresh 8 60) (makeTag .i8 3 false true false) (setBy .code (fresh 8 60) (makeTag .i8 3 false true false) (boolArg · false))
      (fun g => decide (g = .i8)) (fun _ => True) False (false = false) (getBool · (makeTag .i8 3 false true false)) (· = false) ∧
    okWith (setBy .code (fresh 8 60) (makeTag .i8 3 false true false) (boolArg · false))
      (fun t => decide (getBool t (makeTag .i8 3 false true false) = .ok false)) = true ∧
    okWith (setBy .code (fresh 8 60) (fix .i8 3) (boolArg · true)) (fun t => decide (getBool t (fix .i8 3) = .ok true)) = true ∧
    okWith (setBy .code (fresh 8 60) (fix .i16 3) (enumArg · (-7))) (fun t => decide (getEnum t (fix .i16 3) = .ok (-7))) = true :=
  ⟨C59_set_bool_partial ((fresh_ok (by decide) (by decide)).reachable (ops := []) (fun _ h => (by cases h)) trivial rfl)
    ⟨by decide, fun h => absurd h (by decide)⟩ (by decide) (fun v => stepBenign_of rfl), by decide +kernel, by decide +kernel, by decide +kernel⟩

end Fptu.Props
