import Verif.Model.FastMath
import Verif.Props.Real
/-! # C91: infinities and NaN in the library as it is built -/
namespace Fptu.Props
open Fptu.Gear Fptu.Rw Fptu.Num Fptu.Real

/-- **C91 (strict).** Compiled without the option, as in programs that use the inline functions, the setters are those of C57 and of the
integer fields. -/
theorem C91_strict (M : Math) (hM : M.finiteOnly = false) (F : Fix) (s : RW) (tag x : Nat) (double : Bool) (v : Flt) :
    M.setFloat F s tag x = setBy F s tag (fun g => floatArg g x) ∧ M.setReal F s tag double v = setReal F s tag double v ∧
    ∀ g, M.numberArgF64 g x = numberArgF64 g x := by
  have hl : ∀ v q, M.lt v q = v.lt q := by intro v q; cases v <;> simp [Math.lt, hM, Flt.lt]
  have hg : ∀ v q, M.gt v q = v.gt q := by intro v q; cases v <;> simp [Math.gt, hM, Flt.gt]
  have hge : ∀ v q, M.ge v q = v.ge q := by intro v q; cases v <;> simp [Math.ge, hM, Flt.ge]
  have hle : ∀ v q, M.le v q = v.le q := by intro v q; cases v <;> simp [Math.le, hM, Flt.le]
  have hb : ∀ v, M.beyondFloat v = beyondFloat v := by
    intro v
    unfold Math.beyondFloat beyondFloat Math.isInf
    rw [hM, hl, hg]
    cases v <;> simp
  refine ⟨?_, ?_, ?_⟩
  · unfold Math.setFloat
    congr 1
    funext g
    unfold Math.floatArg floatArg
    rw [hb]
  · have e : ∀ g, M.numberArgReal double g v = numberArgReal double g v := by
      intro g
      have h1 : ∀ g lo hi, M.ranged g lo hi v = realRanged g lo hi v := by
        intro g lo hi; unfold Math.ranged realRanged; rw [hl, hg]
      have h2 : ∀ g, M.safe double g v = realSafe double g v := by
        intro g; unfold Math.safe realSafe; rw [hge, hle]
      unfold Math.numberArgReal numberArgReal Math.isNan
      rw [hM]
      cases v with
      | nan => simp
      | inf n => simp only [h1, h2]; rfl
      | fin q => simp only [h1, h2]; rfl
    unfold Math.setReal setReal
    rw [e]
    rfl
  · intro g
    unfold Math.numberArgF64 numberArgF64 Math.isNan
    rw [hM, hb]
    cases fltOf 52 11 x <;> cases isFloatMask g <;> rfl

/-- **C91, partial (finite numbers).** However the sources are compiled, a finite number is treated as without the option.

Missing: infinities and NaN, for which it is false (`C91_infinity_refuted`, `C91_nan_refuted`). -/
theorem C91_finite_partial (M : Math) (F : Fix) (s : RW) (tag x : Nat) (double : Bool) (q r : Rat) (hx : fltOf 52 11 x = .fin q) :
    M.setFloat F s tag x = setBy F s tag (fun g => floatArg g x) ∧ M.setReal F s tag double (.fin r) = setReal F s tag double (.fin r) ∧
    ∀ g, M.numberArgF64 g x = numberArgF64 g x := by
  have hb : M.beyondFloat (.fin q) = beyondFloat (.fin q) := by
    unfold Math.beyondFloat Math.isInf
    simp only [Bool.and_false, Bool.not_false, Bool.true_and]
    rfl
  refine ⟨?_, ?_, ?_⟩
  · unfold Math.setFloat
    congr 1
    funext g
    unfold Math.floatArg floatArg
    rw [hx, hb]
  · have e : ∀ g, M.numberArgReal double g (.fin r) = numberArgReal double g (.fin r) := by
      intro g
      unfold Math.numberArgReal numberArgReal Math.isNan
      rw [if_neg (by simp)]
      rfl
    unfold Math.setReal setReal
    rw [e]
    rfl
  · intro g
    unfold Math.numberArgF64 numberArgF64 Math.isNan
    rw [hx, hb, Bool.and_false, Bool.false_and]
    rfl

/-- **C91 (integers and infinities).** However the sources are compiled, an infinity is refused for every integer field. -/
theorem C91_infinity_integer (M : Math) {F : Fix} {s : RW} {tag : Nat} {double negative : Bool}
    (hg : (signedInt (tag2genus tag) || unsignedInt (tag2genus tag)) = true) (hc : isLooseCollection tag = false) :
    M.setReal F s tag double (.inf negative) = .exc .valueRange s := by
  unfold Math.setReal
  rw [if_neg (by rw [hc]; decide)]
  have e : M.numberArgReal double (tag2genus tag) (.inf negative) = .exc .valueRange := by
    have h1 : ∀ g lo hi, M.ranged g lo hi (.inf negative) = .exc .valueRange := by
      intro g lo hi
      show (if (Flt.lt (.inf negative) lo || Flt.gt (.inf negative) hi) = true then _ else _) = _
      cases negative <;> rfl
    have h2 : ∀ g, M.safe double g (.inf negative) = .exc .valueRange := by
      intro g
      show (if (!(Flt.ge (.inf negative) (roundtripBounds double g).1 && Flt.le (.inf negative) (roundtripBounds double g).2)) = true then _ else _) = _
      cases negative <;> rfl
    unfold Math.numberArgReal Math.isNan
    rw [if_neg (by simp)]
    generalize tag2genus tag = g at hg
    cases g <;> first | exact h1 _ _ _ | exact h2 _ | exact absurd hg (by decide)
  rw [e]

/-- **C91 (double fields).** However the sources are compiled, `set_float` stores every number in a field of type `double` as it is. -/
theorem C91_double (M : Math) {F : Fix} {s : RW} {tag x : Nat} (hg : tag2genus tag = .f64) (hc : isLooseCollection tag = false) :
    M.setFloat F s tag x = setField F s tag .f64 (bitsVal .f64 x) := by
  unfold Math.setFloat setBy Math.floatArg
  rw [hc, hg]
  rfl

/-- **C91, refuted for infinities.** Compiled with the option, `set_float` refuses every infinity for every field of type `float`, in every
tuple; without it, as by the inline functions, the infinity is stored in some reachable tuple, and read back. -/
theorem C91_infinity_refuted :
    (∀ (M : Math) (F : Fix) (s : RW) (tag x : Nat) (negative : Bool), M.finiteOnly = true → fltOf 52 11 x = .inf negative →
      tag2genus tag = .f32 → isLooseCollection tag = false → M.setFloat F s tag x = .exc .valueRange s) ∧
    okWith (Math.strict.setFloat .code (fresh 8 60) (fix .f32 3) (2047 * 2 ^ 52)) (fun t => decide (getFloat t (fix .f32 3) = .ok (2047 * 2 ^ 52))) = true := by
  refine ⟨fun M F s tag x n hM hx hg hc => ?_, by decide +kernel⟩
  unfold Math.setFloat setBy
  rw [hc, hg]
  unfold Math.floatArg
  rw [hx]
  have e : M.beyondFloat (.inf n) = true := by
    unfold Math.beyondFloat Math.isInf
    rw [hM]
    cases n <;> rfl
  rw [if_neg (by decide)]
  dsimp only
  rw [if_pos rfl, e]
  rfl

/-- **C91, refuted for NaN.** Compiled with the option, `set_number` of a NaN may be undefined behaviour for every integer field, in every
tuple; for integers of 8 and 16 bits it is even if comparisons with a NaN are all false. Without the option it is refused. -/
theorem C91_nan_refuted (F : Fix) (s : RW) (tag : Nat) (double : Bool)
    (hg : (signedInt (tag2genus tag) || unsignedInt (tag2genus tag)) = true) (hc : isLooseCollection tag = false) :
    (∃ M : Math, M.finiteOnly = true ∧ M.setReal F s tag double .nan = .ub) ∧
    (tag2genus tag ∈ [Genus.i8, .u8, .i16, .u16] → Math.setReal ⟨true, false, false, false, false⟩ F s tag double .nan = .ub) ∧
    Math.strict.setReal F s tag double .nan = .exc .valueRange s := by
  refine ⟨⟨⟨true, false, false, true, true⟩, rfl, ?_⟩, fun h => ?_, ?_⟩
  · unfold Math.setReal
    rw [hc]
    generalize tag2genus tag = g at hg
    cases g <;> first | rfl | exact absurd hg (by decide)
  · unfold Math.setReal
    rw [hc]
    generalize tag2genus tag = g at hg h
    cases g <;> first | rfl | exact absurd h (by decide)
  · unfold Math.setReal
    rw [hc]
    rfl

/-- The hypotheses are met: tokens of a `float`, a `double` and an integer; the infinities; a finite number. -/
example : tag2genus (fix .f32 3) = .f32 ∧ tag2genus (fix .f64 3) = .f64 ∧ isLooseCollection (fix .f32 3) = false ∧
    (signedInt (tag2genus (fix .i16 7)) || unsignedInt (tag2genus (fix .i16 7))) = true ∧ isLooseCollection (fix .i16 7) = false := by
  decide +kernel
example : fltOf 52 11 (2047 * 2 ^ 52) = .inf false ∧ fltOf 52 11 (4095 * 2 ^ 52) = .inf true ∧ fltOf 52 11 0x4004000000000000 = .fin (5 / 2) := by
  refine ⟨rfl, rfl, ?_⟩
  exact fltOf_fin (by decide +kernel)

end Fptu.Props
