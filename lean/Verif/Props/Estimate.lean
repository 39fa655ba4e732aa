import Verif.Props.Schema
import Verif.Props.Serial
/-!
# C45: the estimated size of a tuple
-/
namespace Fptu.Props
open Fptu Fptu.Schemas Fptu.Rw Fptu.Gear

theorem stretchy_genus (t : Nat) : isStretchy t = !(tag2genus t).isFixed := by
  have h : ∀ c < 32, (Genus.ofCode c).isFixed = decide (c / 4 ≠ 0) := by decide
  have hc : tag2genusCode t < 32 := by rw [tag2genusCode_eq]; omega
  have h1 : (tag2genus t).isFixed = decide (tag2genusCode t / 4 ≠ 0) := h _ hc
  unfold isStretchy
  rw [h1, isFixedSize_iff, tag2genusCode_eq]
  congr 1
  exact decide_eq_decide.2 (by omega)

/-- Bytes of the value itself, without the header of its representation. -/
def contentBytes : Val → Nat
  | .text v | .varbin v | .property v _ => v.length
  | .nested (some v) => 4 * (v.length - 1)
  | _ => 0

/-- Units of the payload of a field with the value. -/
def payloadUnitsOf (g : Genus) (v : Val) : Nat :=
  if g.isFixed then g.looseUnits else match v.estimate with | .ok u => u | .error _ => 0

/-- Units a field takes in a tuple besides the preplaced area: a loose field its index slot and its payload (if it needs one),
a stretchy preplaced field its payload. -/
def unitsOf (t : Nat) (v : Val) : Nat :=
  if isPreplaced t then (if (tag2genus t).isFixed then 0 else payloadUnitsOf (tag2genus t) v)
  else 1 + payloadUnitsOf (tag2genus t) v

/-- End of the preplaced area the tokens need. -/
def areaOf (tokens : List Nat) : Nat := (tokens.map fun t => if isPreplaced t then tag2offset t + tag2indysize t else 0).foldr max 0

theorem foldl_estimate (avg : Nat) (tokens : List Nat) (acc : Nat × Nat) :
    (tokens.foldl (estimateStep avg) acc).1 = max acc.1 (areaOf tokens) ∧
    (tokens.foldl (estimateStep avg) acc).2 = acc.2 + (tokens.map fun t => (estimateStep avg (0, 0) t).2).sum := by
  induction tokens generalizing acc with
  | nil => exact ⟨(Nat.max_zero _).symm, rfl⟩
  | cons t ts ih =>
    obtain ⟨h1, h2⟩ := ih (estimateStep avg acc t)
    have a1 : (estimateStep avg acc t).1 = max acc.1 (if isPreplaced t then tag2offset t + tag2indysize t else 0) := by
      unfold estimateStep
      split_ifs <;> simp
    have a2 : (estimateStep avg acc t).2 = acc.2 + (estimateStep avg (0, 0) t).2 := by
      unfold estimateStep
      split_ifs <;> simp only [] <;> omega
    constructor
    · rw [List.foldl_cons, h1, a1]
      show _ = max acc.1 (max _ (areaOf ts))
      rw [Nat.max_assoc]
    · rw [List.foldl_cons, h2, a2, List.map_cons, List.sum_cons]; omega

theorem estimate_eq (tokens : List Nat) (avg : Nat) :
    estimateTupleSize tokens avg = max 4 (areaOf tokens) + 4 * (tokens.map fun t => (estimateStep avg (0, 0) t).2).sum := by
  unfold estimateTupleSize
  obtain ⟨h1, h2⟩ := foldl_estimate avg tokens (4, 0)
  simp only [h1, h2]
  unfold units2bytes
  rw [Nat.shiftLeft_eq]; omega

theorem payload_le {g : Genus} {v : Val} {avg : Nat} (hf : v.fits g = true) (ha : contentBytes v ≤ avg) (hs : g.isFixed = false) :
    payloadUnitsOf g v ≤ bytes2units avg + 1 := by
  have b := Audit.b2u'
  unfold payloadUnitsOf
  rw [hs, if_neg (by decide), b]
  cases v with
  | inline x =>
    show 0 ≤ _; omega
  | units cs =>
    show 0 ≤ _; omega
  | text v =>
    have ha : v.length ≤ avg := ha
    unfold Val.estimate Str.estimate
    simp only []
    by_cases h : v.length > Str.maxLength
    · rw [if_pos h]; show 0 ≤ _; omega
    · rw [if_neg h]
      show bytes2units _ ≤ _
      rw [b]; split_ifs <;> omega
  | varbin v =>
    have ha : v.length ≤ avg := ha
    unfold Val.estimate Varbin.estimate
    simp only []
    by_cases h : bytes2units v.length + 1 > 65535
    · rw [if_pos h]; show 0 ≤ _; omega
    · rw [if_neg h]
      show bytes2units _ + 1 ≤ _
      rw [b]; omega
  | property v id =>
    have ha : v.length ≤ avg := ha
    unfold Val.estimate Property.estimate
    simp only []
    by_cases h : v.length > 255
    · rw [if_pos h]; show 0 ≤ _; omega
    · rw [if_neg h]
      show bytes2units _ ≤ _
      rw [b]; omega
  | nested v =>
    cases v with
    | none => show 0 ≤ _; omega
    | some v =>
      have ha : 4 * (v.length - 1) ≤ avg := ha
      show (v.headD .zero).lo ≤ _
      have : (v.headD .zero).lo = v.length := by
        unfold Val.fits at hf
        simp only [Bool.and_eq_true] at hf
        exact (of_decide_eq_true hf.1.2).2
      omega

/-- **C45 (partial).** For any fields and any values of them with at most the expected number of bytes each, the tuple without holes
that holds them needs at most 7 bytes and one unit for every field of variable size more than estimated. Missing: the estimate
itself as a bound, which is false (`C45_refuted`, `C45_stretchy_refuted`). -/
theorem C45_bound_partial (fields : List (Nat × Val)) (avg : Nat)
    (h : ∀ p ∈ fields, p.2.fits (tag2genus p.1) = true ∧ contentBytes p.2 ≤ avg) :
    4 * (1 + bytes2units (areaOf (fields.map Prod.fst)) + (fields.map fun p => unitsOf p.1 p.2).sum) ≤
      estimateTupleSize (fields.map Prod.fst) avg + 7 + 4 * fields.countP (fun p => !(tag2genus p.1).isFixed) := by
  have key : (fields.map fun p => unitsOf p.1 p.2).sum ≤
      ((fields.map Prod.fst).map fun t => (estimateStep avg (0, 0) t).2).sum + fields.countP (fun p => !(tag2genus p.1).isFixed) := by
    induction fields with
    | nil => exact Nat.le_refl _
    | cons p l ih =>
      have ih := ih (fun q hq => h q (List.mem_cons_of_mem _ hq))
      obtain ⟨h1, h2⟩ := h p List.mem_cons_self
      have hst := stretchy_genus p.1
      have hh : ∀ g : Genus, g = .hole → g.isFixed = true := by intro g h; subst h; rfl
      have hstep : unitsOf p.1 p.2 ≤ (estimateStep avg (0, 0) p.1).2 + if (!(tag2genus p.1).isFixed) = true then 1 else 0 := by
        unfold unitsOf estimateStep
        cases hf : (tag2genus p.1).isFixed
        · have hp := payload_le h1 h2 hf
          have hne : tag2genus p.1 ≠ .hole := fun k => by rw [hh _ k] at hf; cases hf
          rw [hst, hf]
          by_cases hpre : isPreplaced p.1 = true
          · rw [if_pos hpre, if_pos hpre]
            simp only [Bool.not_false, if_true, Bool.false_eq_true, if_false]
            rw [if_neg hne]
            simp only []
            omega
          · rw [if_neg hpre, if_neg hpre]
            simp only [Bool.not_false, if_true]
            omega
        · rw [hst, hf]
          have hpl : payloadUnitsOf (tag2genus p.1) p.2 = (tag2genus p.1).looseUnits := by unfold payloadUnitsOf; rw [if_pos hf]
          by_cases hpre : isPreplaced p.1 = true
          · rw [if_pos hpre, if_pos rfl]; exact Nat.zero_le _
          · rw [if_neg hpre, if_neg hpre, hpl]
            simp only []
            omega
      rw [List.map_cons, List.map_cons, List.map_cons, List.sum_cons, List.sum_cons, List.countP_cons]
      omega
  rw [estimate_eq, Audit.b2u']
  omega

/-- Two preplaced and two loose fields with values. -/
example : ∀ p ∈ [((75777 : Nat), Val.inline 5), (1114116, .text [1, 2, 3]), (4294705152, .text [7]), (4294453248, .inline 9)],
    p.2.fits (tag2genus p.1) = true ∧ contentBytes p.2 ≤ 42 := by decide +kernel

/-- **C45 (refuted).** For *every* non-empty set of preplaced fields of fixed size, the estimate is less than the size of any tuple
with the preplaced area that holds them: the header of the tuple is not counted. -/
theorem C45_refuted {F : Fix} {σ : Sch} {s : RW} {tokens : List Nat} {avg : Nat} (h : Reachable F σ s)
    (ht : ∀ t ∈ tokens, isPreplaced t = true ∧ (tag2genus t).isFixed = true) (ha : 0 < areaOf tokens)
    (hs : bytes2units (areaOf tokens) ≤ s.pre) : estimateTupleSize tokens avg < Serial.bruttoSize s := by
  have hz : (tokens.map fun t => (estimateStep avg (0, 0) t).2).sum = 0 := by
    rw [List.sum_eq_zero]
    intro x hx
    obtain ⟨t, htm, rfl⟩ := List.mem_map.1 hx
    obtain ⟨h1, h2⟩ := ht t htm
    have hst : isStretchy t = false := by rw [stretchy_genus, h2]; rfl
    unfold estimateStep
    rw [if_pos h1, hst]
    simp only [Bool.false_eq_true, if_false]
    split_ifs <;> rfl
  have := (C40_account h).2.1
  rw [estimate_eq, hz, this]
  rw [Audit.b2u'] at hs
  omega

/-- The hypotheses hold for an empty tuple with one preplaced byte. -/
example (F : Fix) (avg : Nat) : ∃ s : RW, estimateTupleSize [75777] avg < Serial.bruttoSize s ∧ s.pre = 1 :=
  ⟨_, C45_refuted (F := F) (onePre_fresh.reachable (ops := []) (fun _ h => (by cases h)) trivial rfl)
    (by decide +kernel) (by decide +kernel) (by decide +kernel), rfl⟩

/-- **C45 (refuted).** A loose string of exactly the expected length, for every expected length that is a multiple of 4: the byte(s)
with the length are not counted. -/
theorem C45_stretchy_refuted (k : Nat) (hk : 4 * k ≤ Str.maxLength) (t : Nat) (hl : isLoose t = true) (hg : tag2genus t = .text) :
    estimateTupleSize [t] (4 * k) < 4 * (1 + unitsOf t (.text (List.replicate (4 * k) 0))) := by
  have hp : isPreplaced t = false := by rw [preplaced_not_loose, hl]; rfl
  have hst : isStretchy t = true := by rw [stretchy_genus, hg]; rfl
  have hb := Audit.b2u'
  rw [estimate_eq]
  unfold areaOf estimateStep unitsOf payloadUnitsOf Val.estimate Str.estimate
  simp only [List.length_replicate]
  rw [if_neg (show ¬ 4 * k > Str.maxLength by omega)]
  simp only [List.map_cons, List.map_nil, List.foldr_cons, List.foldr_nil, List.sum_cons, List.sum_nil]
  rw [hp, hg, hst]
  simp only [Bool.false_eq_true, if_false, if_true]
  rw [if_neg (by decide), hb, hb]
  show max 4 (max 0 0) + 4 * (0 + 1 + 0 + _ + 0) < _
  split_ifs <;> omega

example : isLoose 4294705152 = true ∧ tag2genus 4294705152 = .text ∧ estimateTupleSize [4294705152] 44 = 52 := by decide +kernel

end Fptu.Props
