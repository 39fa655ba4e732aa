import Verif.Props.TupleLayout
/-!
# C09–C15: concrete histories, and the histories on which the code violates the properties
-/
namespace Fptu.Props
open Fptu Fptu.Gear Fptu.Rw

/-! ## Deciding whether a concrete step is benign -/

/-- Boolean form of `StepBenign`. -/
def stepBenignB (F : Fix) (s : RW) (op : Op) : Bool :=
  let noPart (g : Genus) (v : Val) : Bool := F.loose || match unitsFor g v with
    | none => true
    | some n => n == 0 || match lookupBest s n with
      | some (some x) => s.units x == n || s.units x == 2 * n
      | _ => true
  match op with
  | .set tag g v => noPart g v && (F.swap || decide (0 < s.head) || decide (s.jv = 0) || g.isFixed) && (F.rel || decide (0 < s.head) || isLoose tag)
  | .insert _ g v => noPart g v && (F.swap || decide (0 < s.head) || decide (s.jv = 0) || g.isFixed)
  | .erase tag => F.rel || decide (0 < s.head) || isLoose tag

def runBenignB (F : Fix) : RW → List Op → Bool
  | _, [] => true
  | s, op :: ops => stepBenignB F s op && match step F s op with
    | .ok _ s' => runBenignB F s' ops
    | .exc _ s' => runBenignB F s' ops
    | .ub => true

theorem stepBenign_of {F : Fix} {s : RW} {op : Op} (h : stepBenignB F s op = true) : StepBenign F s op := by
  have part : ∀ g v, (F.loose || match unitsFor g v with
      | none => true
      | some n => n == 0 || match lookupBest s n with
        | some (some x) => s.units x == n || s.units x == 2 * n
        | _ => true) = true → F.loose = true ∨ ∀ n, needs g v n → 0 < n → ∀ x, lookupBest s n = some (some x) → s.units x = n ∨ s.units x = 2 * n := by
    intro g v h
    rw [Bool.or_eq_true] at h
    rcases h with h | h
    · exact Or.inl h
    · right
      intro n hn hn0 x hx
      have e : unitsFor g v = some n := by
        unfold needs at hn
        unfold unitsFor
        split_ifs at * with hf
        · rw [hn]
        · rw [hn]
      rw [e] at h
      simp only [hx] at h
      rw [Bool.or_eq_true, Bool.or_eq_true, beq_iff_eq, beq_iff_eq, beq_iff_eq] at h
      rcases h with h | h
      · omega
      · exact h
  cases op with
  | set tag g v =>
    simp only [stepBenignB] at h
    rw [Bool.and_eq_true, Bool.and_eq_true] at h
    obtain ⟨⟨h1, h2⟩, h3⟩ := h
    refine ⟨⟨part g v h1, ?_⟩, ?_⟩
    · rw [Bool.or_eq_true, Bool.or_eq_true, Bool.or_eq_true, decide_eq_true_eq, decide_eq_true_eq] at h2
      tauto
    · rw [Bool.or_eq_true, Bool.or_eq_true, decide_eq_true_eq] at h3
      tauto
  | insert tag g v =>
    simp only [stepBenignB] at h
    rw [Bool.and_eq_true] at h
    obtain ⟨h1, h2⟩ := h
    refine ⟨part g v h1, ?_⟩
    rw [Bool.or_eq_true, Bool.or_eq_true, Bool.or_eq_true, decide_eq_true_eq, decide_eq_true_eq] at h2
    tauto
  | erase tag =>
    simp only [stepBenignB] at h
    rw [Bool.or_eq_true, Bool.or_eq_true, decide_eq_true_eq] at h
    show _ ∨ _
    tauto

theorem runBenign_of {F : Fix} {s : RW} {ops : List Op} (h : runBenignB F s ops = true) : RunBenign F s ops := by
  induction ops generalizing s with
  | nil => trivial
  | cons op ops ih =>
    rw [runBenignB, Bool.and_eq_true] at h
    refine ⟨stepBenign_of h.1, ?_⟩
    have h2 := h.2
    cases hs : step F s op with
    | ok u t => rw [hs] at h2; exact ih h2
    | exc e t => rw [hs] at h2; exact ih h2
    | ub => trivial

/-- Boolean form of `OpOk` for operations on loose fields. -/
def looseOpB : Op → Bool
  | .set tag g v => decide (tag2genus tag ≠ .hole) && isLoose tag && v.fits g
  | .insert tag g v => decide (tag2genus tag ≠ .hole) && isLoose tag && v.fits g
  | .erase tag => decide (tag2genus tag ≠ .hole) && isLoose tag

theorem opOk_of {σ : Sch} {pre : Nat} {ops : List Op} (h : ops.all looseOpB = true) : ∀ op ∈ ops, OpOk σ pre op := by
  intro op hop
  have h := List.all_eq_true.1 h op hop
  have tok : ∀ tag, tag2genus tag ≠ .hole → isLoose tag = true → TokenOk σ pre tag := by
    intro tag h1 h2
    refine ⟨h1, fun hp => ?_⟩
    rw [preplaced_not_loose, h2] at hp; cases hp
  cases op with
  | set tag g v =>
    simp only [looseOpB, Bool.and_eq_true, decide_eq_true_eq] at h
    exact ⟨tok _ h.1.1 h.1.2, h.2⟩
  | insert tag g v =>
    simp only [looseOpB, Bool.and_eq_true, decide_eq_true_eq] at h
    exact ⟨tok _ h.1.1 h.1.2, h.2⟩
  | erase tag =>
    simp only [looseOpB, Bool.and_eq_true, decide_eq_true_eq] at h
    exact tok _ h.1 h.2

/-- The schema without preplaced fields. -/
def noPre : Sch := fun _ => none

/-- A fresh tuple without preplaced fields. -/
def fresh (items lim : Nat) : RW := create (fun _ => .zero) items 0 lim []

theorem fresh_ok {items lim : Nat} (h1 : items ≤ lim) (h2 : lim ≤ 65534) : Fresh noPre 0 (fresh items lim) :=
  ⟨⟨fun _ => .zero, items, lim, [], rfl, h1, h2, fun _ _ h => (by cases h), rfl⟩, fun _ _ h => (by cases h)⟩

/-! ## Building blocks of the histories -/

/-- Loose tokens: a nested tuple, fixed-size fields. -/
def nst (id : Nat) : Nat := makeTag .nested id false false false
def fix (g : Genus) (id : Nat) : Nat := makeTag g id false false false
/-- A nested tuple of `n` units. -/
def nstVal (n k : Nat) : Val := .nested (some (⟨n, 0⟩ :: List.replicate (n - 1) ⟨k, k⟩))
def unitsVal (n k : Nat) : Val := .units ((List.range n).map fun i => ⟨i + k, 7⟩)

def setN (id n : Nat) : Op := .set (nst id) .nested (nstVal n id)
def eraseN (id : Nat) : Op := .erase (nst id)
def setF (g : Genus) (id k : Nat) : Op := .set (fix g id) g (unitsVal g.looseUnits k)

/-! ## Histories on which the theorems speak about the code as it is -/

/-- Six fields are set, resized, erased and reused; no defect shows. -/
def goodOps : List Op :=
  [setN 1 3, setN 2 2, setF .u64 3 5, eraseN 1, setF .bin96 4 9, setN 2 5, .erase (fix .u64 3), setN 5 2,
   .set (fix .i16 6) .i16 (.inline 700)]

/-- Evaluation of a history together with a decidable statement about its result. -/
theorem run_decide {F : Fix} {s : RW} {ops : List Op} (p : RW → Bool)
    (h : (match run F s ops with | some t => p t | none => false) = true) : ∃ t, run F s ops = some t ∧ p t = true := by
  cases hr : run F s ops with
  | none => rw [hr] at h; cases h
  | some t => rw [hr] at h; exact ⟨t, rfl, h⟩

theorem good_run : ∃ s, run .code (fresh 8 60) goodOps = some s ∧ Reachable .code noPre s ∧
    getLoose s (nst 2) .nested = .ok (some (nstVal 5 2)) ∧ getLoose s (fix .i16 6) .i16 = .ok (some (.inline 700)) ∧
    (liveSet s).card = 4 ∧ s.jc = 1 ∧ 0 < s.head ∧ s.lim ≤ s.pivot + s.pre + 2047 := by
  obtain ⟨s, hr, hp⟩ := run_decide (F := .code) (s := fresh 8 60) (ops := goodOps) (fun s => decide (
    getLoose s (nst 2) .nested = .ok (some (nstVal 5 2)) ∧ getLoose s (fix .i16 6) .i16 = .ok (some (.inline 700)) ∧
    (liveSet s).card = 4 ∧ s.jc = 1 ∧ 0 < s.head ∧ s.lim ≤ s.pivot + s.pre + 2047)) (by decide +kernel)
  exact ⟨s, hr, (fresh_ok (by decide) (by decide)).reachable (opOk_of (by decide +kernel))
    (runBenign_of (by decide +kernel)) hr, of_decide_eq_true hp⟩

/-- A further step after `goodOps`. -/
theorem good_step (op : Op) (p : RW → RW → Bool) (ho : looseOpB op = true)
    (h : (match run .code (fresh 8 60) goodOps with
      | some t => stepBenignB .code t op && (match step .code t op with | .ok _ t' => p t t' | _ => false)
      | none => false) = true) :
    ∃ s s', Reachable .code noPre s ∧ OpOk noPre s.pre op ∧ StepBenign .code s op ∧ step .code s op = .ok () s' ∧ p s s' = true := by
  obtain ⟨s, hr, hre, _⟩ := good_run
  rw [hr] at h
  simp only [Bool.and_eq_true] at h
  cases hs : step .code s op with
  | ub => rw [hs] at h; cases h.2
  | exc e t => rw [hs] at h; cases h.2
  | ok u t => rw [hs] at h; exact ⟨s, t, hre, opOk_of (ops := [op]) (by simpa using ho) op List.mem_cons_self, stepBenign_of h.1, hs, h.2⟩

/-- `C09_set_partial` applies: a nested tuple grows from five to seven units. -/
example : ∃ s s', Reachable .code noPre s ∧ StepBenign .code s (setN 2 7) ∧
    setField .code s (nst 2) .nested (nstVal 7 2) = .ok () s' ∧ ¬ dropped (nst 2) .nested (nstVal 7 2) := by
  obtain ⟨s, s', h1, _, h2, h3, _⟩ := good_step (setN 2 7) (fun _ _ => true) (by decide +kernel) (by decide +kernel)
  refine ⟨s, s', h1, h2, h3, ?_⟩
  rintro (h | h)
  · exact absurd h.2 (by decide)
  · cases h

/-- `C09_unset_partial` applies: an absent nested tuple removes the field. -/
example : ∃ s s', Reachable .code noPre s ∧ StepBenign .code s (.set (nst 2) .nested (.nested none)) ∧
    setField .code s (nst 2) .nested (.nested none) = .ok () s' ∧ dropped (nst 2) .nested (.nested none) ∧
    (liveSet s').card + 1 = (liveSet s).card := by
  obtain ⟨s, s', h1, _, h2, h3, h4⟩ := good_step (.set (nst 2) .nested (.nested none))
    (fun s s' => decide ((liveSet s').card + 1 = (liveSet s).card)) (by decide +kernel) (by decide +kernel)
  exact ⟨s, s', h1, h2, h3, Or.inr rfl, of_decide_eq_true h4⟩

/-- `C10_insert_partial` applies: a value of one unit takes half of the hole of two units. -/
example : ∃ s s' r, Reachable .code noPre s ∧ StepBenign .code s (.insert (makeTag .u32 9 true false false) .u32 (unitsVal 1 3)) ∧
    insertField .code s (makeTag .u32 9 true false false) .u32 (unitsVal 1 3) = .ok r s' ∧ s'.jv = 1 ∧ s.jv = 2 := by
  obtain ⟨s, s', h1, _, h2, h3, h4⟩ := good_step (.insert (makeTag .u32 9 true false false) .u32 (unitsVal 1 3))
    (fun s s' => decide (s'.jv = 1 ∧ s.jv = 2)) (by decide +kernel) (by decide +kernel)
  cases hi : insertField .code s (makeTag .u32 9 true false false) .u32 (unitsVal 1 3) with
  | ub => rw [step, hi] at h3; cases h3
  | exc e t => rw [step, hi] at h3; cases h3
  | ok r t =>
    rw [step, hi] at h3
    injection h3 with _ h3
    subst h3
    exact ⟨s, t, r, h1, h2, hi, of_decide_eq_true h4⟩

/-- `C11_erase_single` applies: one of four fields is erased. -/
example : ∃ s s', Reachable .code noPre s ∧ step .code s (eraseN 2) = .ok () s' ∧ (liveSet s').card = 3 := by
  obtain ⟨s, s', h1, _, h2, h3, h4⟩ := good_step (eraseN 2)
    (fun _ s' => decide ((liveSet s').card = 3)) (by decide +kernel) (by decide +kernel)
  exact ⟨s, s', h1, h3, of_decide_eq_true h4⟩

/-- Two values of a collection and one other field. -/
def colOps : List Op := [.insert (makeTag .u32 9 true false false) .u32 (unitsVal 1 3), setN 1 3,
  .insert (makeTag .u32 9 true false false) .u32 (unitsVal 1 4)]

/-- `C11_erase_collection` applies: it has two values, both are erased. -/
example : ∃ s, Reachable .code noPre s ∧ (match eraseLoose s (makeTag .u32 9 true false false) with
    | .ok n s' => decide (n = 2 ∧ (liveSet s').card = 1) | _ => false) = true := by
  obtain ⟨s, hr, hp⟩ := run_decide (F := .code) (s := fresh 8 60) (ops := colOps) (fun s =>
    match eraseLoose s (makeTag .u32 9 true false false) with
    | .ok n s' => decide (n = 2 ∧ (liveSet s').card = 1) | _ => false) (by decide +kernel)
  exact ⟨s, (fresh_ok (by decide) (by decide)).reachable (opOk_of (by decide +kernel)) (runBenign_of (by decide +kernel)) hr, hp⟩

/-- `C13_failed_partial` and `C15_insert_partial` apply: the buffer has room for one more field only. -/
example : ∃ s, run .code (fresh 2 8) [setN 1 3, setF .u32 2 1] = some s ∧ Reachable .code noPre s ∧
    StepBenign .code s (setF .u64 3 1) ∧ ∃ e s', step .code s (setF .u64 3 1) = .exc e s' := by
  obtain ⟨s, hr, hp⟩ := run_decide (F := .code) (s := fresh 2 8) (ops := [setN 1 3, setF .u32 2 1]) (fun s =>
    stepBenignB .code s (setF .u64 3 1) && match step .code s (setF .u64 3 1) with | .exc _ _ => true | _ => false) (by decide +kernel)
  rw [Bool.and_eq_true] at hp
  refine ⟨s, hr, (fresh_ok (by decide) (by decide)).reachable (opOk_of (by decide +kernel)) (runBenign_of (by decide +kernel)) hr,
    stepBenign_of hp.1, ?_⟩
  have h2 := hp.2
  cases hs : step .code s (setF .u64 3 1) with
  | ub => rw [hs] at h2; cases h2
  | ok u t => rw [hs] at h2; cases h2
  | exc e t => exact ⟨e, t, rfl⟩

/-- `C14_reclaim_partial` applies: after all fields of `goodOps` have been erased in another order. -/
example : ∃ s, Reachable .code noPre s ∧ run .code (fresh 8 60)
    (goodOps ++ [eraseN 2, .erase (fix .i16 6), .erase (fix .bin96 4), eraseN 5]) = some s ∧ liveSet s = ∅ := by
  obtain ⟨s, hr, hp⟩ := run_decide (F := .code) (s := fresh 8 60)
    (ops := goodOps ++ [eraseN 2, .erase (fix .i16 6), .erase (fix .bin96 4), eraseN 5]) (fun s => decide (liveSet s = ∅)) (by decide +kernel)
  exact ⟨s, (fresh_ok (by decide) (by decide)).reachable (opOk_of (by decide +kernel)) (runBenign_of (by decide +kernel)) hr,
    hr, of_decide_eq_true hp⟩

/-! ## gear.cxx:300: a partly used hole moves by its rest instead of by the used part -/

/-- Ten units at the start are freed; three of them are reused; the rest of the hole is now recorded seven units further
instead of three, over the value of the field 2. -/
def overlapOps : List Op := [setF .bin320 1 1, setF .bin160 2 20, .erase (fix .bin320 1), setF .bin96 3 40]

/-- **C12 fails for the code as it is.** Four operations produce a tuple whose free space overlaps a stored value. -/
theorem C12_layout_refuted : Fresh noPre 0 (fresh 5 100) ∧ (∀ op ∈ overlapOps, OpOk noPre 0 op) ∧
    ∃ s, run .code (fresh 5 100) overlapOps = some s ∧ ¬ Layout noPre s := by
  refine ⟨fresh_ok (by decide) (by decide), opOk_of (by decide +kernel), ?_⟩
  obtain ⟨s, hr, hp⟩ := run_decide (F := .code) (s := fresh 5 100) (ops := overlapOps) (fun s => decide (
    s.head = 2 ∧ s.pivot = 5 ∧ 0 < chunkLen noPre s 4 ∧ 0 < chunkLen noPre s 3 ∧
    ¬ (4 + (s.mem 4).lo + chunkLen noPre s 4 ≤ 3 + (s.mem 3).lo ∨ 3 + (s.mem 3).lo + chunkLen noPre s 3 ≤ 4 + (s.mem 4).lo)))
    (by decide +kernel)
  refine ⟨s, hr, fun h => ?_⟩
  obtain ⟨h1, h2, h3, h4, h5⟩ := of_decide_eq_true hp
  exact h5 (h.apart 4 3 (by decide) (by omega) (by omega) (by omega) (by omega) h3 h4)

/-- **C09 fails for the code as it is.** In the tuple of `C12_layout_refuted`, setting a fourth field changes the value of
the second one. -/
theorem C09_set_refuted : ∃ s s', run .code (fresh 5 100) overlapOps = some s ∧
    setField .code s (fix .bin224 4) .bin224 (unitsVal 7 60) = .ok () s' ∧
    getLoose s (fix .bin160 2) .bin160 = .ok (some (.units [⟨20, 7⟩, ⟨21, 7⟩, ⟨22, 7⟩, ⟨23, 7⟩, ⟨24, 7⟩])) ∧
    getLoose s' (fix .bin160 2) .bin160 = .ok (some (.units [⟨63, 7⟩, ⟨64, 7⟩, ⟨65, 7⟩, ⟨66, 7⟩, ⟨24, 7⟩])) := by
  obtain ⟨s, hr, hp⟩ := run_decide (F := .code) (s := fresh 5 100) (ops := overlapOps) (fun s =>
    match setField .code s (fix .bin224 4) .bin224 (unitsVal 7 60) with
    | .ok _ s' => decide (
      getLoose s (fix .bin160 2) .bin160 = .ok (some (.units [⟨20, 7⟩, ⟨21, 7⟩, ⟨22, 7⟩, ⟨23, 7⟩, ⟨24, 7⟩])) ∧
      getLoose s' (fix .bin160 2) .bin160 = .ok (some (.units [⟨63, 7⟩, ⟨64, 7⟩, ⟨65, 7⟩, ⟨66, 7⟩, ⟨24, 7⟩])))
    | _ => false) (by decide +kernel)
  cases hs : setField .code s (fix .bin224 4) .bin224 (unitsVal 7 60) with
  | ub => rw [hs] at hp; cases hp
  | exc e s' => rw [hs] at hp; cases hp
  | ok u s' => rw [hs] at hp; exact ⟨s, s', hr, hs, of_decide_eq_true hp⟩

/-- A token of a collection. -/
def col (g : Genus) (id : Nat) : Nat := makeTag g id true false false

/-- **C10 fails for the code as it is.** In the same tuple, inserting a value changes another field. -/
theorem C10_insert_refuted : ∃ s s' r, run .code (fresh 5 100) overlapOps = some s ∧
    insertField .code s (col .bin224 4) .bin224 (unitsVal 7 60) = .ok r s' ∧
    getLoose s (fix .bin160 2) .bin160 = .ok (some (.units [⟨20, 7⟩, ⟨21, 7⟩, ⟨22, 7⟩, ⟨23, 7⟩, ⟨24, 7⟩])) ∧
    getLoose s' (fix .bin160 2) .bin160 = .ok (some (.units [⟨63, 7⟩, ⟨64, 7⟩, ⟨65, 7⟩, ⟨66, 7⟩, ⟨24, 7⟩])) := by
  obtain ⟨s, hr, hp⟩ := run_decide (F := .code) (s := fresh 5 100) (ops := overlapOps) (fun s =>
    match insertField .code s (col .bin224 4) .bin224 (unitsVal 7 60) with
    | .ok _ s' => decide (
      getLoose s (fix .bin160 2) .bin160 = .ok (some (.units [⟨20, 7⟩, ⟨21, 7⟩, ⟨22, 7⟩, ⟨23, 7⟩, ⟨24, 7⟩])) ∧
      getLoose s' (fix .bin160 2) .bin160 = .ok (some (.units [⟨63, 7⟩, ⟨64, 7⟩, ⟨65, 7⟩, ⟨66, 7⟩, ⟨24, 7⟩])))
    | _ => false) (by decide +kernel)
  cases hs : insertField .code s (col .bin224 4) .bin224 (unitsVal 7 60) with
  | ub => rw [hs] at hp; cases hp
  | exc e s' => rw [hs] at hp; cases hp
  | ok r s' => rw [hs] at hp; exact ⟨s, s', r, hr, hs, of_decide_eq_true hp⟩

/-- Set, partly reuse, erase everything. -/
def leakOps : List Op := [setN 3 3, setN 4 2, eraseN 3, setN 1 2, eraseN 1, eraseN 4]

/-- **C14 fails for the code as it is.** After every field has been erased, the tuple still occupies three index slots and
three payload units. -/
theorem C14_reclaim_refuted : Fresh noPre 0 (fresh 4 30) ∧ (∀ op ∈ leakOps, OpOk noPre 0 op) ∧
    ∃ s, run .code (fresh 4 30) leakOps = some s ∧ liveSet s = ∅ ∧ s.head = 1 ∧ s.pivot = 4 ∧ s.tail = 7 ∧ s.jc = 3 ∧ s.jv = 3 := by
  refine ⟨fresh_ok (by decide) (by decide), opOk_of (by decide +kernel), ?_⟩
  obtain ⟨s, hr, hp⟩ := run_decide (F := .code) (s := fresh 4 30) (ops := leakOps) (fun s => decide (
    (liveSet s) = ∅ ∧ s.head = 1 ∧ s.pivot = 4 ∧ s.tail = 7 ∧ s.jc = 3 ∧ s.jv = 3)) (by decide +kernel)
  exact ⟨s, hr, of_decide_eq_true hp⟩

/-! ## gear.cxx:591: the hole left behind by a moved value can end up outside the payload -/

def swapOps : List Op := [setN 1 3, setN 4 3, setN 6 2, setN 1 4, setN 6 4, setN 6 3, eraseN 1]

/-- **C12 fails for the code as it is**, also when no hole is ever used partly: after seven operations the tuple has a
hole that ends four units past the end of its payload. -/
theorem C12_swap_refuted : Fresh noPre 0 (fresh 5 30) ∧ (∀ op ∈ swapOps, OpOk noPre 0 op) ∧
    ∀ F ∈ [Fix.code, ⟨true, false, true⟩], ∃ s, run F (fresh 5 30) swapOps = some s ∧ ¬ Layout noPre s := by
  refine ⟨fresh_ok (by decide) (by decide), opOk_of (by decide +kernel), fun F hF => ?_⟩
  obtain ⟨s, hr, hp⟩ := run_decide (F := F) (s := fresh 5 30) (ops := swapOps) (fun s => decide (
    s.head = 2 ∧ s.pivot = 5 ∧ 0 < chunkLen noPre s 4 ∧ s.tail < 4 + (s.mem 4).lo + chunkLen noPre s 4)) (by
      rw [List.mem_cons, List.mem_singleton] at hF
      rcases hF with rfl | rfl <;> decide +kernel)
  refine ⟨s, hr, fun h => ?_⟩
  obtain ⟨h1, h2, h3, h4⟩ := of_decide_eq_true hp
  have := (h.inside 4 (by omega) (by omega) h3).2
  omega

/-! ## gear.cxx:393: releasing the value of a preplaced field counts the junk before it can fail -/

/-- A schema with one preplaced nested tuple. -/
def onePre : Sch := fun k => if k = 0 then some .nested else none
def preTok : Nat := tagFromOffset 0 .nested 4 false false

theorem onePre_fresh : Fresh onePre 1 (create (fun _ => .zero) 1 1 40 [.zero]) := by
  refine ⟨⟨fun _ => .zero, 1, 40, [.zero], rfl, by decide, by decide, fun k g _ hk => ?_, rfl⟩, fun k g h => ?_⟩
  · have : k = 0 := by omega
    subst this; rfl
  · unfold onePre at h
    split_ifs at h
    injection h with h
    subst h; rfl

def failOps : List Op := [.set preTok .nested (nstVal 3 5), setF .u32 1 9]

theorem failOps_ok : ∀ op ∈ failOps ++ [.set preTok .nested (.nested none)], OpOk onePre 1 op := by
  have tok : TokenOk onePre 1 preTok := ⟨by decide +kernel, fun _ => by
    rw [if_neg (by decide +kernel)]
    exact ⟨by decide +kernel, by decide +kernel⟩⟩
  have tok2 : TokenOk onePre 1 (fix .u32 1) := ⟨by decide +kernel, fun h => by
    have : isPreplaced (fix .u32 1) = false := by decide +kernel
    rw [this] at h; cases h⟩
  intro op hop
  rw [failOps, List.cons_append, List.cons_append, List.nil_append, List.mem_cons, List.mem_cons, List.mem_singleton] at hop
  rcases hop with rfl | rfl | rfl
  · exact ⟨tok, by decide +kernel⟩
  · exact ⟨tok2, by decide +kernel⟩
  · exact ⟨tok, by decide +kernel⟩

/-- **C13 and C12 fail for the code as it is.** When the index is full, dropping the value of a preplaced field throws, and
the tuple is not what it was: three units of junk are counted that no hole accounts for. -/
theorem C13_failed_set_refuted : ∃ s s', run .code (create (fun _ => .zero) 1 1 40 [.zero]) failOps = some s ∧
    setField .code s preTok .nested (.nested none) = .exc (.insufficientSpace 1 0) s' ∧ s.jv = 0 ∧ s'.jv = 3 := by
  obtain ⟨s, hr, hp⟩ := run_decide (F := .code) (s := create (fun _ => .zero) 1 1 40 [.zero]) (ops := failOps) (fun s =>
    match setField .code s preTok .nested (.nested none) with
    | .exc e s' => decide (e = .insufficientSpace 1 0 ∧ s.jv = 0 ∧ s'.jv = 3)
    | _ => false) (by decide +kernel)
  cases hs : setField .code s preTok .nested (.nested none) with
  | ub => rw [hs] at hp; cases hp
  | ok u s' => rw [hs] at hp; cases hp
  | exc e s' =>
    rw [hs] at hp
    obtain ⟨h1, h2⟩ := of_decide_eq_true hp
    subst h1
    exact ⟨s, s', hr, hs, h2⟩

theorem C12_release_refuted : ∃ s, run .code (create (fun _ => .zero) 1 1 40 [.zero])
    (failOps ++ [.set preTok .nested (.nested none)]) = some s ∧ ¬ Layout onePre s := by
  obtain ⟨s, hr, hp⟩ := run_decide (F := .code) (s := create (fun _ => .zero) 1 1 40 [.zero])
    (ops := failOps ++ [.set preTok .nested (.nested none)]) (fun s => decide (s.jv = 3 ∧
    ∑ a ∈ (Finset.Ico s.head s.pivot).filter (fun a => (s.mem a).hi / 2048 = 31), (s.mem a).hi % 2048 = 0)) (by decide +kernel)
  refine ⟨s, hr, fun h => ?_⟩
  obtain ⟨h1, h2⟩ := of_decide_eq_true hp
  have := h.volume
  rw [h2] at this
  omega

/-! ## field.h:432-434: a hole of more than 2047 units does not fit its descriptor -/

def bigOps : List Op := [setN 1 2500, setF .u32 2 9, eraseN 1]

/-- **C12 fails for large holes**, whatever else is repaired: setting a field of 2500 units, another field, and erasing the
first one is undefined behaviour (an assertion, or a corrupted index when assertions are off). -/
theorem C12_big_hole_refuted : Fresh noPre 0 (fresh 5 60000) ∧ (∀ op ∈ bigOps, OpOk noPre 0 op) ∧
    run .code (fresh 5 60000) bigOps = none ∧ run .repaired (fresh 5 60000) bigOps = none :=
  ⟨fresh_ok (by decide) (by decide), opOk_of (by decide +kernel), by decide +kernel, by decide +kernel⟩

def smallHoleB (s : RW) : Op → Bool
  | .set tag _ _ => decide (s.jv + occupied s tag ≤ 2047)
  | .insert _ _ _ => true
  | .erase tag => decide (s.jv + occupied s tag ≤ 2047)

/-- Boolean form of `SmallHoles`. -/
def smallHolesB (F : Fix) : RW → List Op → Bool
  | _, [] => true
  | s, op :: ops => smallHoleB s op && match step F s op with
    | .ok _ s' => smallHolesB F s' ops
    | .exc _ s' => smallHolesB F s' ops
    | .ub => true

theorem smallHoles_decide {F : Fix} {s : RW} {ops : List Op} (h : smallHolesB F s ops = true) : SmallHoles F s ops := by
  induction ops generalizing s with
  | nil => trivial
  | cons op ops ih =>
    rw [smallHolesB, Bool.and_eq_true] at h
    refine ⟨?_, ?_⟩
    · have h1 := h.1
      cases op with
      | set tag g v => exact not_lt.2 (of_decide_eq_true h1)
      | insert tag g v => exact id
      | erase tag => exact not_lt.2 (of_decide_eq_true h1)
    · have h2 := h.2
      cases hs : step F s op with
      | ok u t => rw [hs] at h2; exact ih h2
      | exc e t => rw [hs] at h2; exact ih h2
      | ub => trivial

/-- A history in a large buffer: values of 2500, 1200 and 700 units, the second erased and its hole used again, the third shortened. -/
def roomyOps : List Op := [setN 1 2500, setN 2 1200, setN 3 700, setF .u32 4 9, eraseN 2, setN 5 1200, setN 3 300]

/-- `C12_no_undefined_partial` applies to a tuple of more than 4000 units; `bigOps` is excluded by `SmallHoles` alone. -/
example : ∃ s, run .code (fresh 6 60000) roomyOps = some s ∧ Layout noPre s ∧ s.base + 4000 < s.tail := by
  have ho : ∀ op ∈ roomyOps, OpOk noPre 0 op := opOk_of (by decide +kernel)
  have hb : RunBenign .code (fresh 6 60000) roomyOps := runBenign_of (by decide +kernel)
  have hs : SmallHoles .code (fresh 6 60000) roomyOps := smallHoles_decide (by decide +kernel)
  obtain ⟨s, hr, hp⟩ := run_decide (F := .code) (s := fresh 6 60000) (ops := roomyOps) (fun s => decide (s.base + 4000 < s.tail)) (by decide +kernel)
  obtain ⟨s', hr', hl⟩ := C12_no_undefined_partial (fresh_ok (by decide) (by decide)) ho hb (Or.inr hs)
  rw [hr] at hr'
  exact ⟨s, hr, by rw [Option.some.inj hr']; exact hl, of_decide_eq_true hp⟩

/-- The tuple of `roomyOps`: more than 4000 units of payload, 400 units of junk. -/
theorem roomy_run : ∃ s, Reachable .code noPre s ∧ s.base + 4000 < s.tail ∧ s.jv = 400 ∧ occupied s (nst 5) = 1200 ∧
    unitsWhere s (· = Genus.nested.code * 2048 + 3) = 300 ∧ (StepBenign .code s (.erase (nst 5))) ∧ s.lookup (tag2gid (nst 5)) = some 4 ∧
    Benign .code s .nested (nstVal 200 1) := by
  obtain ⟨s, hr, hp⟩ := run_decide (F := .code) (s := fresh 6 60000) (ops := roomyOps) (fun s => decide (s.base + 4000 < s.tail ∧ s.jv = 400 ∧
      occupied s (nst 5) = 1200 ∧ unitsWhere s (· = Genus.nested.code * 2048 + 3) = 300 ∧ s.lookup (tag2gid (nst 5)) = some 4) &&
      stepBenignB .code s (.set (nst 3) .nested (nstVal 200 1))) (by decide +kernel)
  rw [Bool.and_eq_true] at hp
  obtain ⟨h1, h2, h3, h4, h5⟩ := of_decide_eq_true hp.1
  exact ⟨s, (fresh_ok (by decide) (by decide)).reachable (opOk_of (by decide +kernel)) (runBenign_of (by decide +kernel)) hr, h1, h2, h3, h4,
    Or.inr (Or.inr (by decide)), h5, (stepBenign_of hp.2).1⟩

/-- `C12_step_partial` applies to it. -/
example : ∃ s, Reachable .code noPre s ∧ s.base + 4000 < s.tail ∧ step .code s (.erase (nst 5)) ≠ .ub := by
  obtain ⟨s, hre, h1, h2, h3, _, h5, _, _⟩ := roomy_run
  refine ⟨s, hre, h1, C12_step_partial hre ⟨by decide, fun k => absurd k (by decide)⟩ h5 ?_⟩
  rintro tag (k | ⟨g, v, k⟩)
  · injection k with k
    rw [← k, h2, h3]; decide
  · cases k

/-- When assertions are off, the descriptor of a hole of `n` units, `2048 ≤ n < 4096`, is that of the text field `n - 2048`:
the erased space becomes a field nobody has set. -/
theorem C12_phantom_field {n : Nat} (h1 : 2048 ≤ n) (h2 : n < 4096) :
    holeWordWrapped n = makeTag .text (n - 2048) false false false % 65536 := by
  have e : Genus.code .text = 0 := rfl
  have e2 : looseThreshold = 4294443008 := by decide
  unfold holeWordWrapped makeTag
  rw [e, e2, if_neg (by decide), if_neg (by decide), if_neg (by decide)]
  omega

/-! ## getter.h:212-217: `exist` of preplaced fields is inverted -/

/-- **C11 fails for preplaced fields of fixed size**: in every tuple, if the getter returns a value, erasing the field
changes nothing and reports that there was nothing to erase. -/
theorem C11_preplaced_fixed_refuted (F : Fix) (s : RW) (tag : Nat) (g : Genus) (bs : List Nat)
    (hfx : g.isFixed = true) (h : getPreplacedFixed s tag g = .ok bs) : erasePreplaced F s tag = .ok false s := by
  unfold getPreplacedFixed at h
  by_cases hg : tag2genus tag = g
  · rw [if_neg (fun h => h hg)] at h
    by_cases hd : isDiscernible tag = true ∧ s.mem.readBytes (4 * s.pivot + tag2offset tag) g.preplacedBytes = denilBytes g
    · simp only at h
      rw [if_pos hd] at h; cases h
    · unfold erasePreplaced preplacedExist preplacedIsNull
      simp only
      rw [if_neg]
      rw [hg, hfx, Bool.and_eq_true, decide_eq_true_eq]
      exact hd
  · rw [if_pos hg] at h; cases h

/-- **C11 fails for stretchy preplaced fields**: in every reachable tuple, if such a field has a value, erasing it changes
nothing and reports that there was nothing to erase. -/
theorem C11_preplaced_stretchy_refuted {F : Fix} {σ : Sch} {s : RW} {tag : Nat} {v : Val} (hr : Reachable F σ s)
    (hs : StretchySlot σ s.pre tag (tag2genus tag)) (h4 : tag2offset tag % 4 = 0)
    (hv : valueAt (tag2genus tag) s.mem (s.pivot + tag2offset tag / 4) = some v) : erasePreplaced F s tag = .ok false s := by
  have hw := hr.wf
  have hfx := hw.sch _ _ hs.2
  have hni : ∀ g : Genus, g.isFixed = false → g.isInplaced = false ∧ g.preplacedBytes = 4 ∧ denilBytes g = [0, 0, 0, 0] := by
    intro g; cases g <;> decide
  obtain ⟨n1, n2, n3⟩ := hni _ hfx
  unfold valueAt at hv
  rw [n1, hfx, if_neg (by decide)] at hv
  set a := s.pivot + tag2offset tag / 4 with ha
  have hlo : (s.mem a).lo ≠ 0 := by
    intro c
    rw [if_neg (by rintro (h | h); cases h; exact h c)] at hv; cases hv
  have hbase : s.base = s.pivot + s.pre := rfl
  have h0 := hs.1
  have hp := hw.inv.hp
  have hpos := hw.pos a _ ⟨hfx, Or.inr ⟨by omega, by omega, by rw [ha, Nat.add_sub_cancel_left]; exact hs.2⟩⟩ hlo
  have hlen : chunkLen σ s a = lenOf σ s a := by
    unfold chunkLen; rw [if_neg]; rintro ⟨h, _⟩; omega
  have hin := (layout_of_wf hw).inside a (by omega) (by omega) (by rw [hlen]; exact hpos)
  have h16 := hw.inv.lt16
  unfold erasePreplaced preplacedExist preplacedIsNull
  simp only
  rw [if_neg]
  rw [Bool.and_eq_true, decide_eq_true_eq, n2, n3]
  rintro ⟨_, hb⟩
  have e4 : 4 * s.pivot + tag2offset tag = 4 * a := by omega
  rw [e4] at hb
  have b0 : s.mem.byte (4 * a) = 0 := by
    have := congrArg (fun l => l[0]?) hb
    simpa [Memory.readBytes] using this
  have b1 : s.mem.byte (4 * a + 1) = 0 := by
    have := congrArg (fun l => l[1]?) hb
    simpa [Memory.readBytes] using this
  unfold Memory.byte at b0 b1
  simp only at b0 b1
  rw [if_pos (by omega), if_pos (by omega), show 4 * a / 4 = a by omega] at b0
  rw [if_neg (by omega), if_pos (by omega), show (4 * a + 1) / 4 = a by omega] at b1
  omega

/-- A tuple in which both theorems apply to the same history: a preplaced nested tuple has a value, erasing it reports
"nothing erased" and the value is still there. -/
example : ∃ s, run .code (create (fun _ => .zero) 1 1 40 [.zero]) failOps = some s ∧
    getPreplacedStretchy s preTok .nested = .ok (some (nstVal 3 5)) ∧ preplacedExist s preTok = false := by
  obtain ⟨s, hr, hp⟩ := run_decide (F := .code) (s := create (fun _ => .zero) 1 1 40 [.zero]) (ops := failOps) (fun s => decide (
    getPreplacedStretchy s preTok .nested = .ok (some (nstVal 3 5)) ∧ preplacedExist s preTok = false)) (by decide +kernel)
  exact ⟨s, hr, of_decide_eq_true hp⟩

end Fptu.Props
