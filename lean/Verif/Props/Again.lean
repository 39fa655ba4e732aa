import Verif.Props.Replace
import Verif.Props.Book
/-!
# C80: repeating erasure, compaction and sorting changes nothing; the order of operations on different fields does not matter
-/
namespace Fptu.Props
open Fptu Fptu.Gear Fptu.Rw Fptu.Audit Fptu.Compact

/-! ## Repeating -/

private theorem no_entry {s : RW} {w : Nat} (hw : w / 2048 ≠ 31) (h : (fieldsOf s).countP (fun f => f.1 = w) = 0) : s.lookup w = none := by
  rw [lookup_none hw]
  intro a ha
  rw [Multiset.countP_eq_zero] at h
  exact h (entryAt s a) (Multiset.mem_map.2 ⟨a, mem_liveSet.2 ha.1, rfl⟩) ha.2

private theorem erase_absent {s : RW} {tag : Nat} (h : s.lookup (tag2gid tag) = none) : eraseLoose s tag = .ok 0 s := by
  unfold eraseLoose
  rw [h]
  split_ifs
  · unfold eraseRange; rfl
  · rfl

/-- **C80 (erasing a collection again).** Erasing it once more finds nothing and changes not a byte. -/
theorem C80_erase_collection {F : Fix} {σ : Sch} {s t : RW} {tag n : Nat} (h : Reachable F σ s) (hg : tag2genus tag ≠ .hole)
    (hc : isLooseCollection tag = true) (e : eraseLoose s tag = .ok n t) : eraseLoose t tag = .ok 0 t := by
  obtain ⟨_, _, k⟩ := C11_erase_collection h hg hc
  obtain ⟨_, k2, _⟩ := k n t e
  refine erase_absent ?_
  rw [gid_eq]
  refine no_entry (tag_not_hole hg) ?_
  rw [k2, Multiset.countP_eq_zero]
  intro f hf
  simpa using (Multiset.mem_filter.1 hf).2

/-- **C80 (erasing a field again).** The same of a field that is no collection and has at most one value; it is absent before as after. -/
theorem C80_erase_single {F : Fix} {σ : Sch} {s t : RW} {tag n : Nat} (h : Reachable F σ s) (hg : tag2genus tag ≠ .hole)
    (hc : isLooseCollection tag = false) (h1 : (fieldsOf s).countP (fun f => f.1 = tag % 65536) ≤ 1) (e : eraseLoose s tag = .ok n t) :
    eraseLoose t tag = .ok 0 t := by
  obtain ⟨_, _, k⟩ := C11_erase_single h hg hc
  obtain ⟨_, k2, _⟩ := k n t e
  refine erase_absent ?_
  rw [gid_eq]
  refine no_entry (tag_not_hole hg) ?_
  rw [(k2 h1).1, Multiset.countP_eq_zero]
  intro f hf
  simpa using (Multiset.mem_filter.1 hf).2

/-- **C80 (compacting again).** A compaction that completes leaves a tuple which another one does not change by a byte, whatever sorting function each
of them uses. -/
theorem C80_compactify {F : Fix} {σ : Sch} {s t : RW} {guard guard' : Bool} {srt srt' : List Item → List Item} (h : Reachable F σ s) (hs : Sorter srt)
    (e : compactifyWith guard srt σ s = .ok () t) : compactifyWith guard' srt' σ t = .ok () t := by
  obtain ⟨_, _, _, _, _, _, _, _, k1, k2⟩ := compactify_ok hs h.wf e
  unfold compactifyWith dropHoles
  rw [if_pos k1]
  show closeGaps guard' srt' σ t = _
  unfold closeGaps
  rw [if_pos k2]

private theorem sorted_of {s : RW} (h : ∀ a c, s.head ≤ a → a < c → c < s.pivot → (s.mem c).hi ≤ (s.mem a).hi) : indexSorted s = true := by
  unfold indexSorted
  rw [List.all_eq_true]
  intro i hi
  rw [List.mem_range] at hi
  rw [decide_eq_true_eq]
  exact h _ _ (by omega) (by omega) (by omega)

/-- **C80 (sorting again), with the defect of `sort` repaired.** The second sorting says that nothing changed, and nothing did. -/
theorem C80_sort_repaired {F : Fix} {σ : Sch} {s t : RW} {b : Bool} {srt srt' : List Cell → List Cell} (h : Reachable F σ s) (hs : GidSorter srt)
    (e : sortWith false srt s = .ok b t) : sortWith false srt' t = .ok false t := by
  obtain ⟨b', t', f, e', _, k⟩ := sort_spec hs h.wf h.pure
  rw [e'] at e
  injection e with _ e
  subst e
  unfold sortWith
  rw [if_pos (sorted_of k.2.2.2.2.2.2.2.1)]

/-- **C80 (optimizing again).** After `optimize` with compaction only completes, doing so again reports that iterators remain valid and changes
not a byte. -/
theorem C80_optimize_compact {F : Fix} {σ : Sch} {s t : RW} {b : Bool} {srt srt' : List Item → List Item} {gsrt gsrt' : List Cell → List Cell}
    (h : Reachable F σ s) (hs : Sorter srt) (e : optimizeWith false true srt gsrt σ ⟨true, false, false⟩ s = .ok b t) :
    optimizeWith false true srt' gsrt' σ ⟨true, false, false⟩ t = .ok false t := by
  have hz : t.jc = 0 ∧ t.jv = 0 := by
    unfold optimizeWith at e
    by_cases c : s.jc ≠ 0 ∨ s.jv ≠ 0
    · rw [if_pos ⟨rfl, c⟩] at e
      cases hr : compactifyWith false srt σ s with
      | ub => rw [hr] at e; cases e
      | exc x u => rw [hr] at e; cases e
      | ok x u =>
        rw [hr] at e
        simp only [Out.bind, Bool.false_eq_true, false_and, or_self, if_false] at e
        injection e with _ e
        obtain ⟨_, _, _, _, _, _, _, _, k1, k2⟩ := compactify_ok hs h.wf hr
        rw [← e]; exact ⟨k1, k2⟩
    · rw [if_neg (fun k => c k.2)] at e
      simp only [Out.bind, Bool.false_eq_true, false_and, or_self, if_false] at e
      injection e with _ e
      rw [← e]; push Not at c; exact c
  unfold optimizeWith
  rw [if_neg (fun k => by rcases k.2 with k | k; exacts [k hz.1, k hz.2])]
  simp only [Out.bind, Bool.false_eq_true, false_and, or_self, if_false]

/-- **C80 (optimizing again), with the defects of compaction and sorting repaired.** After `optimize` with any flags, the same `optimize` once more reports
that iterators remain valid and changes not a byte. -/
theorem C80_optimize_repaired {σ : Sch} {s t : RW} {b guard guard' : Bool} {srt srt' : List Item → List Item} {gsrt gsrt' : List Cell → List Cell} {fl : Compact.Flags}
    (h : Reachable .repaired σ s) (hs : Sorter srt) (hg : GidSorter gsrt) (e : optimizeWith guard false srt gsrt σ fl s = .ok b t) :
    optimizeWith guard' false srt' gsrt' σ fl t = .ok false t := by
  have first : ∃ c u, optimizeWith guard false srt gsrt σ fl s = (if (fl.sortIndex ∧ u.pivot - u.head - u.jc ≥ 256) ∨ fl.enforceSort then
      (sortWith false gsrt u).bind fun b v => .ok (c || b) v else .ok c u : Out Bool) ∧ WF σ u ∧ Pure u ∧
      (fl.compactify = true → u.jc = 0 ∧ u.jv = 0) := by
    unfold optimizeWith at e ⊢
    by_cases c : fl.compactify = true ∧ (s.jc ≠ 0 ∨ s.jv ≠ 0)
    · rw [if_pos c] at e ⊢
      cases hr : compactifyWith guard srt σ s with
      | ub => rw [hr] at e; cases e
      | exc x u => rw [hr] at e; cases e
      | ok x u =>
        obtain ⟨_, k1, k2, _, _, _, _, _, k3, k4⟩ := compactify_ok hs h.wf hr
        exact ⟨_, u, rfl, k1, k2, fun _ => ⟨k3, k4⟩⟩
    · rw [if_neg c]
      refine ⟨false, s, rfl, h.wf, h.pure, fun k => ?_⟩
      constructor <;> by_contra k' <;> exact c ⟨k, by tauto⟩
  obtain ⟨c, u, e1, wu, pu, hz⟩ := first
  rw [e1] at e
  unfold optimizeWith
  by_cases q : (fl.sortIndex = true ∧ u.pivot - u.head - u.jc ≥ 256) ∨ fl.enforceSort = true
  · rw [if_pos q] at e
    obtain ⟨b', t', f, e', _, k1, k2, _, _, _, k3, k4, k5, _⟩ := sort_spec hg wu pu
    rw [e'] at e
    simp only [Out.bind] at e
    injection e with _ e
    subst e
    rw [if_neg (fun k => by rw [k3, k4, (hz k.1).1, (hz k.1).2] at k; simp at k)]
    simp only [Out.bind]
    rw [k2, k1, k3, if_pos q]
    unfold sortWith
    rw [if_pos (sorted_of k5)]
    rfl
  · rw [if_neg q] at e
    injection e with _ e
    subst e
    rw [if_neg (fun k => by rw [(hz k.1).1, (hz k.1).2] at k; simp at k)]
    simp only [Out.bind]
    rw [if_neg q]

/-! ## Order -/

/-- The operations that addressed the loose field with the word `w` and succeeded, in their order. -/
def ownOps (w : Nat) : List Ev → List (Option Exc) → List Op
  | .op o :: es, none :: outs => if isLoose o.tag = true ∧ o.tag % 65536 = w then o :: ownOps w es outs else ownOps w es outs
  | _ :: es, _ :: outs => ownOps w es outs
  | _, _ => []

private theorem act_same {B B' : Book} {w : Nat} (o : Op) (h : B w = B' w) : B.act o w = B'.act o w := by
  cases o with
  | set tag g v =>
    simp only [Book.act]
    split_ifs
    · exact h
    all_goals
      by_cases c : w = tag % 65536
      · rw [c, Function.update_self, Function.update_self]
      · rw [Function.update_of_ne c, Function.update_of_ne c]; exact h
  | insert tag g v =>
    simp only [Book.act]
    by_cases p : isPreplaced tag = true ∨ ¬ isDiscernible tag = true ∧ v.isEmpty g = true
    · simp only [if_pos p]; exact h
    · simp only [if_neg p]
      by_cases c : w = tag % 65536
      · rw [c, Function.update_self, Function.update_self, ← c, h]
      · rw [Function.update_of_ne c, Function.update_of_ne c]; exact h
  | erase tag =>
    simp only [Book.act]
    split_ifs
    · exact h
    · by_cases c : w = tag % 65536
      · rw [c, Function.update_self, Function.update_self]
      · rw [Function.update_of_ne c, Function.update_of_ne c]; exact h

private theorem act_away {B : Book} {w : Nat} (o : Op) (h : ¬ (isLoose o.tag = true ∧ o.tag % 65536 = w)) : B.act o w = B w := by
  have hp : ∀ tag, isPreplaced tag = true ∨ isLoose tag = true := fun tag => by
    rw [preplaced_not_loose]; cases isLoose tag <;> simp
  cases o with
  | set tag g v =>
    have h : ¬ (isLoose tag = true ∧ tag % 65536 = w) := h
    simp only [Book.act]
    rcases hp tag with k | k
    · rw [if_pos k]
    · split_ifs
      · rfl
      all_goals rw [Function.update_of_ne (fun c => h ⟨k, c.symm⟩)]
  | insert tag g v =>
    have h : ¬ (isLoose tag = true ∧ tag % 65536 = w) := h
    simp only [Book.act]
    rcases hp tag with k | k
    · simp only [if_pos (Or.inl k : isPreplaced tag = true ∨ ¬ isDiscernible tag = true ∧ v.isEmpty g = true)]
    · by_cases p : isPreplaced tag = true ∨ ¬ isDiscernible tag = true ∧ v.isEmpty g = true
      · simp only [if_pos p]
      · simp only [if_neg p]; rw [Function.update_of_ne (fun c => h ⟨k, c.symm⟩)]
  | erase tag =>
    have h : ¬ (isLoose tag = true ∧ tag % 65536 = w) := h
    simp only [Book.act]
    rcases hp tag with k | k
    · rw [if_pos k]
    · split_ifs
      · rfl
      · rw [Function.update_of_ne (fun c => h ⟨k, c.symm⟩)]

private theorem foldl_same {w : Nat} (os : List Op) {B B' : Book} (h : B w = B' w) : (os.foldl Book.act B) w = (os.foldl Book.act B') w := by
  induction os generalizing B B' with
  | nil => exact h
  | cons o os ih => exact ih (act_same o h)

private theorem run_own (w : Nat) (B : Book) (es : List Ev) (outs : List (Option Exc)) :
    Book.run B es outs w = ((ownOps w es outs).foldl Book.act B) w := by
  induction es generalizing B outs with
  | nil => cases outs <;> rfl
  | cons e es ih =>
    cases outs with
    | nil => cases e <;> rfl
    | cons x outs =>
      cases e with
      | compact => exact ih B outs
      | op o =>
        cases x with
        | some x => exact ih B outs
        | none =>
          show Book.run (B.act o) es outs w = ((if isLoose o.tag = true ∧ o.tag % 65536 = w then o :: ownOps w es outs else ownOps w es outs).foldl Book.act B) w
          rw [ih]
          by_cases c : isLoose o.tag = true ∧ o.tag % 65536 = w
          · rw [if_pos c]; rfl
          · rw [if_neg c]; exact foldl_same _ (act_away o c)

/-- **C80 (order, partial).** What a tuple holds depends, for each loose field, only on the operations on this field that succeeded and their order. Two
sequences of operations and compactions of any length which agree in that, started from tuples with equal content, lead to equal content,
however the operations on different fields are interleaved, wherever compactions happen, whatever failed in between, and whatever
the buffers are (another size, another layout, a repaired library). Missing for the code as it is: sequences in which a defect of `src/gear.cxx`
shows (see C12). -/
theorem C80_order_partial {F F' : Fix} {guard guard' : Bool} {σ σ' : Sch} {srt srt' : List Item → List Item} {C : Nat → Bool} {s t s' t' : RW}
    {es es' : List Ev} {outs outs' : List (Option Exc)}
    (h : Reachable F σ s) (hs : Sorter srt) (hops : ∀ e ∈ es, EvOk σ s.pre e) (hu : ∀ e ∈ es, Uses C e) (h1 : Singles C (bookOf s))
    (hb : LifeBenign F guard σ srt s es) (hr : life F guard σ srt s es = some (outs, t))
    (h' : Reachable F' σ' s') (hs' : Sorter srt') (hops' : ∀ e ∈ es', EvOk σ' s'.pre e) (hu' : ∀ e ∈ es', Uses C e)
    (hb' : LifeBenign F' guard' σ' srt' s' es') (hr' : life F' guard' σ' srt' s' es' = some (outs', t'))
    (h0 : bookOf s = bookOf s') (hown : ∀ w, ownOps w es outs = ownOps w es' outs') :
    bookOf t = bookOf t' ∧
    ∀ tag g, tag2genus tag = g → g ≠ .hole → g ≠ .varbin → isLooseCollection tag = false → C (tag % 65536) = false → getLoose t tag g = getLoose t' tag g := by
  obtain ⟨_, k2, k3, _⟩ := C68_book_partial h hs hops hu h1 hb hr
  obtain ⟨_, l2, l3, _⟩ := C68_book_partial h' hs' hops' hu' (h0 ▸ h1) hb' hr'
  have e : bookOf t = bookOf t' := by
    rw [k2, l2]
    funext w
    rw [run_own, run_own, h0, hown w]
  exact ⟨e, fun tag g hg hh hv hc hC => C68_same_reads l3 e hg hh hv hc hC⟩

/-- The operations of `bookEvs` that succeed, in another order, with the compaction elsewhere. -/
def otherEvs : List Ev :=
  [.op (setF .u64 3 5), .op (setF .u64 3 7), .op (setN 2 2), .op (setN 1 3), .compact, .op (insC 4 1), .op (insC 4 2), .op (eraseN 1)]

private theorem other_own (w : Nat) : ownOps w bookEvs [none, none, none, none, some .typeMismatch, none, none, none, none] =
    ownOps w otherEvs (List.replicate 8 none) := by
  have hl : ∀ tag ∈ [colU 4, nst 1, nst 2, fix .u64 3], isLoose tag = true := by decide +kernel
  have hd : [colU 4 % 65536, nst 1 % 65536, nst 2 % 65536, fix .u64 3 % 65536].Pairwise (· ≠ ·) := by decide +kernel
  have l1 := hl (colU 4) (by simp)
  have l2 := hl (nst 1) (by simp)
  have l3 := hl (nst 2) (by simp)
  have l4 := hl (fix .u64 3) (by simp)
  simp only [List.pairwise_cons, List.mem_cons, List.not_mem_nil, or_false, forall_eq_or_imp, forall_eq] at hd
  obtain ⟨⟨d1, d2, d3⟩, ⟨d4, d5⟩, d6, _⟩ := hd
  unfold bookEvs otherEvs insC setN setF eraseN
  simp only [List.replicate, ownOps, Op.tag, l1, l2, l3, l4, true_and]
  by_cases c1 : colU 4 % 65536 = w
  · subst c1; simp [Ne.symm d1, Ne.symm d2, Ne.symm d3]
  · by_cases c2 : nst 1 % 65536 = w
    · subst c2; simp [c1, Ne.symm d4, Ne.symm d5]
    · by_cases c3 : nst 2 % 65536 = w
      · subst c3; simp [c1, c2, Ne.symm d6]
      · simp [c1, c2, c3]

private theorem uses_of {C : Nat → Bool} {es : List Ev}
    (key : (es.all fun e => match e with | .op o => !isLoose o.tag || (isLooseCollection o.tag == C (o.tag % 65536)) | .compact => true) = true) :
    ∀ e ∈ es, Uses C e := by
  intro e he
  have h := List.all_eq_true.1 key e he
  cases e with
  | op o =>
    intro hl
    have h : (!isLoose o.tag || (isLooseCollection o.tag == C (o.tag % 65536))) = true := h
    rw [hl] at h
    exact eq_of_beq h
  | compact => trivial

/-- The code as it is, in two buffers of different sizes: the content is the same, and so is what is read. -/
example : ∃ outs t outs' t', life .code false noPre itemSort (fresh 8 60) bookEvs = some (outs, t) ∧
    life .code false noPre itemSort (fresh 12 90) otherEvs = some (outs', t') ∧ bookOf t = bookOf t' ∧ (liveSet t).card = 4 ∧
    getLoose t (fix .u64 3) .u64 = getLoose t' (fix .u64 3) .u64 := by
  obtain ⟨outs, t, hl, hp⟩ := life_decide (F := .code) (guard := false) (σ := noPre) (srt := itemSort) (s := fresh 8 60) (es := bookEvs)
    (fun outs t => decide (outs = [none, none, none, none, some .typeMismatch, none, none, none, none] ∧ (liveSet t).card = 4)) (by decide +kernel)
  obtain ⟨p1, p2⟩ := of_decide_eq_true hp
  obtain ⟨outs', t', hl', hp'⟩ := life_decide (F := .code) (guard := false) (σ := noPre) (srt := itemSort) (s := fresh 12 90) (es := otherEvs)
    (fun outs t => decide (outs = List.replicate 8 none)) (by decide +kernel)
  have p1' := of_decide_eq_true hp'
  have hz : ∀ n l, bookOf (fresh n l) = fun _ => 0 := fun n l => bookOf_create _ _ _ _ _
  have key := C80_order_partial (F := .code) (F' := .code) (guard := false) (guard' := false) (σ := noPre) (σ' := noPre) (C := bookC)
    (.create (fun _ => .zero) (image := []) rfl (by decide) (by decide) (fun _ _ h => (by cases h)) (fun _ _ h => (by cases h)))
    itemSort_ok (evOk_of (by decide +kernel)) (uses_of (by decide +kernel)) ((hz 8 60).symm ▸ singles_zero _ : Singles bookC (bookOf (fresh 8 60)))
    (lifeBenign_of (by decide +kernel)) hl
    (.create (fun _ => .zero) (image := []) rfl (by decide) (by decide) (fun _ _ h => (by cases h)) (fun _ _ h => (by cases h)))
    itemSort_ok (evOk_of (by decide +kernel)) (uses_of (by decide +kernel)) (lifeBenign_of (by decide +kernel)) hl'
    ((hz 8 60).trans (hz 12 90).symm) (fun w => by rw [p1, p1']; exact other_own w)
  exact ⟨outs, t, outs', t', hl, hl', key.1, p2, key.2 _ _ (by decide +kernel) (by decide) (by decide) (by decide +kernel) (by decide +kernel)⟩

/-- A collection of two values among other fields: erasing it removes both, and then there is nothing to compact twice. -/
example : ∃ s t u, run .code (fresh 8 60) [insC 4 1, setN 2 2, insC 4 2, setF .u64 3 5] = some s ∧ eraseLoose s (colU 4) = .ok 2 t ∧
    eraseLoose t (colU 4) = .ok 0 t ∧ t.jc ≠ 0 ∧ compactifyWith false itemSort noPre t = .ok () u ∧ compactifyWith false itemSort noPre u = .ok () u := by
  obtain ⟨s, hr, hp⟩ := run_decide (F := .code) (s := fresh 8 60) (ops := [insC 4 1, setN 2 2, insC 4 2, setF .u64 3 5])
    (fun s => match eraseLoose s (colU 4) with
      | .ok n t => decide (n = 2 ∧ t.jc ≠ 0) && (match compactifyWith false itemSort noPre t with | .ok _ _ => true | _ => false)
      | _ => false) (by decide +kernel)
  have hR : Reachable .code noPre s := (fresh_ok (by decide) (by decide)).reachable (opOk_of (by decide +kernel)) (runBenign_of (by decide +kernel)) hr
  cases he : eraseLoose s (colU 4) with
  | ub => rw [he] at hp; cases hp
  | exc x t => rw [he] at hp; cases hp
  | ok n t =>
    rw [he] at hp
    obtain ⟨h1, h2⟩ := Bool.and_eq_true_iff.1 hp
    obtain ⟨h0, h3⟩ := of_decide_eq_true h1
    subst h0
    have k := C80_erase_collection hR (by decide +kernel) (by decide +kernel) he
    cases hc : compactifyWith false itemSort noPre t with
    | ub => rw [hc] at h2; cases h2
    | exc x u => rw [hc] at h2; cases h2
    | ok x u =>
      have hS : step .code s (.erase (colU 4)) = .ok () t := by
        simp only [step]
        rw [if_neg (show ¬ isPreplaced (colU 4) = true by decide +kernel), he]
        rfl
      have hT : Reachable .code noPre t := hR.step (op := .erase (colU 4)) (opOk_of (ops := [.erase (colU 4)]) (by decide +kernel) _ (by simp))
        (Or.inr (Or.inr (by decide +kernel))) (Or.inl ⟨(), hS⟩)
      exact ⟨s, t, u, hr, he, k, h3, hc, C80_compactify hT itemSort_ok hc⟩

/-- The index of two numbers is out of order: the first sorting changes it, the second one does not. -/
example : ∃ s t, Reachable .repaired (schOf none) s ∧ optimizeWith true false itemSort gidSort (schOf none) ⟨true, false, true⟩ s = .ok true t ∧
    optimizeWith true false itemSort gidSort (schOf none) ⟨true, false, true⟩ t = .ok false t := by
  obtain ⟨s, hr, hp⟩ := run_decide (F := .repaired) (s := fresh 2 40) (ops := sortOps)
    (fun s => match optimizeWith true false itemSort gidSort (schOf none) ⟨true, false, true⟩ s with | .ok true _ => true | _ => false) (by decide +kernel)
  have hR : Reachable .repaired (schOf none) s :=
    (fresh_ok (by decide) (by decide)).reachable (opOk_of (by decide +kernel)) (runBenign_of (by decide +kernel)) hr
  split at hp
  · rename_i t h1
    exact ⟨s, t, hR, h1, C80_optimize_repaired hR itemSort_ok gidSort_ok h1⟩
  · cases hp

end Fptu.Props
