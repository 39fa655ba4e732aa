import Verif.Model.Shortage
import Verif.Props.CapiTake
import Verif.Lemmas.TwinCompact
/-!
# C96: compaction when memory runs out
-/
namespace Fptu.Props
open Fptu Fptu.Gear Fptu.Rw Fptu.Audit Fptu.Serial Fptu.Compact

private theorem looseItems_le (m : Memory) (head : Nat) : ∀ n, (looseItems m head n).length ≤ n
  | 0 => by simp [looseItems]
  | n + 1 => by
    have := looseItems_le m head n
    unfold looseItems
    split
    · rw [List.length_cons]; omega
    · omega

/-- The number of chunks, counted after the first pass. -/
private def chunks (σ : Sch) (t : RW) : Nat :=
  (looseItems t.mem t.head (t.pivot - t.head)).length +
    ((List.range t.pre).filter fun k => (σ k).isSome && decide ((t.mem (t.pivot + k)).lo ≠ 0)).length

private theorem chunks_le (σ : Sch) (s : RW) : chunks σ s ≤ s.pivot - s.head + s.pre := by
  have h1 := looseItems_le s.mem s.head (s.pivot - s.head)
  have h2 := List.length_filter_le (fun k => (σ k).isSome && decide ((s.mem (s.pivot + k)).lo ≠ 0)) (List.range s.pre)
  rw [List.length_range] at h2
  unfold chunks
  omega

private theorem drop_facts {guard : Bool} {σ : Sch} {s t : RW} {u : Unit} (h : WF σ s) (e : dropHoles guard s = .ok u t) :
    (∃ f, Copied σ s t f) ∧ t.head = s.head + s.jc ∧ t.pivot = s.pivot ∧ t.pre = s.pre ∧ t.tail = s.tail ∧ t.lim = s.lim ∧ t.jc = 0 ∧
      t.jv = s.jv ∧ (∀ a, t.head ≤ a → a < t.pivot → ¬ t.isHole a) ∧ (∀ a, t.live a → (t.mem a).hi < 65536) := by
  obtain ⟨t', f, e', k1, k2, k3, k4, k5, k6, k7, k8, k9, k10, _⟩ := dropHoles_spec (guard := true) h (Or.inl rfl)
  have e2 : dropHoles true s = .ok u t := by
    cases guard with
    | true => exact e
    | false => exact dropHoles_guard e
  rw [e'] at e2
  injection e2 with _ e2
  subst e2
  exact ⟨⟨f, k1⟩, k2, k3, k4, k5, k6, k7, k8, k9, k10⟩

private def one (m : Memory) (a : Nat) : ℤ := if ¬ (cellGenus (m a)).isInplaced ∧ (m a).lo ≠ 0 then 1 else 0

private theorem counted_sum (m : Memory) (head : Nat) : ∀ n, (counted m head n : ℤ) =
    ∑ a ∈ (Finset.Ico head (head + n)).filter (fun a => ¬ Cell.isHole (m a)), one m a
  | 0 => by simp [counted]
  | n + 1 => by
    unfold counted
    rw [Finset.sum_filter, show head + (n + 1) = head + n + 1 by omega, Finset.sum_Ico_succ_top (by omega), ← Finset.sum_filter, ← counted_sum m head n]
    unfold one
    push_cast
    congr 1
    split_ifs <;> first | rfl | (exfalso; tauto)

private theorem counted_items (m : Memory) (head : Nat) : ∀ n, (∀ i, i < n → ¬ Cell.isHole (m (head + i))) → counted m head n = (looseItems m head n).length
  | 0, _ => rfl
  | n + 1, h => by
    unfold counted looseItems
    rw [counted_items m head n fun i hi => h i (by omega)]
    have := h n (by omega)
    split_ifs <;> first | rfl | (exfalso; tauto)

private theorem live_filter (s : RW) : liveSet s = (Finset.Ico s.head s.pivot).filter fun a => ¬ Cell.isHole (s.mem a) := by
  ext a
  rw [mem_liveSet, Finset.mem_filter, Finset.mem_Ico]
  unfold RW.live
  tauto

private theorem moveable_eq {guard : Bool} {σ : Sch} {s t : RW} {u : Unit} (h : WF σ s) (e : dropHoles guard s = .ok u t) : moveable σ s t = chunks σ t := by
  unfold moveable chunks
  split_ifs with hj
  · congr 1
    obtain ⟨⟨f, cp⟩, k1, k2, k3, k4, k5, k6, k7, k8, k9⟩ := drop_facts h e
    have hp := h.inv.hp
    have hc := h.inv.jc_le
    rw [← counted_items t.mem t.head _ fun i hi => k8 _ (by omega) (by omega)]
    have := Copied.sum cp (φ := one s.mem) (ψ := one t.mem) fun b hb => by
      obtain ⟨_, l2, l3⟩ := cp.live b hb
      have e1 : cellGenus (t.mem b) = cellGenus (s.mem (f b)) := by unfold cellGenus; rw [l2]
      unfold one
      rw [e1]
      simp only [ne_eq, l3.null]
    rw [live_filter, live_filter] at this
    have q1 := counted_sum s.mem s.head (s.pivot - s.head)
    have q2 := counted_sum t.mem t.head (t.pivot - t.head)
    rw [show s.head + (s.pivot - s.head) = s.pivot by omega] at q1
    rw [show t.head + (t.pivot - t.head) = t.pivot by omega] at q2
    exact_mod_cast q1.trans (this.symm.trans q2.symm)
  · rfl

private theorem preItems_length {guard : Bool} {σ : Sch} {m : Memory} {pivot : Nat} : ∀ {n : Nat} {ps : List Item}, preItems guard σ m pivot n = some ps →
    ps.length = ((List.range n).filter fun k => (σ k).isSome && decide ((m (pivot + k)).lo ≠ 0)).length
  | 0, ps, h => by
    unfold preItems at h
    injection h with h
    subst h
    rfl
  | n + 1, ps, h => by
    unfold preItems at h
    rw [List.range_succ, List.filter_append, List.length_append]
    cases hσ : σ n with
    | none =>
      rw [hσ] at h
      rw [preItems_length h]
      simp [hσ]
    | some g =>
      rw [hσ] at h
      simp only at h
      by_cases c : (m (pivot + n)).lo = 0
      · rw [if_pos c] at h
        split at h
        · rw [preItems_length h]
          simp [c]
        · cases h
      · rw [if_neg c] at h
        cases e : preItems guard σ m pivot n with
        | none => rw [e] at h; cases h
        | some qs =>
          rw [e] at h
          injection h with h
          subst h
          rw [List.length_cons, preItems_length e]
          simp [hσ, c]

/-- **C96 (one request).** The memory asked for is exactly what the descriptions of the chunks take, so nothing is asked for once data has begun to
move: a compaction that completes its second pass had the arena or the heap provide eight bytes for every chunk. -/
theorem C96_request {F : Fix} {sch : Option Schema} {heap : Nat → Bool} {guard : Bool} {srt : List Item → List Item} {s t u : RW} {ps : List Item}
    (h : History F sch s) (e1 : dropHoles guard s = .ok () t) (e2 : compactifyHeap heap guard srt (schOf sch) s = .ok () u) (hv : t.jv ≠ 0)
    (hp : preItems guard (schOf sch) t.mem t.pivot t.pre = some ps) :
    8 * (ps ++ looseItems t.mem t.head (t.pivot - t.head)).length ≤ 2048 ∨
      heap (8 * (ps ++ looseItems t.mem t.head (t.pivot - t.head)).length) = true := by
  have hl : (ps ++ looseItems t.mem t.head (t.pivot - t.head)).length = moveable (schOf sch) s t := by
    rw [moveable_eq h.made.wf e1, List.length_append, preItems_length hp]
    unfold chunks
    omega
  unfold compactifyHeap at e2
  rw [e1] at e2
  replace e2 : (if t.jv ≠ 0 ∧ reserve heap (moveable (schOf sch) s t) = false then Out.exc .badAlloc t
    else closeGaps guard srt (schOf sch) t) = .ok () u := e2
  rw [hl]
  split at e2
  · cases e2
  · rename_i c
    have k : reserve heap (moveable (schOf sch) s t) = true := by
      cases k : reserve heap (moveable (schOf sch) s t) with
      | true => rfl
      | false => exact absurd ⟨hv, k⟩ c
    unfold reserve at k
    rw [Bool.or_eq_true] at k
    exact k.imp of_decide_eq_true id

/-- **C96 (enough memory).** Compaction of a tuple whose loose fields and preplaced units are 256 at most never asks the heap for memory, and
compaction of any tuple does the same as without limits if the heap never refuses. -/
theorem C96_enough {F : Fix} {sch : Option Schema} {s : RW} (h : History F sch s) (heap : Nat → Bool) (guard : Bool)
    (srt : List Item → List Item) (hn : looseCount s + s.pre ≤ 256 ∨ ∀ n, heap n = true) :
    compactifyHeap heap guard srt (schOf sch) s = compactifyWith guard srt (schOf sch) s := by
  unfold compactifyHeap compactifyWith
  cases e : dropHoles guard s with
  | ub => rfl
  | exc x t => rfl
  | ok u t =>
    show (if _ then _ else _) = closeGaps guard srt (schOf sch) t
    rw [if_neg]
    rintro ⟨_, k⟩
    unfold reserve at k
    rw [Bool.or_eq_false_iff] at k
    rcases hn with hn | hn
    · obtain ⟨_, k1, k2, k3, _⟩ := drop_facts h.made.wf e
      have := chunks_le (schOf sch) t
      rw [moveable_eq h.made.wf e] at k
      have := of_decide_eq_false k.1
      unfold looseCount indexSize at hn
      omega
    · rw [hn] at k
      exact absurd k.2 (by decide)

/-- **C96 (shortage, partial).** When memory runs out during the compaction of any tuple any history produces: the exception is `bad_alloc`,
the tuple had unused units and more than 256 chunks of data or preplaced units, all fields keep their values and their order, the buffer
keeps its capacity, no data moved, the places of the erased entries of the index are free for new fields, and a later compaction gives
exactly what the compaction of the original tuple would have given with the same memory. Missing: the tuple does not satisfy the library's own checks until then (`C96_shortage_refuted`). -/
theorem C96_shortage_partial {F : Fix} {sch : Option Schema} {s t : RW} {x : Exc} {heap : Nat → Bool} {guard : Bool}
    {srt : List Item → List Item} (h : History F sch s) (e : compactifyHeap heap guard srt (schOf sch) s = .exc x t) :
    x = .badAlloc ∧ s.jv ≠ 0 ∧ 256 < looseCount s + s.pre ∧ SameFields (schOf sch) s t ∧ capacity t = capacity s ∧ bruttoSize t + 4 * s.jc = bruttoSize s ∧
      headSpace t = headSpace s + s.jc ∧ tailSpaceUnits t = tailSpaceUnits s ∧ junkUnits t + s.jc = junkUnits s ∧
      ∀ heap' guard' srt', guard' = guard ∨ guard' = true →
        compactifyHeap heap' guard' srt' (schOf sch) t = compactifyHeap heap' guard' srt' (schOf sch) s := by
  have wf := h.made.wf
  unfold compactifyHeap at e
  cases ed : dropHoles guard s with
  | ub => rw [ed] at e; cases e
  | exc y u =>
    unfold dropHoles at ed
    split at ed
    · cases ed
    · split at ed <;> cases ed
  | ok u t' =>
    rw [ed] at e
    replace e : (if t'.jv ≠ 0 ∧ reserve heap (moveable (schOf sch) s t') = false then Out.exc .badAlloc t'
      else closeGaps guard srt (schOf sch) t') = .exc x t := e
    by_cases c : t'.jv ≠ 0 ∧ reserve heap (moveable (schOf sch) s t') = false
    · rw [if_pos c] at e
      injection e with e1 e2
      subst e2
      obtain ⟨⟨f, cp⟩, k1, k2, k3, k4, k5, k6, k7, _⟩ := drop_facts wf ed
      have hm := chunks_le (schOf sch) t'
      have hhp := wf.inv.hp
      have hb := wf.inv.bt
      have hbase : s.base = s.pivot + s.pre := rfl
      have hjc := wf.inv.jc_le
      have c2 := c.2
      rw [moveable_eq wf ed] at c2
      unfold reserve at c2
      rw [Bool.or_eq_false_iff] at c2
      have c3 := of_decide_eq_false c2.1
      refine ⟨e1.symm, k7 ▸ c.1, ?_, SameFields.of_copied wf cp, ?_, ?_, k1, ?_, ?_, fun heap' guard' srt' hg => ?_⟩
      · unfold looseCount indexSize; omega
      · unfold Serial.capacity; rw [k5]
      · unfold bruttoSize units2bytes
        simp only [Nat.shiftLeft_eq]
        omega
      · unfold tailSpaceUnits; rw [k4, k5]
      · unfold junkUnits; omega
      · have ed' : dropHoles guard' s = .ok u t' := by
          rcases hg with rfl | rfl
          · exact ed
          · cases guard with
            | true => exact ed
            | false => exact dropHoles_guard ed
        have et : dropHoles guard' t' = .ok () t' := by unfold dropHoles; rw [if_pos k6]
        unfold compactifyHeap
        rw [ed', et]
        simp only [Out.bind]
        rw [moveable_eq wf ed, show moveable (schOf sch) t' t' = chunks (schOf sch) t' by unfold moveable chunks; rw [if_neg (not_not.2 k6)]]
    · rw [if_neg c] at e
      unfold closeGaps at e
      split at e
      · cases e
      · split at e
        · cases e
        · split at e <;> cases e

/-! ## What the validation says of the tuple left behind -/

private def Keeps (r : Res) (v : Nat) : Prop := ∀ st, r = .pass st → st.hv = v

private theorem keeps_pass {s : St} : Keeps (.pass s) s.hv := fun _ h => by cases h; rfl
private theorem keeps_fail {m : String} {l : List Nat} {v : Nat} : Keeps (.fail m l) v := fun _ h => by cases h
private theorem keeps_bug {l : List Nat} {v : Nat} : Keeps (.bug l) v := fun _ h => by cases h
private theorem keeps_bind {r : Res} {f : St → Res} {v : Nat} (h : Keeps r v) (hf : ∀ st, st.hv = v → Keeps (f st) v) : Keeps (r.bind f) v := by
  cases r with
  | pass s => exact hf s (h s rfl)
  | fail m l => exact keeps_fail
  | bug l => exact keeps_bug

private theorem keeps_chunk (s : St) (cb cu pb pe : Nat) : Keeps (checkChunk s cb cu pb pe) s.hv := by
  unfold checkChunk
  split; · exact keeps_fail
  split; · exact keeps_fail
  split; · exact keeps_fail
  split
  · exact keeps_fail
  · intro st h; cases h; rfl

private theorem keeps_loose {m : Memory} {a : Nat} (h : cellGenus (m a) ≠ .hole) (pb pe : Nat) (s : St) : Keeps (checkLoose m pb pe a s) s.hv := by
  unfold checkLoose
  simp only [if_neg h]
  split; · intro st h; cases h; rfl
  split
  · split
    · exact keeps_fail
    · exact keeps_chunk _ _ _ _ _
  · split
    · exact keeps_chunk _ _ _ _ _
    · intro st h; cases h; rfl

private theorem keeps_down {f : Nat → St → Res} {lo : Nat} : ∀ (n : Nat) (s : St), (∀ i st, i < n → Keeps (f (lo + i) st) st.hv) → Keeps (scanDown f lo n s) s.hv
  | 0, s, _ => keeps_pass
  | n + 1, s, h => by
    unfold scanDown
    refine keeps_bind (h n s (by omega)) fun st k => ?_
    rw [← k]
    exact keeps_down n st fun i st hi => h i st (by omega)

private theorem keeps_pre (m : Memory) (pivot pe : Nat) : ∀ (ts : List Nat) (s : St), Keeps (scanPre m pivot pe ts s) s.hv
  | [], s => keeps_pass
  | t :: ts, s => by
    unfold scanPre
    split; · exact keeps_pass
    split; · exact keeps_pre m pivot pe ts s
    simp only
    split
    · exact keeps_pre m pivot pe ts (s.read _)
    · refine keeps_bind (keeps_chunk _ _ _ _ _) fun st k => ?_
      rw [← k]
      exact keeps_pre m pivot pe ts st

private theorem keeps_adjacent (m : Memory) (lo pb : Nat) : ∀ (n : Nat) (M : Map) (c : Nat) (s : St), Keeps (scanAdjacent m lo pb n M c s) s.hv
  | 0, _, _, s => keeps_pass
  | n + 1, M, c, s => by
    unfold scanAdjacent
    simp only
    split; · exact keeps_adjacent m lo pb n M c (s.read _)
    split; · exact keeps_bug
    split; · exact keeps_fail
    exact keeps_adjacent m lo pb n _ _ (s.read _)

private theorem keeps_finish (m : Memory) (ib pivot pe pb : Nat) (fl : Audit.Flags) (s : St) : Keeps (finish m ib pivot pe pb fl s) s.hv := by
  unfold finish
  refine keeps_bind ?_ fun st k => ?_
  · split
    · split; · exact keeps_fail
      split; · exact keeps_fail
      split; · exact keeps_fail
      split; · exact keeps_fail
      split
      · exact keeps_adjacent _ _ _ _ _ _ _
      · exact keeps_pass
    · exact keeps_pass
  · rw [← k]
    split
    · simp only
      split
      · intro st h; cases h; rfl
      · exact keeps_fail
    · exact keeps_pass

private theorem keeps_passPre (sch : Option Schema) (m : Memory) (pivot pe pb : Nat) (s : St) : Keeps (passPre sch m pivot pe pb s) s.hv := by
  unfold passPre
  split
  · split; · exact keeps_fail
    split; · exact keeps_fail
    split
    · exact keeps_pre _ _ _ _ _
    · exact keeps_pass
  · exact keeps_pass

private theorem keeps_tuple (sch : Option Schema) (m : Memory) (ib pivot pe : Nat) (fl : Audit.Flags)
    (h : ∀ a, ib ≤ a → a < pivot → cellGenus (m a) ≠ .hole) : Keeps (auditTuple sch m ib pivot pe fl) 0 := by
  unfold auditTuple
  simp only
  split; · exact keeps_bug
  refine keeps_bind (keeps_down (pivot - ib) ⟨[], 0, 0, []⟩ fun i st hi => keeps_loose (h _ (by omega) (by omega)) _ _ _) fun st k => ?_
  replace k : st.hv = 0 := k
  split; · exact keeps_fail
  split; · exact keeps_fail
  split; · exact keeps_fail
  split; · exact keeps_fail
  rw [← k]
  refine keeps_bind (keeps_passPre _ _ _ _ _ _) fun st' k' => ?_
  rw [← k']
  exact keeps_finish _ _ _ _ _ _ _

private theorem rw_pass {sch : Option Schema} {t : RW} {st : St} (h : auditRw sch t = .pass st) :
    ∃ st', auditTuple sch t.mem t.head t.pivot t.tail ⟨false, decide (preBytesOf sch > 0), true⟩ = .pass st' ∧ t.jv = st'.hv % 65536 := by
  unfold auditRw at h
  split at h; · cases h
  split at h; · cases h
  split at h; · cases h
  split at h; · cases h
  split at h; · cases h
  split at h; · cases h
  split at h; · cases h
  generalize auditTuple sch t.mem t.head t.pivot t.tail ⟨false, decide (preBytesOf sch > 0), true⟩ = r at h ⊢
  cases r with
  | fail m l => cases h
  | bug l => cases h
  | pass st' =>
    simp only [Res.bind] at h
    split at h; · cases h
    split at h; · cases h
    rename_i c
    exact ⟨st', rfl, not_not.1 c⟩

/-- **C96 (shortage) is false as a promise to leave the tuple intact**: whatever the tuple, once memory ran out during its compaction the
validation of the library rejects it (it accepted it before, `C12_audit_partial`). -/
theorem C96_shortage_rejected {F : Fix} {sch : Option Schema} {s t : RW} {x : Exc} {heap : Nat → Bool} {guard : Bool}
    {srt : List Item → List Item} (h : History F sch s) (e : compactifyHeap heap guard srt (schOf sch) s = .exc x t) :
    accepted (auditRw sch t) = false := by
  have hv := (C96_shortage_partial h e).2.1
  have wf := h.made.wf
  have key : ∃ u, dropHoles guard s = .ok u t := by
    unfold compactifyHeap at e
    cases ed : dropHoles guard s with
    | ub => rw [ed] at e; cases e
    | exc y u =>
      unfold dropHoles at ed
      split at ed
      · cases ed
      · split at ed <;> cases ed
    | ok u t' =>
      rw [ed] at e
      replace e : (if t'.jv ≠ 0 ∧ reserve heap (moveable (schOf sch) s t') = false then Out.exc .badAlloc t'
        else closeGaps guard srt (schOf sch) t') = .exc x t := e
      split at e
      · injection e with _ e
        exact ⟨u, by rw [e]⟩
      · unfold closeGaps at e
        split at e
        · cases e
        · split at e
          · cases e
          · split at e <;> cases e
  obtain ⟨u, ed⟩ := key
  obtain ⟨_, _, _, _, _, _, _, k7, k8, k9⟩ := drop_facts wf ed
  have kt := keeps_tuple sch t.mem t.head t.pivot t.tail ⟨false, decide (preBytesOf sch > 0), true⟩ fun a a1 a2 k =>
    k8 a a1 a2 ((genus_hole (k9 a ⟨a1, a2, k8 a a1 a2⟩)).1 k)
  cases ea : auditRw sch t with
  | fail m l => rfl
  | bug l => rfl
  | pass st =>
    obtain ⟨st', k1, k2⟩ := rw_pass ea
    rw [kt st' k1, k7] at k2
    exact absurd k2 hv

/-- 257 values of a collection that need data, with another field among them, which is erased. -/
def insU (id k : Nat) : Op := .insert (makeTag .u32 id true true false) .u32 (unitsVal 1 k)
def shortOps : List Op := insU 2 3 :: setF .u32 1 9 :: (List.replicate 256 (insU 2 3) ++ [.erase (fix .u32 1)])

set_option maxRecDepth 100000 in
/-- **C96 (shortage) is false**: a tuple of 257 numbers in a collection, from which another number was erased, passes the validation. Its
compaction without memory on the heap throws `bad_alloc`, and then neither the tuple nor its serialized form passes the validation. -/
theorem C96_shortage_refuted : ∃ s t, History .code none s ∧ looseCount s = 257 ∧ accepted (auditRw none s) = true ∧
    (∀ srt, compactifyHeap (fun _ => false) false srt (schOf none) s = .exc .badAlloc t) ∧ accepted (auditRw none t) = false ∧
    accepted (auditRo none (takeAsis none t) (bruttoSize t)) = false := by
  have ho : ∀ op ∈ shortOps, OpOk (schOf none) 0 op := opOk_of (by decide +kernel)
  have hb : RunBenign .code (fresh 260 800) shortOps := runBenign_of (by decide +kernel)
  obtain ⟨s, hr, hp⟩ := run_decide (F := .code) (s := fresh 260 800) (ops := shortOps)
    (fun s => decide (looseCount s = 257 ∧ s.pivot - s.head = 258) && match dropHoles false s with
      | .ok _ t => decide (t.jv ≠ 0 ∧ reserve (fun _ => false) (moveable (schOf none) s t) = false ∧
          accepted (auditRo none (takeAsis none t) (bruttoSize t)) = false)
      | _ => false) (by decide +kernel)
  have hH : History .code none s := .of_run (mem := fun _ => .zero) (items := 260) (lim := 800) (image := []) (fun S h => (by cases h)) rfl
    (by decide) (by decide) (fun k g h => (by cases h)) ho hb hr
  rw [Bool.and_eq_true] at hp
  obtain ⟨p1, p2⟩ := hp
  obtain ⟨p3, p4⟩ := of_decide_eq_true p1
  split at p2
  · rename_i u t ht
    obtain ⟨q1, q2, q3⟩ := of_decide_eq_true p2
    have e : ∀ srt, compactifyHeap (fun _ => false) false srt (schOf none) s = .exc .badAlloc t := by
      intro srt
      unfold compactifyHeap
      rw [ht]
      show (if _ then _ else _) = _
      rw [if_pos ⟨q1, q2⟩]
    exact ⟨s, t, hH, p3, C12_audit_partial hH (by rw [p4]; decide), e, C96_shortage_rejected hH (e id), q3⟩
  · cases p2

/-- A tuple with a chunk to move: two numbers, the first of which was erased. -/
example : ∃ s t u ps, History .code none s ∧ dropHoles false s = .ok () t ∧ t.jv = 2 ∧ preItems false (schOf none) t.mem t.pivot t.pre = some ps ∧
    (ps ++ looseItems t.mem t.head (t.pivot - t.head)).length = 1 ∧ compactifyHeap (fun _ => false) false itemSort (schOf none) s = .ok () u := by
  have ho : ∀ op ∈ [setF .u64 1 5000, setF .u64 2 6, .erase (fix .u64 1)], OpOk (schOf none) 0 op := opOk_of (by decide +kernel)
  have hb : RunBenign .code (fresh 8 60) [setF .u64 1 5000, setF .u64 2 6, .erase (fix .u64 1)] := runBenign_of (by decide +kernel)
  obtain ⟨s, hr, hp⟩ := run_decide (F := .code) (s := fresh 8 60) (ops := [setF .u64 1 5000, setF .u64 2 6, .erase (fix .u64 1)])
    (fun s => match dropHoles false s, compactifyHeap (fun _ => false) false itemSort (schOf none) s with
      | .ok _ t, .ok _ _ => decide (t.jv = 2 ∧ preItems false (schOf none) t.mem t.pivot t.pre = some [] ∧
          (looseItems t.mem t.head (t.pivot - t.head)).length = 1)
      | _, _ => false) (by decide +kernel)
  have hH : History .code none s := .of_run (mem := fun _ => .zero) (items := 8) (lim := 60) (image := []) (fun S h => (by cases h)) rfl
    (by decide) (by decide) (fun k g h => (by cases h)) ho hb hr
  split at hp
  · rename_i _ t _ u e1 e2
    obtain ⟨p1, p2, p3⟩ := of_decide_eq_true hp
    exact ⟨s, t, u, [], hH, e1, p1, p2, p3, e2⟩
  · cases hp

/-- The hypotheses of `C96_shortage_partial` are met (see `C96_shortage_refuted`), and a later compaction with memory succeeds. -/
example : ∃ s t u, History .code none s ∧ compactifyHeap (fun _ => false) false itemSort (schOf none) s = .exc .badAlloc t ∧
    compactifyHeap (fun _ => true) true itemSort (schOf none) t = .ok () u ∧ Compacted (schOf none) s u := by
  obtain ⟨s, t, h, _, _, e, _⟩ := C96_shortage_refuted
  obtain ⟨u, k1, _, k3⟩ := C17_compactify_repaired h itemSort_ok
  refine ⟨s, t, u, h, e itemSort, ?_, k3⟩
  rw [(C96_shortage_partial h (e itemSort)).2.2.2.2.2.2.2.2.2 _ true _ (Or.inr rfl), C96_enough h _ _ _ (Or.inr fun _ => rfl), k1]

end Fptu.Props
