import Verif.Lemmas.TupleSet
/-!
# Tuple operations: inserting and erasing
-/
namespace Fptu.Rw
open Fptu.Gear

/-- What an insertion achieves: one new field. -/
structure InsertPost (σ : Sch) (s s' : RW) (w : Nat) (g : Genus) (v : Val) (a : Nat) : Prop where
  wf : WF σ s'
  others : Others σ s s' a
  fresh : ¬ s.live a
  live : s'.live a
  word : (s'.mem a).hi = w
  value : valueAt g s'.mem a = if v = .nested none then none else some v

theorem setLo_self (s : RW) (a : Nat) (h : (s.mem a).lo = 0) : s.setLo a 0 = s := by
  have : s.mem.set a ⟨0, (s.mem a).hi⟩ = s.mem := by
    funext b
    by_cases hb : b = a
    · subst hb; rw [Memory.set_same, ← h]
    · rw [Memory.set_ne _ _ hb]
  unfold RW.setLo RW.setCell
  rw [this]

theorem insert_spec {σ : Sch} {F : Fix} {s : RW} {g : Genus} {v : Val} {tag : Nat} (h : WF σ s) (hb : Benign F s g v)
    (hg : tag2genus tag = g) (hf : v.fits g) (hc : isLooseCollection tag = true) :
    (insertField F s tag g v).Sat False
      (fun e s' => s' = s ∧ Failure s g v false e)
      (fun r s' => (r = none ∧ s' = s ∧ ¬ isDiscernible tag ∧ v.isEmpty g) ∨
        ∃ a, r = some a ∧ ¬ (¬ isDiscernible tag ∧ v.isEmpty g) ∧ InsertPost σ s s' (tag % 65536) g v a) := by
  unfold insertField
  rw [if_neg (by rw [hg]; exact fun h => h rfl), if_neg (by rw [hc]; exact fun h => h rfl)]
  by_cases c : ¬ isDiscernible tag ∧ v.isEmpty g
  · rw [if_pos c]; exact Or.inl ⟨rfl, rfl, c.1, c.2⟩
  · rw [if_neg c]
    cases hfx : g.isFixed with
    | true =>
      rw [if_pos rfl]
      have hnn : v ≠ .nested none := by
        rintro rfl
        rw [nested_none_genus hf] at hfx; cases hfx
      have hneeds : needs g v g.looseUnits := by unfold needs; rw [hfx, if_pos rfl]
      have key := allocLoose_wf h hb hg hf hneeds
      cases hr : allocLooseWith F.loose s tag g.looseUnits with
      | ub => rw [hr] at key; exact key.elim
      | exc e s' => rw [hr] at key; exact ⟨key.1, Failure.loose _ rfl hneeds key.2⟩
      | ok a s1 =>
        rw [hr] at key
        obtain ⟨post, c1⟩ := key
        refine Or.inr ⟨a, rfl, c, ?_⟩
        cases v with
        | inline x =>
          obtain ⟨k1, k2, k3, k4, k5, k6⟩ := new_inline h hg hf post c1
          exact ⟨k1, k2, k3, k4, k5, by rw [if_neg hnn]; exact k6⟩
        | units cs =>
          obtain ⟨k1, k2, k3, k4, k5, k6⟩ := new_payload h hg hf hneeds (fits_units hf).2.2.2.1 post c1
          exact ⟨k1, k2, k3, k4, k5, by rw [if_neg hnn]; exact k6⟩
        | text v =>
          simp only [Val.fits, Bool.and_eq_true, decide_eq_true_eq] at hf
          rw [hf.1] at hfx; cases hfx
        | varbin v =>
          simp only [Val.fits, Bool.and_eq_true, decide_eq_true_eq] at hf
          rw [hf.1] at hfx; cases hfx
        | property v id =>
          simp only [Val.fits, Bool.and_eq_true, decide_eq_true_eq] at hf
          rw [hf.1.1] at hfx; cases hfx
        | nested v =>
          cases v <;> simp only [Val.fits, Bool.and_eq_true, decide_eq_true_eq] at hf
          · rw [hf] at hfx; cases hfx
          · rw [hf.1.1] at hfx; cases hfx
    | false =>
      rw [if_neg (by decide)]
      cases hest : v.estimate with
      | error e => exact ⟨rfl, Failure.tooLong hfx hest⟩
      | ok n =>
        have hneeds : needs g v n := by unfold needs; rw [hfx, if_neg (by decide)]; exact hest
        have key := allocLoose_wf h hb hg hf hneeds
        show (Out.bind (allocLooseWith F.loose s tag n) _).Sat _ _ _
        cases hr : allocLooseWith F.loose s tag n with
        | ub => rw [hr] at key; exact key.elim
        | exc e s' => rw [hr] at key; exact ⟨key.1, Failure.loose _ rfl hneeds key.2⟩
        | ok a s1 =>
          rw [hr] at key
          obtain ⟨post, c1⟩ := key
          refine Or.inr ⟨a, rfl, c, ?_⟩
          obtain ⟨_, hn0⟩ := estimate_lt hf hest hfx
          by_cases c0 : n = 0
          · have hv := hn0.1 c0
            rw [if_neg (by omega)]
            subst c0
            have e0 := post.zero rfl
            have key := alloc_inline 0 h post c1 hg (Or.inr ⟨hfx, rfl⟩)
            rw [setLo_self s1 a e0] at key
            obtain ⟨k1, k2, k3, k4⟩ := key
            refine ⟨k1, k2, post.fresh, k3, by rw [k4], ?_⟩
            rw [if_pos hv]
            unfold valueAt
            have hni : ¬ g.isInplaced = true := by
              intro hh; have := (inplaced_facts g hh).1; rw [hfx] at this; cases this
            rw [if_neg hni, if_neg (by rw [hfx]; rintro (h | h); cases h; exact h e0)]
          · rw [if_pos c0]
            obtain ⟨k1, k2, k3, k4, k5, k6⟩ := new_payload h hg hf hneeds (by omega) post c1
            exact ⟨k1, k2, k3, k4, k5, by rw [if_neg (fun h => c0 (hn0.2 h))]; exact k6⟩

/-! ## Erasing -/

/-- Every change of a descriptor word makes the cell a hole. -/
def HW (s t : RW) : Prop := ∀ b, (t.mem b).hi = (s.mem b).hi ∨ Cell.isHole (t.mem b)

theorem HW.refl (s : RW) : HW s s := fun _ => Or.inl rfl
theorem HW.trans {s t u : RW} (h1 : HW s t) (h2 : HW t u) : HW s u := by
  intro b
  rcases h2 b with k | k
  · rcases h1 b with k' | k'
    · exact Or.inl (k.trans k')
    · right
      have k' : (t.mem b).hi / 2048 = 31 := k'
      show (u.mem b).hi / 2048 = 31
      rw [k]; exact k'
  · exact Or.inr k
theorem HW.set (s : RW) (a : Nat) (c : Cell) (h : c.hi = (s.mem a).hi ∨ Cell.isHole c) : HW s (s.setCell a c) := by
  intro b
  by_cases hb : b = a
  · subst hb
    rw [show (s.setCell b c).mem b = c from Memory.set_same _ _ _]; exact h
  · left; rw [show (s.setCell a c).mem b = s.mem b from Memory.set_ne _ _ hb]
theorem HW.purge (s : RW) (a : Nat) : HW s (s.purge a) := HW.set s a _ (Or.inr (by show holeWord 0 / 2048 = 31; unfold holeWord; omega))
theorem HW.setLo (s : RW) (a x : Nat) : HW s (s.setLo a x) := HW.set s a _ (Or.inl rfl)
theorem HW.setUnits (s : RW) (a n : Nat) : (s.setUnits a n).Sat True (fun _ _ => True) fun _ t => HW s t := by
  unfold RW.setUnits
  by_cases c : n > 2047
  · rw [if_pos c]; trivial
  · rw [if_neg c]
    exact HW.set s a _ (Or.inr (by show holeWord n / 2048 = 31; unfold holeWord; omega))
theorem HW.mem {s t : RW} (h : t.mem = s.mem) : HW s t := fun b => Or.inl (by rw [h])
theorem trim_mem (s : RW) : (trim s).mem = s.mem := by
  unfold trim
  simp only
  split
  · split
    · rfl
    · split
      · rw [trim_mem]
      · split
        · rfl
        · rw [trim_mem]
  · rfl
termination_by s.pivot - s.head
decreasing_by all_goals simp_all; omega
theorem HW.trim (s : RW) : HW s (trim s) := HW.mem (trim_mem s)
theorem HW.trimIf (s : RW) (a : Nat) : HW s (trimIf s a) := by
  unfold Gear.trimIf; split
  · exact HW.trim s
  · exact HW.refl s

theorem HW.mergeHoles (s : RW) (x y : Nat) : (mergeHoles s x y).Sat True (fun _ _ => True) fun _ t => HW s t := by
  unfold Gear.mergeHoles
  simp only
  split
  · refine Out.Sat.bind (P := fun _ t => HW s t) (HW.setUnits _ _ _) fun _ t ht => ?_
    exact ht.trans ((HW.purge t y).trans (HW.trimIf _ _))
  · refine Out.Sat.bind (P := fun _ t => HW s t) ((HW.setUnits _ _ _).mono id (fun _ _ => id) fun _ t ht => (HW.setLo s y _).trans ht) fun _ t ht => ?_
    exact ht.trans ((HW.purge t x).trans (HW.trim _))

theorem HW.releaseLoose (s : RW) (a n : Nat) : (releaseLoose s a n).Sat True (fun _ _ => True) fun _ t => HW s t := by
  unfold Gear.releaseLoose
  simp only
  have h0 : HW s { s with jc := add16 s.jc 1 } := HW.mem rfl
  split
  · exact h0.trans ((HW.purge _ a).trans (HW.trimIf _ _))
  · refine Out.Sat.bind (P := fun _ t => HW s t) ((HW.setUnits _ _ _).mono id (fun _ _ => id) fun _ t ht => h0.trans ht) fun _ t ht => ?_
    split
    · trivial
    · rename_i before after _
      have h1 : HW s { t with jv := add16 t.jv n } := ht.trans (HW.mem rfl)
      refine Out.Sat.bind (P := fun _ t => HW s t) ?_ fun r t ht => ?_
      · cases before with
        | none => exact h1
        | some b => exact (HW.mergeHoles _ _ _).mono id (fun _ _ => id) fun _ _ k => h1.trans k
      refine Out.Sat.bind (P := fun _ t => HW s t) ?_ fun r t ht => ?_
      · cases after with
        | none => exact ht
        | some b => exact (HW.mergeHoles _ _ _).mono id (fun _ _ => id) fun _ _ k => ht.trans k
      · split
        · exact ht
        · exact ht.trans ((HW.trans (HW.mem rfl) (HW.purge _ r)).trans (HW.trimIf _ _))

theorem fieldUnits_len {σ : Sch} {s : RW} {a : Nat} (h : s.live a) : fieldUnits s.mem (cellGenus (s.mem a)) a = lenOf σ s a :=
  (lenOf_index h.2.1).symm

/-- The units of the values with a descriptor of the given kind. -/
def sumOf (σ : Sch) (s : RW) (P : Nat → Prop) [DecidablePred P] : Nat := ∑ a ∈ (liveSet s).filter (fun a => P (s.mem a).hi), lenOf σ s a

/-- The units of payload of the values with a descriptor of the given kind. -/
def unitsWhere (s : RW) (P : Nat → Prop) [DecidablePred P] : Nat :=
  ∑ a ∈ (liveSet s).filter (fun a => P (s.mem a).hi), fieldUnits s.mem (cellGenus (s.mem a)) a

theorem unitsWhere_eq {σ : Sch} {s : RW} (P : Nat → Prop) [DecidablePred P] : unitsWhere s P = sumOf σ s P := by
  unfold unitsWhere sumOf
  refine Finset.sum_congr rfl fun a ha => ?_
  rw [Finset.mem_filter, mem_liveSet] at ha
  exact fieldUnits_len ha.1

theorem le_sumOf {σ : Sch} {s : RW} {a : Nat} (P : Nat → Prop) [DecidablePred P] (hl : s.live a) (hp : P (s.mem a).hi) : lenOf σ s a ≤ sumOf σ s P := by
  unfold sumOf
  exact Finset.single_le_sum (f := fun a => lenOf σ s a) (fun _ _ => Nat.zero_le _) (Finset.mem_filter.2 ⟨mem_liveSet.2 hl, hp⟩)

theorem sumOf_step {σ : Sch} {s t : RW} {a : Nat} (P : Nat → Prop) [DecidablePred P] (h : WF σ s) (hl : s.live a) (hp : P (s.mem a).hi)
    (o : Others σ s t a) (hn : ¬ t.live a) : sumOf σ t P + lenOf σ s a = sumOf σ s P := by
  unfold sumOf
  have hm : a ∈ (liveSet s).filter (fun a => P (s.mem a).hi) := Finset.mem_filter.2 ⟨mem_liveSet.2 hl, hp⟩
  rw [← Finset.sum_erase_add _ _ hm]
  congr 1
  have hmem : ∀ b, b ≠ a → s.live b → t.mem b = s.mem b := fun b hb hl => (o.kept b hb (Or.inl hl)).cell
  refine Finset.sum_congr ?_ ?_
  · ext b
    rw [Finset.mem_erase, Finset.mem_filter, Finset.mem_filter, mem_liveSet, mem_liveSet]
    by_cases hb : b = a
    · subst hb
      exact ⟨fun k => absurd k.1 hn, fun k => absurd rfl k.1⟩
    · rw [o.live b hb]
      exact ⟨fun k => ⟨hb, k.1, by rw [← hmem b hb k.1]; exact k.2⟩, fun k => ⟨k.2.1, by rw [hmem b hb k.2.1]; exact k.2.2⟩⟩
  · intro b hb
    rw [Finset.mem_erase, Finset.mem_filter, mem_liveSet] at hb
    exact (o.kept b hb.1 (Or.inl hb.2.1)).len h (Or.inl hb.2.1) o.pivot

/-- Releasing a value adds at most its units to the junk. -/
theorem jv_step {σ : Sch} {s t : RW} {a : Nat} (h : WF σ s) (h' : WF σ t) (hl : s.live a) (o : Others σ s t a) (hn : ¬ t.live a)
    (ht : t.tail ≤ s.tail) : t.jv ≤ s.jv + lenOf σ s a := by
  have e := RW.held_remove (len := lenOf σ s) (len' := lenOf σ t) hl hn o.pivot o.base (fun b hb => o.live b hb) (fun b hb k => by
    have ho : s.owner b := by
      rcases k with k | k
      · exact Or.inr k
      · exact Or.inl k
    exact (o.kept b hb ho).len h ho o.pivot)
  have t1 := h.inv.total
  have t2 := h'.inv.total
  have := o.base
  simp only [Finset.sum_const_zero] at t1 t2
  omega

/-- Junk and values of some fields fit the payload area. -/
theorem jv_sumOf {σ : Sch} {s : RW} (P : Nat → Prop) [DecidablePred P] (h : WF σ s) : s.jv + sumOf σ s P ≤ s.tail - s.base := by
  have t1 := h.inv.total
  have : sumOf σ s P ≤ s.held (lenOf σ s) := by
    refine RW.sum_le_held _ fun a ha => ?_
    rw [Finset.mem_filter, mem_liveSet] at ha
    exact ⟨RW.owner.lt_base (Or.inl ha.1), Or.inr ha.1⟩
  have := h.inv.bt
  simp only [Finset.sum_const_zero] at t1
  omega

/-- Junk and one value fit the payload area. -/
theorem jv_len {σ : Sch} {s : RW} {a : Nat} (h : WF σ s) (ho : s.owner a) : s.jv + lenOf σ s a ≤ s.tail - s.base := by
  have t1 := h.inv.total
  have : lenOf σ s a ≤ s.held (lenOf σ s) := by
    have := RW.sum_le_held (s := s) (len := lenOf σ s) {a} fun b hb => by
      rw [Finset.mem_singleton.1 hb]
      refine ⟨ho.lt_base, ?_⟩
      rcases ho with k | k
      · exact Or.inr k
      · exact Or.inl k.1
    rwa [Finset.sum_singleton] at this
  have := h.inv.bt
  simp only [Finset.sum_const_zero] at t1
  omega

/-- Erasing one entry. -/
theorem eraseEntry_spec {σ : Sch} {s : RW} {a : Nat} (h : WF σ s) (hl : s.live a) :
    (eraseEntry s a).Sat (2047 < s.jv + lenOf σ s a) (fun _ _ => False)
      (fun _ t => WF σ t ∧ Others σ s t a ∧ ¬ t.live a ∧ t.tail ≤ s.tail ∧ HW s t) := by
  unfold eraseEntry
  rw [fieldUnits_len (σ := σ) hl]
  exact ((release_spec h hl).and (HW.releaseLoose s a _)).mono (fun h => h.1) (fun _ _ h => h.1)
    (fun _ t h => ⟨h.1.1, h.1.2.1, h.1.2.2.1, h.1.2.2.2, h.2⟩)

/-- The fields of `s` with another descriptor are exactly the fields of `s'`, all untouched. -/
structure OthersW (σ : Sch) (s s' : RW) (w : Nat) : Prop where
  pivot : s'.pivot = s.pivot
  pre : s'.pre = s.pre
  lim : s'.lim = s.lim
  live : ∀ b, s'.live b ↔ s.live b ∧ (s.mem b).hi ≠ w
  kept : ∀ b, ¬ RW.has s w b → s.owner b → Kept σ s s' b

theorem OthersW.step {σ : Sch} {s t u : RW} {a w : Nat} (h : WF σ s) (ha : RW.has s w a) (o : Others σ s t a) (hn : ¬ t.live a)
    (k : OthersW σ t u w) : OthersW σ s u w := by
  refine ⟨k.pivot.trans o.pivot, k.pre.trans o.pre, k.lim.trans o.lim, fun b => ?_, fun b hb ho => ?_⟩
  · rw [k.live b]
    by_cases hb : b = a
    · subst hb
      exact ⟨fun h => absurd h.1 hn, fun h => absurd ha.2 h.2⟩
    · rw [o.live b hb]
      constructor
      · rintro ⟨h1, h2⟩; rw [(o.kept b hb (Or.inl h1)).cell] at h2; exact ⟨h1, h2⟩
      · rintro ⟨h1, h2⟩; refine ⟨h1, ?_⟩; rw [(o.kept b hb (Or.inl h1)).cell]; exact h2
  · have hba : b ≠ a := by rintro rfl; exact hb ha
    have k1 := o.kept b hba ho
    have k2 := k.kept b (fun hh => hb ((o.has hba).1 hh)) ((o.owner hba).2 ho)
    have hlen := k1.len h ho o.pivot
    have hst : t.start b = s.start b := by show b + (t.mem b).lo = _; rw [k1.cell]
    refine ⟨k2.cell.trans k1.cell, fun x h1 h2 => ?_⟩
    rw [k2.payload x (by rw [hst]; exact h1) (by rw [hst, hlen]; exact h2), k1.payload x h1 h2]

/-- Results of erasing all values of one field. -/
structure ErasePost (σ : Sch) (s s' : RW) (w n : Nat) : Prop where
  wf : WF σ s'
  others : OthersW σ s s' w
  fields : fieldsOf s' = (fieldsOf s).filter fun f => f.1 ≠ w
  count : n = (fieldsOf s).countP fun f => f.1 = w
  tail : s'.tail ≤ s.tail

theorem fields_none {s : RW} {w : Nat} (h : ∀ b, ¬ RW.has s w b) : ∀ f ∈ fieldsOf s, f.1 ≠ w := by
  intro f hf hw
  unfold fieldsOf at hf
  obtain ⟨a, ha, rfl⟩ := Multiset.mem_map.1 hf
  exact h a ⟨mem_liveSet.1 ha, hw⟩

theorem ErasePost.none {σ : Sch} {s : RW} {w : Nat} (h : WF σ s) (hn : ∀ b, ¬ RW.has s w b) : ErasePost σ s s w 0 := by
  refine ⟨h, ⟨rfl, rfl, rfl, fun b => ⟨fun hl => ⟨hl, fun hw => hn b ⟨hl, hw⟩⟩, fun h => h.1⟩, fun b _ _ => Kept.refl σ s b⟩, ?_, ?_, le_rfl⟩
  · exact (Multiset.filter_eq_self.2 (fields_none hn)).symm
  · exact (Multiset.countP_eq_zero.2 (fields_none hn)).symm

theorem ErasePost.step {σ : Sch} {s t u : RW} {a w n : Nat} (h : WF σ s) (ha : RW.has s w a) (o : Others σ s t a) (hn : ¬ t.live a)
    (ht : t.tail ≤ s.tail) (k : ErasePost σ t u w n) : ErasePost σ s u w (n + 1) := by
  have hf := fields_remove h o ha.1 hn
  have hw : (entryAt s a).1 = w := ha.2
  refine ⟨k.wf, OthersW.step h ha o hn k.others, ?_, ?_, k.tail.trans ht⟩
  · rw [k.fields, hf, Multiset.filter_cons_of_neg _ (by simp [hw])]
  · rw [hf, Multiset.countP_cons_of_pos (p := fun f : Nat × Option Val => f.1 = w) _ hw, k.count]

theorem eraseRange_spec {σ : Sch} {s : RW} {w : Nat} (hw : w / 2048 ≠ 31) (h : WF σ s) (field : Option Nat) (count : Nat)
    (hfield : match field with | none => ∀ b, ¬ RW.has s w b | some a => RW.has s w a ∧ ∀ b, RW.has s w b → a ≤ b) :
    (eraseRange s w field count).Sat (2047 < s.jv + sumOf σ s (· = w)) (fun _ _ => False)
      (fun n s' => ∃ k, n = count + k ∧ ErasePost σ s s' w k) := by
  induction hk : s.pivot - field.getD 0 using Nat.strong_induction_on generalizing s field count with
  | _ m ih => ?_
  subst hk
  cases field with
  | none =>
    unfold eraseRange
    exact ⟨0, rfl, ErasePost.none h hfield⟩
  | some a =>
    obtain ⟨ha, hmin⟩ := hfield
    have hap := ha.1.2.1
    rw [eraseRange]
    rw [dif_pos hap]
    have key := eraseEntry_spec h ha.1
    cases hr : eraseEntry s a with
    | ub => rw [hr] at key; exact lt_of_lt_of_le key (Nat.add_le_add_left (le_sumOf (· = w) ha.1 ha.2) _)
    | exc e s' => rw [hr] at key; exact key.elim
    | ok _ t =>
      rw [hr] at key
      obtain ⟨k1, k2, k3, k4, k5⟩ := key
      have hasT : ∀ b, RW.has t w b → RW.has s w b ∧ a < b := by
        intro b hb
        have hne : b ≠ a := by rintro rfl; exact k3 hb.1
        have hs := (k2.has hne).1 hb
        have := hmin b hs
        exact ⟨hs, by omega⟩
      have live' : ∀ b, a + 1 ≤ b → b < t.pivot → (t.mem b).hi = w → RW.has t w b := by
        intro b h1 h2 h3
        have hnh : ¬ Cell.isHole (t.mem b) := by
          intro hh
          have hh : (t.mem b).hi / 2048 = 31 := hh
          rw [h3] at hh; exact hw hh
        have e : (t.mem b).hi = (s.mem b).hi := (k5 b).resolve_right hnh
        have hne : b ≠ a := by omega
        refine ⟨(k2.live b hne).2 ⟨?_, ?_, ?_⟩, h3⟩
        · have := ha.1.1; omega
        · have := k2.pivot; omega
        · intro hh
          apply hnh
          have hh : (s.mem b).hi / 2048 = 31 := hh
          show (t.mem b).hi / 2048 = 31
          rw [e]; exact hh
      show (if hp : t.pivot = s.pivot then _ else _ : Out Nat).Sat _ _ _
      rw [dif_pos k2.pivot]
      have hU : 2047 < t.jv + sumOf σ t (· = w) → 2047 < s.jv + sumOf σ s (· = w) := by
        intro hh
        have := sumOf_step (· = w) h ha.1 ha.2 k2 k3
        have := jv_step h k1 ha.1 k2 k3 k4
        omega
      split
      · rename_i hn
        have hnone : ∀ b, ¬ RW.has t w b := by
          intro b hb
          obtain ⟨_, hab⟩ := hasT b hb
          exact lookupFrom_none hn b (by omega) hb.1.2.1 hb.2
        exact ⟨1, rfl, ErasePost.step h ha k2 k3 k4 (ErasePost.none k1 hnone)⟩
      · rename_i b hn
        obtain ⟨n1, n2, n3, n4⟩ := lookupFrom_some hn
        rw [dif_pos (by omega)]
        have hbt := live' b n1 n2 n3
        refine (ih (t.pivot - b) (by simp only [Option.getD_some]; have := k2.pivot; omega) k1 (some b) (count + 1) ⟨hbt, fun c hc => ?_⟩ rfl).mono hU (fun _ _ => id) ?_
        · by_contra hlt
          obtain ⟨_, hac⟩ := hasT c hc
          exact n4 c (by omega) (by omega) hc.2
        · rintro n s' ⟨k, hk, hp⟩
          exact ⟨k + 1, by omega, ErasePost.step h ha k2 k3 k4 hp⟩

/-- Erasing a loose collection. -/
theorem eraseCollection_spec {σ : Sch} {s : RW} {tag : Nat} (h : WF σ s) (hg : tag2genus tag ≠ .hole)
    (hc : isLooseCollection tag = true) :
    (eraseLoose s tag).Sat (2047 < s.jv + sumOf σ s (· = tag % 65536)) (fun _ _ => False)
      (fun n s' => ErasePost σ s s' (tag % 65536) n) := by
  have hw := tag_not_hole hg
  unfold eraseLoose
  rw [if_pos hc, gid_eq]
  refine (eraseRange_spec hw h _ 0 ?_).mono id (fun _ _ => id) ?_
  · cases hl : s.lookup (tag % 65536) with
    | none => exact (lookup_none hw).1 hl
    | some a => exact (lookup_some hw).1 hl
  · rintro n s' ⟨k, hk, hp⟩
    rw [hk, Nat.zero_add]; exact hp

/-- Erasing a loose field that is not a collection: the first value with this descriptor goes. -/
theorem eraseSingle_spec {σ : Sch} {s : RW} {tag : Nat} (h : WF σ s) (hg : tag2genus tag ≠ .hole)
    (hc : isLooseCollection tag = false) :
    (eraseLoose s tag).Sat (2047 < s.jv + (s.lookup (tag % 65536)).elim 0 (lenOf σ s)) (fun _ _ => False)
      (fun n s' => WF σ s' ∧ ((n = 0 ∧ s' = s ∧ s.lookup (tag % 65536) = none) ∨
        (n = 1 ∧ ∃ a, s.lookup (tag % 65536) = some a ∧ Others σ s s' a ∧ ¬ s'.live a))) := by
  have hw := tag_not_hole hg
  unfold eraseLoose
  rw [if_neg (by rw [hc]; decide), gid_eq]
  cases hl : s.lookup (tag % 65536) with
  | none => exact ⟨h, Or.inl ⟨rfl, rfl, rfl⟩⟩
  | some a =>
    obtain ⟨⟨hla, hword⟩, _⟩ := (lookup_some hw).1 hl
    have hcg := word_genus rfl hword
    show (if cellGenus (s.mem a) ≠ tag2genus tag then _ else _ : Out Nat).Sat _ _ _
    rw [if_neg (by rw [hcg]; exact fun h => h rfl)]
    have key := eraseEntry_spec h hla
    cases hr : eraseEntry s a with
    | ub => rw [hr] at key; exact key
    | exc e s' => rw [hr] at key; exact key.elim
    | ok _ t =>
      rw [hr] at key
      exact ⟨key.1, Or.inr ⟨rfl, a, rfl, key.2.1, key.2.2.1⟩⟩

end Fptu.Rw
