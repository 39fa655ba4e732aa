import Verif.Lemmas.AuditTuple
import Verif.Lemmas.CompactSort
import Verif.Lemmas.Serial
import Verif.Lemmas.TupleHist
/-!
# What a user can observe of a modifiable tuple; the reachable tuples

Definitions in which the properties C09–C16 are stated, with the lemmas connecting them to the layout invariant.
-/
namespace Fptu.Props
open Fptu Fptu.Gear Fptu.Rw

/-- A tuple obtained from a fresh one by a history of any length of `set_*`, `insert_*` and `erase` calls (the caller
catches every exception), compactions, and transfers: serialization followed by re-creation from the serialized form
in another buffer. `F` says which of the three defects of `src/gear.cxx` are repaired; for those which are not, the
history must not contain a step in which they show (`StepBenign`; for `Fix.repaired` every step is admitted). A
compaction must not run into undefined behaviour (`C17_null_refuted`), and a re-created tuple must fit its buffer
(`C19_overflow_refuted`). Sorting of the index is included with its defect repaired only (`C18_sort_refuted`).
`Reachable.reset` covers `reset`. `relocated`: the content was moved as it is, within the buffer or into another one, which is
what the automatic growth does (Props/Grow). -/
inductive Reachable (F : Fix) (σ : Sch) : RW → Prop
  | create (mem : Memory) {items pre lim : Nat} {image : List Cell} (h1 : image.length = pre) (h2 : items + pre ≤ lim) (h3 : lim ≤ 65534)
      (h4 : ∀ k g, σ k = some g → g.isFixed = false) (h5 : ∀ k g, σ k = some g → k < pre → (image.getD k .zero).lo = 0) :
      Reachable F σ (create mem items pre lim image)
  | step {s s' : RW} (h : Reachable F σ s) {op : Op} (hop : OpOk σ s.pre op) (hb : StepBenign F s op)
      (hs : (∃ u, step F s op = .ok u s') ∨ ∃ e, step F s op = .exc e s') : Reachable F σ s'
  | compactify {s t : RW} (h : Reachable F σ s) {guard : Bool} {srt : List Compact.Item → List Compact.Item} (hs : Compact.Sorter srt)
      (e : Compact.compactifyWith guard srt σ s = .ok () t) : Reachable F σ t
  | recreate {s t : RW} (h : Reachable F σ s) {sch : Option Audit.Schema} (hσ : σ = Audit.schOf sch)
      (hpre : s.pre = bytes2units (Audit.preBytesOf sch)) (hidx : s.pivot - s.head ≤ 8191) (hsize : s.tail - s.head + 1 ≤ 65534)
      {overhead more moreData extra : Nat} {mem : Memory}
      (e : Serial.createFromRo overhead mem s.jc s.jv (Serial.takeAsis sch s) more moreData (Audit.preBytesOf sch) extra = .ok t)
      (hroom : t.tail ≤ t.lim) : Reachable F σ t
  | sort {s t : RW} (h : Reachable F σ s) (hF : F = .repaired) (hj : s.jc = 0) {srt : List Cell → List Cell} (hs : Compact.GidSorter srt)
      {b : Bool} (e : Compact.sortWith false srt s = .ok b t) : Reachable F σ t
  | relocated {s t : RW} (h : Reachable F σ s) (m : Moved s t) : Reachable F σ t

theorem Reachable.wf_pure {F : Fix} {σ : Sch} {s : RW} (h : Reachable F σ s) : WF σ s ∧ Pure s := by
  induction h with
  | create mem h1 h2 h3 h4 h5 => exact ⟨create_wf h1 h2 h3 h4 h5, create_pure _ _ _ _ _⟩
  | @step s s' h op hop hb hs ih =>
    have key := step_spec ih.1 op hop hb
    rcases hs with ⟨u, hs⟩ | ⟨e, hs⟩
    · have hp := step_pure ih.1 ih.2 op hop hb hs
      rw [hs] at key
      exact ⟨Keep.wf key, hp⟩
    · rw [hs] at key
      have key : s' = s := key
      rw [key]; exact ih
  | compactify h hs e ih =>
    obtain ⟨_, k1, k2, _⟩ := Compact.compactify_ok hs ih.1 e
    exact ⟨k1, k2⟩
  | recreate h hσ hpre hidx hsize e hroom ih =>
    have m := Serial.recreate_moved ih.1 hpre hidx hsize e hroom
    exact ⟨m.wf ih.1, m.pure ih.1 ih.2⟩
  | sort h hF hj hs e ih =>
    obtain ⟨b', t', f, e', k⟩ := Compact.sort_spec hs ih.1 ih.2
    rw [e'] at e
    injection e with _ e
    rw [← e]
    exact k.2.2.2.2.2.2.2.2.2.2 hj
  | relocated h m ih => exact ⟨m.wf ih.1, m.pure ih.1 ih.2⟩

theorem Reachable.wf {F : Fix} {σ : Sch} {s : RW} (h : Reachable F σ s) : WF σ s := h.wf_pure.1

theorem Reachable.pure {F : Fix} {σ : Sch} {s : RW} (h : Reachable F σ s) : Pure s := h.wf_pure.2

/-- A history of modifications. -/
theorem Reachable.run {F : Fix} {σ : Sch} {s t : RW} {ops : List Op} (h : Reachable F σ s) (hops : ∀ op ∈ ops, OpOk σ s.pre op)
    (hb : RunBenign F s ops) (hr : run F s ops = some t) : Reachable F σ t ∧ t.pre = s.pre := by
  induction ops generalizing s with
  | nil =>
    injection hr with hr
    rw [← hr]; exact ⟨h, rfl⟩
  | cons op ops ih =>
    obtain ⟨hb1, hb2⟩ := hb
    have key := step_spec h.wf op (hops op (by simp)) hb1
    have hrest : ∀ o ∈ ops, OpOk σ s.pre o := fun o ho => hops o (by simp [ho])
    rw [Rw.run] at hr
    cases he : Rw.step F s op with
    | ub => rw [he] at hr; cases hr
    | exc e s1 =>
      rw [he] at key hb2 hr
      have key : s1 = s := key
      subst key
      exact ih h hrest hb2 hr
    | ok u s1 =>
      rw [he] at key hb2 hr
      have hp : s1.pre = s.pre := Keep.pre key
      obtain ⟨k1, k2⟩ := ih (h.step (hops op (by simp)) hb1 (Or.inl ⟨u, he⟩)) (by rw [hp]; exact hrest) hb2 hr
      exact ⟨k1, k2.trans hp⟩

/-- A reset tuple is a fresh tuple in the same buffer. -/
theorem Reachable.reset {F : Fix} {σ : Sch} {s t : RW} {image : List Cell} (h : Reachable F σ s) (h1 : image.length = s.pre)
    (h5 : ∀ k g, σ k = some g → k < s.pre → (image.getD k .zero).lo = 0) (e : Serial.reset s image = .ok t) : Reachable F σ t := by
  unfold Serial.reset at e
  split_ifs at e with c1 c2
  injection e with e
  have e : Rw.create s.mem s.pivot s.pre s.lim image = t := e
  rw [← e]
  have k := h.wf
  have k1 := k.inv.bt
  have k2 := k.inv.tl
  have hbase : s.base = s.pivot + s.pre := rfl
  exact .create s.mem h1 (by omega) k.inv.ll k.sch h5

/-! ## Observations -/

/-- The fixed-size loose fields and all stored values of the fields with a descriptor word (genus and identifier) in `P`
are the same in both tuples: the stored values, and whatever the getters return. (Binary blobs are excluded from the
second part: their getter reads up to four bytes past the value, see C05.) -/
structure LooseKept (s s' : RW) (P : Nat → Prop) : Prop where
  stored : ∀ w, P w → (fieldsOf s').filter (fun f => f.1 = w) = (fieldsOf s).filter fun f => f.1 = w
  read : ∀ tag g, tag2genus tag ≠ .hole → g ≠ .varbin → P (tag % 65536) → getLoose s' tag g = getLoose s tag g

/-- The preplaced area is the same in both tuples except for the `n` bytes at `lo`: all bytes, and the values of the
stretchy preplaced fields. -/
structure PreplacedKept (σ : Sch) (s s' : RW) (lo n : Nat) : Prop where
  pre : s'.pre = s.pre
  bytes : ∀ k, k < 4 * s.pre → ¬ (lo ≤ k ∧ k < lo + n) → s'.mem.byte (4 * s'.pivot + k) = s.mem.byte (4 * s.pivot + k)
  stretchy : ∀ k g, σ k = some g → k < s.pre → ¬ (lo ≤ 4 * k ∧ 4 * k < lo + n) →
    valueAt g s'.mem (s'.pivot + k) = valueAt g s.mem (s.pivot + k)

theorem has_filter {s : RW} {w : Nat} : (fieldsOf s).countP (fun f => f.1 = w) = ((liveSet s).filter fun a => (s.mem a).hi = w).card := by
  unfold fieldsOf
  rw [Multiset.countP_map]
  rfl

/-- A typed read of an untouched entry. -/
theorem getEntry_kept {σ : Sch} {s s' : RW} {a : Nat} {tag : Nat} {g : Genus} (h : WF σ s) (hg : g ≠ .varbin)
    (hl : s.live a) (hw : (s.mem a).hi = tag % 65536) (k : Kept σ s s' a) :
    getEntry s' tag g (some a) = getEntry s tag g (some a) := by
  unfold getEntry
  by_cases hgg : tag2genus tag = g
  · have hgn : ¬ tag2genus tag ≠ g := fun h => h hgg
    rw [if_neg hgn, if_neg hgn]
    simp only
    have hcg : cellGenus (s.mem a) = g := word_genus hgg hw
    have hnh : g ≠ .hole := hcg ▸ live_genus hl (h.word a hl)
    have kv := k.value h (Or.inl ⟨hl, hcg⟩) hnh
    unfold valueAt at kv
    unfold RW.start
    rw [k.cell] at kv ⊢
    by_cases c1 : g.isInplaced = true
    · rw [if_pos c1, if_pos c1]
    · rw [if_neg c1, if_neg c1]
      rw [if_neg c1, if_neg c1] at kv
      by_cases c2 : g.isFixed ∨ (s.mem a).lo ≠ 0
      · rw [if_pos c2, if_pos c2]
        rw [if_pos c2, if_pos c2, decode_eq hg, decode_eq hg] at kv
        rw [kv]
      · rw [if_neg c2, if_neg c2]
  · rw [if_pos hgg, if_pos hgg]

theorem getEntry_none {s s' : RW} {tag : Nat} {g : Genus} : getEntry s' tag g none = getEntry s tag g none := rfl

/-- Only the entry `a` changed, and it bears the word `w` before and after. -/
theorem LooseKept.of_others {σ : Sch} {s s' : RW} {a w : Nat} (h : WF σ s) (o : Others σ s s' a)
    (h1 : s.live a → (s.mem a).hi = w) (h2 : s'.live a → (s'.mem a).hi = w) : LooseKept s s' fun x => x ≠ w := by
  have hhas : ∀ x, x ≠ w → ∀ b, RW.has s' x b ↔ RW.has s x b := by
    intro x hx b
    by_cases hb : b = a
    · subst hb
      exact ⟨fun k => absurd (k.2.symm.trans (h2 k.1)) hx, fun k => absurd (k.2.symm.trans (h1 k.1)) hx⟩
    · exact o.has hb
  refine ⟨fun x hx => ?_, fun tag g hg hv hx => ?_⟩
  · have key : ∀ t : RW, (t.live a → (t.mem a).hi = w) →
        (fieldsOf t).filter (fun f => f.1 = x) = (((liveSet t).erase a).val.map (entryAt t)).filter fun f => f.1 = x := by
      intro t ht
      by_cases hl : t.live a
      · rw [fields_split hl, Multiset.filter_cons_of_neg]
        intro hh
        have hh : (t.mem a).hi = x := hh
        exact hx (hh.symm.trans (ht hl))
      · rw [erase_same hl]; rfl
    rw [key s h1, key s' h2, o.rest h]
  · unfold getLoose
    by_cases hc : isLooseCollection tag = true
    · rw [if_pos hc, if_pos hc]
    · rw [if_neg hc, if_neg hc, gid_eq]
      have hw := tag_not_hole hg
      rw [lookup_congr hw (hhas _ hx)]
      cases hl : s.lookup (tag % 65536) with
      | none => rfl
      | some b =>
        obtain ⟨⟨hlb, hwb⟩, _⟩ := (lookup_some hw).1 hl
        have hba : b ≠ a := by
          rintro rfl
          exact hx (hwb.symm.trans (h1 hlb))
        exact getEntry_kept h hv hlb hwb (o.kept b hba (Or.inl hlb))

/-- No loose field changed at all. -/
theorem LooseKept.of_all {σ : Sch} {s s' : RW} (h : WF σ s) (hl : ∀ b, s'.live b ↔ s.live b) (k : ∀ b, s.live b → Kept σ s s' b) :
    LooseKept s s' (fun _ => True) ∧ fieldsOf s' = fieldsOf s := by
  have hf : fieldsOf s' = fieldsOf s := by
    unfold fieldsOf
    have e : liveSet s' = liveSet s := by
      ext b; rw [mem_liveSet, mem_liveSet]; exact hl b
    rw [e]
    refine Multiset.map_congr rfl fun b hb => ?_
    have hb : s.live b := mem_liveSet.1 hb
    have kb := k b hb
    unfold entryAt
    rw [kb.cell]
    congr 1
    exact kb.value h (Or.inl ⟨hb, rfl⟩) (live_genus hb (h.word b hb))
  refine ⟨⟨fun _ _ => by rw [hf], fun tag g hg hv _ => ?_⟩, hf⟩
  unfold getLoose
  by_cases hc : isLooseCollection tag = true
  · rw [if_pos hc, if_pos hc]
  · rw [if_neg hc, if_neg hc, gid_eq]
    have hw := tag_not_hole hg
    have e : s'.lookup (tag % 65536) = s.lookup (tag % 65536) := lookup_congr hw fun b => by
      unfold RW.has
      rw [hl b]
      constructor
      · rintro ⟨h1, h2⟩; exact ⟨h1, by rw [← (k b h1).cell]; exact h2⟩
      · rintro ⟨h1, h2⟩; exact ⟨h1, by rw [(k b h1).cell]; exact h2⟩
    rw [e]
    cases hlk : s.lookup (tag % 65536) with
    | none => rfl
    | some b =>
      obtain ⟨⟨hlb, hwb⟩, _⟩ := (lookup_some hw).1 hlk
      exact getEntry_kept h hv hlb hwb (k b hlb)

theorem stretchy_not_hole {g : Genus} (h : g.isFixed = false) : g ≠ .hole := by rintro rfl; cases h

/-- Only an entry of the index changed: the preplaced area is the same. -/
theorem PreplacedKept.of_kept {σ : Sch} {s s' : RW} {lo n : Nat} (h : WF σ s) (hp : s'.pivot = s.pivot) (hpre : s'.pre = s.pre)
    (k : ∀ b, s.pivot ≤ b → b < s.base → ¬ (lo ≤ 4 * (b - s.pivot) ∧ 4 * (b - s.pivot) < lo + n) → Kept σ s s' b)
    (hal : lo % 4 = 0 ∧ n % 4 = 0) : PreplacedKept σ s s' lo n := by
  have hbase : s.base = s.pivot + s.pre := rfl
  refine ⟨hpre, fun x hx hnx => ?_, fun x g hσ hx hnx => ?_⟩
  · rw [hp]
    refine Memory.byte_congr ?_
    have e : (4 * s.pivot + x) / 4 = s.pivot + x / 4 := by omega
    rw [e]
    exact (k (s.pivot + x / 4) (by omega) (by omega) (by omega)).cell
  · rw [hp]
    refine Kept.value h (Or.inr ⟨by omega, by omega, ?_⟩) (stretchy_not_hole (h.sch _ _ hσ)) (k _ (by omega) (by omega) ?_)
    · rw [Nat.add_sub_cancel_left]; exact hσ
    · rw [Nat.add_sub_cancel_left]; exact hnx

theorem PreplacedKept.of_others {σ : Sch} {s s' : RW} {a : Nat} (h : WF σ s) (o : Others σ s s' a) (ha : a < s.pivot ∨ s.base ≤ a) :
    PreplacedKept σ s s' 0 0 :=
  PreplacedKept.of_kept h o.pivot o.pre (fun b h1 h2 _ => o.kept b (by omega) (Or.inr ⟨h1, h2⟩)) ⟨rfl, rfl⟩

theorem PreplacedKept.refl (σ : Sch) (s : RW) : PreplacedKept σ s s 0 0 := ⟨rfl, fun _ _ _ => rfl, fun _ _ _ _ _ => rfl⟩
theorem LooseKept.refl (s : RW) (P : Nat → Prop) : LooseKept s s P := ⟨fun _ _ => rfl, fun _ _ _ _ _ => rfl⟩

/-- What the getter returns for the field found by the lookup. -/
theorem getLoose_value {s : RW} {tag a : Nat} {g : Genus} {v : Val} (hg : tag2genus tag = g) (hc : isLooseCollection tag = false)
    (hlk : s.lookup (tag % 65536) = some a) (hv : valueAt g s.mem a = some v) (hne : g ≠ .varbin) :
    getLoose s tag g = .ok (some v) := by
  unfold getLoose
  rw [if_neg (by rw [hc]; decide), gid_eq, hlk]
  unfold getEntry
  rw [if_neg (fun h => h hg)]
  simp only
  unfold valueAt at hv
  by_cases c1 : g.isInplaced = true
  · rw [if_pos c1] at hv ⊢
    injection hv with hv; rw [hv]
  · rw [if_neg c1] at hv ⊢
    by_cases c2 : g.isFixed ∨ (s.mem a).lo ≠ 0
    · rw [if_pos c2] at hv ⊢
      rw [decode_eq hne] at hv
      show Except.ok (readPayload g s.mem (a + (s.mem a).lo)) = _
      rw [hv]
    · rw [if_neg c2] at hv; cases hv

theorem readBytes_take (m : Memory) (p n k : Nat) (h : k ≤ n) : (m.readBytes p n).take k = m.readBytes p k := by
  unfold Memory.readBytes
  rw [← List.map_take, List.take_range, Nat.min_eq_left h]

theorem getLoose_varbin {s : RW} {tag a : Nat} {v : List Nat} (hg : tag2genus tag = .varbin) (hc : isLooseCollection tag = false)
    (hlk : s.lookup (tag % 65536) = some a) (hv : valueAt .varbin s.mem a = some (.varbin v)) :
    ∃ r, getLoose s tag .varbin = .ok (some (.varbin r)) ∧ r.take v.length = v := by
  unfold getLoose
  rw [if_neg (by rw [hc]; decide), gid_eq, hlk]
  unfold getEntry
  rw [if_neg (fun h => h hg : ¬ tag2genus tag ≠ .varbin)]
  simp only
  unfold valueAt at hv
  rw [if_neg (by decide)] at hv ⊢
  by_cases c2 : (Genus.varbin).isFixed ∨ (s.mem a).lo ≠ 0
  · rw [if_pos c2] at hv ⊢
    injection hv with hv
    injection hv with hv
    refine ⟨Varbin.read s.mem (s.start a), rfl, ?_⟩
    subst hv
    unfold varbinBytes Varbin.read
    rw [Memory.length_readBytes]
    unfold RW.start
    refine readBytes_take _ _ _ _ ?_
    unfold Varbin.length units2bytes
    rw [Nat.shiftLeft_eq]
    split_ifs <;> omega
  · rw [if_neg c2] at hv; cases hv

end Fptu.Props
