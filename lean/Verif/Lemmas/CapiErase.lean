import Verif.Lemmas.TupleErase
import Verif.Model.CapiRw
import Verif.Props.Capi
/-! # Erasing all fields of a selection through the C API -/
namespace Fptu.CapiRw
open Fptu.Gear Fptu.Rw Fptu.Props

/-- The fields of `s` outside the selection are exactly the fields of `s'`, all untouched. -/
structure OthersP (σ : Sch) (s s' : RW) (P : Nat → Prop) : Prop where
  pivot : s'.pivot = s.pivot
  pre : s'.pre = s.pre
  lim : s'.lim = s.lim
  live : ∀ b, s'.live b ↔ s.live b ∧ ¬ P (s.mem b).hi
  kept : ∀ b, ¬ (s.live b ∧ P (s.mem b).hi) → s.owner b → Kept σ s s' b

theorem OthersP.step {σ : Sch} {s t u : RW} {a : Nat} {P : Nat → Prop} (h : WF σ s) (ha : s.live a ∧ P (s.mem a).hi)
    (o : Others σ s t a) (hn : ¬ t.live a) (k : OthersP σ t u P) : OthersP σ s u P := by
  refine ⟨k.pivot.trans o.pivot, k.pre.trans o.pre, k.lim.trans o.lim, fun b => ?_, fun b hb ho => ?_⟩
  · rw [k.live b]
    by_cases hb : b = a
    · subst hb
      exact ⟨fun h => absurd h.1 hn, fun h => absurd ha.2 h.2⟩
    · rw [o.live b hb]
      constructor
      · rintro ⟨h1, h2⟩; rw [(o.kept b hb (Or.inl h1)).cell] at h2; exact ⟨h1, h2⟩
      · rintro ⟨h1, h2⟩; refine ⟨h1, ?_⟩; rw [(o.kept b hb (Or.inl h1)).cell]; exact h2
  · have hba : b ≠ a := by rintro rfl; exact hb ha
    have k1 := o.kept b hba ho
    have k2 := k.kept b (fun hh => hb ⟨(o.live b hba).1 hh.1, by rw [← k1.cell]; exact hh.2⟩) ((o.owner hba).2 ho)
    have hlen := k1.len h ho o.pivot
    have hst : t.start b = s.start b := by show b + (t.mem b).lo = _; rw [k1.cell]
    refine ⟨k2.cell.trans k1.cell, fun x h1 h2 => ?_⟩
    rw [k2.payload x (by rw [hst]; exact h1) (by rw [hst, hlen]; exact h2), k1.payload x h1 h2]

/-- Results of erasing a selection. -/
structure ErasePostP (σ : Sch) (s s' : RW) (P : Nat → Prop) [DecidablePred P] (n : Nat) : Prop where
  wf : WF σ s'
  others : OthersP σ s s' P
  fields : fieldsOf s' = (fieldsOf s).filter fun f => ¬ P f.1
  count : n = (fieldsOf s).countP fun f => P f.1
  tail : s'.tail ≤ s.tail

theorem fields_noneP {s : RW} {P : Nat → Prop} (h : ∀ b, s.live b → ¬ P (s.mem b).hi) : ∀ f ∈ fieldsOf s, ¬ P f.1 := by
  intro f hf hw
  unfold fieldsOf at hf
  obtain ⟨a, ha, rfl⟩ := Multiset.mem_map.1 hf
  exact h a (mem_liveSet.1 ha) hw

theorem ErasePostP.none {σ : Sch} {s : RW} {P : Nat → Prop} [DecidablePred P] (h : WF σ s)
    (hn : ∀ b, s.live b → ¬ P (s.mem b).hi) : ErasePostP σ s s P 0 := by
  refine ⟨h, ⟨rfl, rfl, rfl, fun b => ⟨fun hl => ⟨hl, hn b hl⟩, fun h => h.1⟩, fun b _ _ => Kept.refl σ s b⟩, ?_, ?_, le_rfl⟩
  · exact (Multiset.filter_eq_self.2 (fields_noneP hn)).symm
  · exact (Multiset.countP_eq_zero.2 (fields_noneP hn)).symm

theorem ErasePostP.step {σ : Sch} {s t u : RW} {a n : Nat} {P : Nat → Prop} [DecidablePred P] (h : WF σ s)
    (ha : s.live a ∧ P (s.mem a).hi) (o : Others σ s t a) (hn : ¬ t.live a)
    (ht : t.tail ≤ s.tail) (k : ErasePostP σ t u P n) : ErasePostP σ s u P (n + 1) := by
  have hf := fields_remove h o ha.1 hn
  have hw : P (entryAt s a).1 := ha.2
  refine ⟨k.wf, OthersP.step h ha o hn k.others, ?_, ?_, k.tail.trans ht⟩
  · rw [k.fields, hf, Multiset.filter_cons_of_neg _ (by simpa using hw)]
  · rw [hf, Multiset.countP_cons_of_pos (p := fun f : Nat × Option Val => P f.1) _ hw, k.count]

/-- The words a selector of the C API selects. -/
def Sel (column tf : Nat) (w : Nat) : Prop := Selected (w % 65536) column tf
instance (column tf : Nat) : DecidablePred (Sel column tf) := fun w => by unfold Sel; infer_instance

theorem Sel.not_hole {column tf w : Nat} (h : Sel column tf w) (hw : w < 65536) : w / 2048 ≠ 31 := by
  have := h.1
  unfold wordGenus at this
  rwa [Nat.mod_eq_of_lt hw] at this

theorem eraseLoop_spec {σ : Sch} {column tf : Nat} (hc : column ≤ 2047) (htf : tf < 2 ^ 31) {s : RW} (h : WF σ s) (pf count : Nat)
    (hpf : pf ≤ s.pivot) (hat : pf < s.pivot → s.live pf ∧ Sel column tf (s.mem pf).hi)
    (hmin : ∀ b, s.live b → Sel column tf (s.mem b).hi → pf ≤ b) :
    (eraseLoop column tf s.pivot s pf count).Sat (2047 < s.jv + sumOf σ s (Sel column tf)) (fun _ _ => False)
      (fun n s' => ∃ k, n = count + k ∧ ErasePostP σ s s' (Sel column tf) k) := by
  induction hk : s.pivot - pf using Nat.strong_induction_on generalizing s pf count with
  | _ m ih => ?_
  subst hk
  rw [eraseLoop]
  by_cases hlt : pf < s.pivot
  swap
  · rw [dif_neg hlt]
    refine ⟨0, rfl, ErasePostP.none h fun b hb hp => ?_⟩
    have := hmin b hb hp
    have := hb.2.1
    omega
  rw [dif_pos hlt]
  have ha := hat hlt
  have key := eraseEntry_spec h ha.1
  have he : eraseField s pf = eraseEntry s pf := by unfold eraseField; rw [if_neg ha.1.2.2]
  rw [he]
  cases hr : eraseEntry s pf with
  | ub => rw [hr] at key; exact lt_of_lt_of_le key (Nat.add_le_add_left (le_sumOf (Sel column tf) ha.1 ha.2) _)
  | exc e s' => rw [hr] at key; exact key.elim
  | ok _ t =>
    rw [hr] at key
    obtain ⟨k1, k2, k3, k4, k5⟩ := key
    have hfil : Capi.isFilter tf = true := by
      unfold Capi.isFilter
      rw [Bits.and_pow, Nat.div_eq_of_lt htf]; rfl
    have hU : 2047 < t.jv + sumOf σ t (Sel column tf) → 2047 < s.jv + sumOf σ s (Sel column tf) := by
      intro hh
      have := sumOf_step (Sel column tf) h ha.1 ha.2 k2 k3
      have := jv_step h k1 ha.1 k2 k3 k4
      omega
    have hp : t.pivot = s.pivot := k2.pivot
    -- entries of `t` behind `pf`
    have hmt : ∀ b, t.live b → Sel column tf (t.mem b).hi → pf + 1 ≤ b := by
      intro b hb hs
      have hne : b ≠ pf := by rintro rfl; exact k3 hb
      have hl := (k2.live b hne).1 hb
      rw [(k2.kept b hne (Or.inl hl)).cell] at hs
      have := hmin b hl hs
      omega
    have hlv : ∀ b, pf < b → b < s.pivot → ¬ t.isHole b → s.live b ∧ (t.mem b).hi = (s.mem b).hi := by
      intro b h1 h2 h3
      have e : (t.mem b).hi = (s.mem b).hi := (k5 b).resolve_right h3
      refine ⟨⟨?_, h2, ?_⟩, e⟩
      · have := ha.1.1; omega
      · intro hh
        apply h3
        have hh : (s.mem b).hi / 2048 = 31 := hh
        show (t.mem b).hi / 2048 = 31
        rw [e]; exact hh
    show ((if Capi.isFilter tf = true then
        (if hb : pf < Capi.next (fun i => (t.mem i).hi % 65536) pf s.pivot column tf then
          eraseLoop column tf s.pivot t (Capi.next (fun i => (t.mem i).hi % 65536) pf s.pivot column tf) (count + 1) else .ub)
        else .ok (count + 1) t) : Out Nat).Sat _ _ _
    rw [if_pos hfil]
    have hnext := C36_next (fun i => (t.mem i).hi % 65536) (fun i => Nat.mod_lt _ (by decide)) pf s.pivot column tf hc (Or.inl htf)
    generalize Capi.next (fun i => (t.mem i).hi % 65536) pf s.pivot column tf = b at hnext ⊢
    have hbpf : pf < b := by rcases hnext with ⟨e, _⟩ | ⟨e, _⟩ <;> omega
    rw [dif_pos hbpf]
    have hbe : b ≤ t.pivot := by rcases hnext with ⟨e, _⟩ | ⟨_, e, _⟩ <;> omega
    have hbat : b < t.pivot → t.live b ∧ Sel column tf (t.mem b).hi := by
      intro hb
      rcases hnext with ⟨e, _⟩ | ⟨e1, e2, e3, e4⟩
      · omega
      · have e3 : Selected ((t.mem b).hi % 65536) column tf := e3
        have hnh : ¬ t.isHole b := by
          intro hh
          have hh : (t.mem b).hi / 2048 = 31 := hh
          have h31 := e3.1
          unfold wordGenus at h31
          rcases k5 b with e | e
          · by_cases hs : s.isHole b
            · apply h31
              rw [e]
              have : (s.mem b).hi / 2048 = 31 := hs
              omega
            · apply hs
              show (s.mem b).hi / 2048 = 31
              rw [← e]; exact hh
          · omega
        have hne : b ≠ pf := by omega
        exact ⟨(k2.live b hne).2 (hlv b hbpf e2 hnh).1, e3⟩
    have hbmin : ∀ c, t.live c → Sel column tf (t.mem c).hi → b ≤ c := by
      intro c hc1 hc2
      by_contra hcb
      have h1 := hmt c hc1 hc2
      have h2 := hc1.2.1
      rcases hnext with ⟨e, e4⟩ | ⟨e1, e2, e3, e4⟩
      · exact e4 c h1 (by omega) hc2
      · exact e4 c h1 (by omega) hc2
    have key2 := ih (t.pivot - b) (by omega) k1 b (count + 1) hbe hbat hbmin rfl
    rw [hp] at key2
    refine key2.mono hU (fun _ _ => id) ?_
    rintro n s' ⟨k, hk, hpost⟩
    exact ⟨k + 1, by omega, ErasePostP.step h ha k2 k3 k4 hpost⟩

end Fptu.CapiRw
