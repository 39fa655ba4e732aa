import Mathlib.Algebra.BigOperators.Ring.Finset
import Verif.Lemmas.TupleHist
/-!
# The payload area is the sum of the payloads
-/
namespace Fptu.Rw
open Fptu.Gear Finset

theorem T_split {φ : Nat → Cell → ℤ} {m : Memory} {lo mid hi : Nat} (h1 : lo ≤ mid) (h2 : mid ≤ hi) :
    T φ m lo hi = T φ m lo mid + T φ m mid hi := by
  unfold T; exact (Finset.sum_Ico_consecutive _ h1 h2).symm

theorem inv_total {s : RW} {len : Nat → Nat} (h : Inv s len fun _ => 0) :
    ((s.tail - s.base : Nat) : ℤ) = T (fun a c => (clen s.pivot len a c : ℤ)) s.mem s.head s.base := by
  have hb := h.bt
  have h16 := h.lt16
  have tot : ∑ u ∈ Ico 0 65536, (T (phiW s.pivot len u) s.mem s.head s.base + 0)
      = ∑ u ∈ Ico 0 65536, ind s.base (s.tail - s.base) u := Finset.sum_congr rfl fun u _ => h.cover u
  rw [sum_ind _ _ _ (by omega)] at tot
  rw [← tot]
  have e1 : ∑ u ∈ Ico 0 65536, (T (phiW s.pivot len u) s.mem s.head s.base + 0)
      = T (fun a c => ∑ u ∈ Ico 0 65536, phiW s.pivot len u a c) s.mem s.head s.base := by
    unfold T
    rw [← Finset.sum_comm]
    exact Finset.sum_congr rfl fun u _ => add_zero _
  rw [e1]
  unfold T
  refine Finset.sum_congr rfl fun a ha => ?_
  rw [Finset.mem_Ico] at ha
  show ∑ u ∈ Ico 0 65536, ind (a + (s.mem a).lo) (clen s.pivot len a (s.mem a)) u = (clen s.pivot len a (s.mem a) : ℤ)
  by_cases h0 : clen s.pivot len a (s.mem a) = 0
  · rw [h0]
    refine Finset.sum_eq_zero fun u _ => ?_
    unfold ind; rw [if_neg (by omega)]
  · have := h.inside (a := a) ha.1 ha.2 (by omega)
    have h2 : a + (s.mem a).lo + clen s.pivot len a (s.mem a) ≤ s.tail := this.2
    rw [sum_ind _ _ _ (by omega)]

/-- The sizes of all payloads: fields of the index, stretchy preplaced fields. -/
def payloadOf (σ : Sch) (s : RW) : Nat :=
  (∑ a ∈ liveSet s, fieldUnits s.mem (cellGenus (s.mem a)) a) +
    ∑ k ∈ range s.pre, (match σ k with | some g => fieldUnits s.mem g (s.pivot + k) | none => 0)

theorem wf_total {σ : Sch} {s : RW} (h : WF σ s) : s.tail - s.base = s.jv + payloadOf σ s := by
  have hhp := h.inv.hp
  have hbase : s.base = s.pivot + s.pre := rfl
  have t := inv_total h.inv
  rw [T_split (mid := s.pivot) hhp (by omega)] at t
  have e1 : T (fun a c => (clen s.pivot (lenOf σ s) a c : ℤ)) s.mem s.head s.pivot =
      T phiV s.mem s.head s.pivot + ((∑ a ∈ liveSet s, fieldUnits s.mem (cellGenus (s.mem a)) a : Nat) : ℤ) := by
    unfold T
    have hl : liveSet s = (Ico s.head s.pivot).filter fun a => ¬ s.isHole a := by
      ext a
      rw [mem_liveSet, Finset.mem_filter, Finset.mem_Ico]
      unfold RW.live
      tauto
    rw [hl, Finset.sum_filter]
    rw [Nat.cast_sum, ← Finset.sum_add_distrib]
    refine Finset.sum_congr rfl fun a ha => ?_
    rw [Finset.mem_Ico] at ha
    show ((clen s.pivot (lenOf σ s) a (s.mem a) : Nat) : ℤ) = _
    unfold phiV clen
    by_cases hh : Cell.isHole (s.mem a)
    · rw [if_pos ⟨ha.2, hh⟩, if_pos hh, if_neg (fun k : ¬ s.isHole a => k hh)]; simp
    · rw [if_neg (fun k => hh k.2), if_neg hh, if_pos (show ¬ s.isHole a from hh)]
      unfold lenOf
      rw [if_pos ha.2]; simp
  have e2 : T (fun a c => (clen s.pivot (lenOf σ s) a c : ℤ)) s.mem s.pivot s.base =
      ((∑ k ∈ range s.pre, (match σ k with | some g => fieldUnits s.mem g (s.pivot + k) | none => 0) : Nat) : ℤ) := by
    unfold T
    rw [hbase, Finset.sum_Ico_eq_sum_range, show s.pivot + s.pre - s.pivot = s.pre by omega]
    rw [Nat.cast_sum]
    refine Finset.sum_congr rfl fun k hk => ?_
    show ((clen s.pivot (lenOf σ s) (s.pivot + k) (s.mem (s.pivot + k)) : Nat) : ℤ) = _
    unfold clen
    rw [if_neg (by omega)]
    unfold lenOf
    rw [if_neg (by omega), Nat.add_sub_cancel_left]
    cases σ k <;> rfl
  rw [e1, e2, ← h.inv.vol] at t
  unfold payloadOf
  omega

theorem wf_count {σ : Sch} {s : RW} (h : WF σ s) : s.pivot - s.head = s.jc + Multiset.card (fieldsOf s) := by
  have hhp := h.inv.hp
  have hl : liveSet s = (Ico s.head s.pivot).filter fun a => ¬ s.isHole a := by
    ext a
    rw [mem_liveSet, Finset.mem_filter, Finset.mem_Ico]
    unfold RW.live
    tauto
  have e1 : (s.jc : ℤ) = (((Ico s.head s.pivot).filter fun a => s.isHole a).card : ℤ) := by
    rw [h.inv.cnt]
    unfold T
    rw [Finset.card_filter, Nat.cast_sum]
    refine Finset.sum_congr rfl fun a _ => ?_
    unfold phiC
    by_cases hh : Cell.isHole (s.mem a)
    · rw [if_pos hh, if_pos (show s.isHole a from hh)]; rfl
    · rw [if_neg hh, if_neg (show ¬ s.isHole a from hh)]; rfl
  have e2 : Multiset.card (fieldsOf s) = (liveSet s).card := by
    unfold fieldsOf; rw [Multiset.card_map]; rfl
  have e3 := Finset.card_filter_add_card_filter_not (s := Ico s.head s.pivot) (fun a => s.isHole a)
  rw [Nat.card_Ico] at e3
  have e1 : s.jc = ((Ico s.head s.pivot).filter fun a => s.isHole a).card := by exact_mod_cast e1
  rw [e2, hl, e1]
  omega

end Fptu.Rw
