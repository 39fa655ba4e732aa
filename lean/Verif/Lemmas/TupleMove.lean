import Verif.Lemmas.TupleCopy
import Verif.Lemmas.TuplePure
/-!
# A tuple moved to another place as a whole
-/
namespace Fptu.Rw
open Fptu.Gear Finset

/-- `t` holds the used units of `s` at another place. -/
structure Moved (s t : RW) : Prop where
  pivot : t.pivot = t.head + (s.pivot - s.head)
  pre : t.pre = s.pre
  tail : t.tail = t.head + (s.tail - s.head)
  mem : ∀ i, i < s.tail - s.head → t.mem (t.head + i) = s.mem (s.head + i)
  jc : t.jc = s.jc
  jv : t.jv = s.jv
  tl : t.tail ≤ t.lim
  ll : t.lim ≤ 65534

theorem T_range (φ : Nat → Cell → ℤ) (m : Memory) (lo n : Nat) : T φ m lo (lo + n) = ∑ i ∈ range n, φ (lo + i) (m (lo + i)) := by
  unfold T
  rw [Finset.sum_Ico_eq_sum_range, show lo + n - lo = n by omega]

theorem T_move {φ ψ : Nat → Cell → ℤ} {m m' : Memory} {lo lo' n : Nat}
    (h : ∀ i, i < n → ψ (lo' + i) (m' (lo' + i)) = φ (lo + i) (m (lo + i))) : T ψ m' lo' (lo' + n) = T φ m lo (lo + n) := by
  rw [T_range, T_range]
  exact Finset.sum_congr rfl fun i hi => h i (Finset.mem_range.1 hi)

theorem ind_move (a b p n u : Nat) : ind (a + p) n (a + u) = ind (b + p) n (b + u) := by
  unfold ind; split_ifs <;> omega

namespace Moved
variable {σ : Sch} {s t : RW}

theorem same (m : Moved s t) (h : WF σ s) {i : Nat} (hi : i < s.base - s.head) {g : Genus} (hf : FieldAt σ s (s.head + i) g) (hg : g ≠ .hole) :
    Same g s.mem t.mem (s.head + i) (t.head + i) := by
  have hb := h.inv.bt
  have hhp := h.inv.hp
  have hbase : s.base = s.pivot + s.pre := rfl
  have hc := m.mem i (by omega)
  have hlen : lenOf σ s (s.head + i) = fieldUnits s.mem g (s.head + i) := hf.len
  have hcl : clen s.pivot (lenOf σ s) (s.head + i) (s.mem (s.head + i)) = fieldUnits s.mem g (s.head + i) := by
    unfold clen
    rw [if_neg, hlen]
    rintro ⟨h1, h2⟩
    rcases hf with hf | hf
    · exact hf.1.2.2 h2
    · omega
  refine ⟨fun _ => by rw [hc], by rw [hc], fun _ j hj => ?_, fun hfx h0 => ?_⟩
  · have ins := h.inv.inside (a := s.head + i) (by omega) (by omega) (by rw [hcl]; omega)
    rw [hcl] at ins
    have ins2 : s.head + i + (s.mem (s.head + i)).lo + fieldUnits s.mem g (s.head + i) ≤ s.tail := ins.2
    rw [hc]
    have := m.mem (i + (s.mem (s.head + i)).lo + j) (by omega)
    rw [show t.head + i + (s.mem (s.head + i)).lo + j = t.head + (i + (s.mem (s.head + i)).lo + j) by omega, this]
    congr 1; omega
  · rw [← hlen]; exact h.pos _ _ ⟨hfx, hf⟩ h0

theorem live_iff (m : Moved s t) (h : WF σ s) (i : Nat) : t.live (t.head + i) ↔ s.live (s.head + i) := by
  have hb := h.inv.bt
  have hhp := h.inv.hp
  have hbase : s.base = s.pivot + s.pre := rfl
  have hp := m.pivot
  unfold RW.live RW.isHole
  constructor
  · rintro ⟨h1, h2, h3⟩
    rw [m.mem i (by omega)] at h3
    exact ⟨by omega, by omega, h3⟩
  · rintro ⟨h1, h2, h3⟩
    rw [m.mem i (by omega)]
    exact ⟨by omega, by omega, h3⟩

theorem hole_iff (m : Moved s t) (h : WF σ s) (i : Nat) : t.hole (t.head + i) ↔ s.hole (s.head + i) := by
  have hb := h.inv.bt
  have hhp := h.inv.hp
  have hbase : s.base = s.pivot + s.pre := rfl
  have hp := m.pivot
  unfold RW.hole RW.isHole
  constructor
  · rintro ⟨h1, h2, h3⟩
    rw [m.mem i (by omega)] at h3
    exact ⟨by omega, by omega, h3⟩
  · rintro ⟨h1, h2, h3⟩
    rw [m.mem i (by omega)]
    exact ⟨by omega, by omega, h3⟩

theorem len (m : Moved s t) (h : WF σ s) {i : Nat} (hi : i < s.base - s.head) :
    lenOf σ t (t.head + i) = lenOf σ s (s.head + i) := by
  have hb := h.inv.bt
  have hhp := h.inv.hp
  have hbase : s.base = s.pivot + s.pre := rfl
  have hp := m.pivot
  have hc := m.mem i (by omega)
  unfold lenOf
  by_cases c : s.head + i < s.pivot
  · rw [if_pos c, if_pos (show t.head + i < t.pivot by omega), hc]
    by_cases hh : s.isHole (s.head + i)
    · have hh : (s.mem (s.head + i)).hi / 2048 = 31 := hh
      have : cellGenus (s.mem (s.head + i)) = .hole := by unfold cellGenus; rw [hh]; rfl
      rw [this]; rfl
    · have hl : s.live (s.head + i) := ⟨by omega, c, hh⟩
      exact (m.same h hi (Or.inl ⟨hl, rfl⟩) (live_genus hl (h.word _ hl))).units
  · rw [if_neg c, if_neg (show ¬ t.head + i < t.pivot by omega), show t.head + i - t.pivot = s.head + i - s.pivot by omega]
    cases hσ : σ (s.head + i - s.pivot) with
    | none => rfl
    | some g => exact (m.same h hi (Or.inr ⟨by omega, by omega, hσ⟩) (by rintro rfl; have := h.sch _ _ hσ; cases this)).units

theorem copied (m : Moved s t) (h : WF σ s) : Copied σ s t (fun b => s.head + (b - t.head)) := by
  have hb := h.inv.bt
  have hhp := h.inv.hp
  have hbase : s.base = s.pivot + s.pre := rfl
  have hp := m.pivot
  refine ⟨fun b hb => ?_, fun a ha => ?_, fun b c hb hc hbc => ?_, m.pre, fun k g hσ hk => ?_, fun k hσ hk => ?_⟩
  · obtain ⟨i, rfl⟩ : ∃ i, b = t.head + i := ⟨b - t.head, by have := hb.1; omega⟩
    have hl := (m.live_iff h i).1 hb
    rw [show s.head + (t.head + i - t.head) = s.head + i by omega]
    have hlt : s.head + i < s.pivot := hl.2.1
    exact ⟨hl, by rw [m.mem i (by omega)], m.same h (by omega) (Or.inl ⟨hl, rfl⟩) (live_genus hl (h.word _ hl))⟩
  · have h1 : s.head ≤ a := ha.1
    refine ⟨t.head + (a - s.head), (m.live_iff h _).2 (by rw [show s.head + (a - s.head) = a by omega]; exact ha), by omega⟩
  · have := hb.1
    show s.head + _ < s.head + _
    omega
  · have e1 : t.pivot + k = t.head + (s.pivot - s.head + k) := by omega
    have e2 : s.pivot + k = s.head + (s.pivot - s.head + k) := by omega
    rw [e1, e2]
    refine ⟨by rw [m.mem _ (by omega)], m.same h (by omega) (Or.inr ⟨by omega, by omega, ?_⟩) (by rintro rfl; have := h.sch _ _ hσ; cases this)⟩
    rw [show s.head + (s.pivot - s.head + k) - s.pivot = k by omega]; exact hσ
  · have e1 : t.pivot + k = t.head + (s.pivot - s.head + k) := by omega
    have e2 : s.pivot + k = s.head + (s.pivot - s.head + k) := by omega
    rw [e1, e2, m.mem _ (by omega)]

theorem wf (m : Moved s t) (h : WF σ s) : WF σ t := by
  have hb := h.inv.bt
  have hhp := h.inv.hp
  have hbase : s.base = s.pivot + s.pre := rfl
  have hbase' : t.base = t.pivot + t.pre := rfl
  have hp := m.pivot
  have hpre := m.pre
  have htl := m.tail
  have addr : ∀ b, t.head ≤ b → ∃ i, b = t.head + i := fun b hb => ⟨b - t.head, by omega⟩
  have tb : t.base = t.head + (s.base - s.head) := by omega
  refine ⟨⟨by omega, by omega, m.tl, m.ll, fun u => ?_, ?_, ?_, fun _ => le_rfl⟩, ⟨fun a ha h0 => ?_, fun a b ha hbb h0 h1 => ?_, fun hlt hh => ?_⟩,
    fun a ha => ?_, fun a g hs h0 => ?_, h.sch⟩
  · have key : ∀ i, i < s.base - s.head → clen t.pivot (lenOf σ t) (t.head + i) (t.mem (t.head + i)) =
        clen s.pivot (lenOf σ s) (s.head + i) (s.mem (s.head + i)) := by
      intro i hi
      unfold clen
      rw [m.mem i (by omega), m.len h hi]
      by_cases c : s.head + i < s.pivot ∧ Cell.isHole (s.mem (s.head + i))
      · rw [if_pos c, if_pos ⟨by have := c.1; omega, c.2⟩]
      · rw [if_neg c, if_neg (fun k => c ⟨by have := k.1; omega, k.2⟩)]
    by_cases hu : t.head ≤ u
    · obtain ⟨j, rfl⟩ := addr u hu
      have hcov := h.inv.cover (s.head + j)
      have e1 : T (phiW t.pivot (lenOf σ t) (t.head + j)) t.mem t.head t.base = T (phiW s.pivot (lenOf σ s) (s.head + j)) s.mem s.head s.base := by
        rw [tb, show s.base = s.head + (s.base - s.head) by omega]
        rw [show s.head + (s.base - s.head) - s.head = s.base - s.head by omega]
        refine T_move fun i hi => ?_
        unfold phiW
        rw [key i hi, m.mem i (by omega), Nat.add_assoc, Nat.add_assoc]
        exact ind_move _ _ _ _ _
      rw [e1, hcov, tb, show t.tail - (t.head + (s.base - s.head)) = s.tail - s.base by omega]
      conv_lhs => rw [show s.base = s.head + (s.base - s.head) by omega]
      rw [show s.tail - (s.head + (s.base - s.head)) = s.tail - s.base by omega]
      exact ind_move _ _ _ _ _
    · have e1 : T (phiW t.pivot (lenOf σ t) u) t.mem t.head t.base = 0 := by
        unfold T
        refine Finset.sum_eq_zero fun a ha => ?_
        rw [Finset.mem_Ico] at ha
        unfold phiW ind
        rw [if_neg (by omega)]
      rw [e1]
      unfold ind
      rw [if_neg (by omega), zero_add]
  · rw [m.jc, h.inv.cnt, hp]
    conv_lhs => rw [show s.pivot = s.head + (s.pivot - s.head) by omega]
    exact (T_move fun i hi => by unfold phiC; rw [m.mem i (by omega)]).symm
  · rw [m.jv, h.inv.vol, hp]
    conv_lhs => rw [show s.pivot = s.head + (s.pivot - s.head) by omega]
    exact (T_move fun i hi => by unfold phiV; rw [m.mem i (by omega)]).symm
  · obtain ⟨i, rfl⟩ := addr a ha.1
    have hs := (m.hole_iff h i).1 ha
    have hlt : s.head + i < s.pivot := hs.2.1
    have hc := m.mem i (by omega)
    have hu : t.units (t.head + i) = s.units (s.head + i) := by show Cell.units _ = Cell.units _; rw [hc]
    have := h.canon.noTail _ hs (by rw [← hu]; exact h0)
    show t.head + i + (t.mem (t.head + i)).lo + t.units (t.head + i) ≠ t.tail
    have this : s.head + i + (s.mem (s.head + i)).lo + s.units (s.head + i) ≠ s.tail := this
    rw [hu, hc]
    omega
  · obtain ⟨i, rfl⟩ := addr a ha.1
    obtain ⟨j, rfl⟩ := addr b hbb.1
    have hs := (m.hole_iff h i).1 ha
    have hs' := (m.hole_iff h j).1 hbb
    have hlt : s.head + i < s.pivot := hs.2.1
    have hlt' : s.head + j < s.pivot := hs'.2.1
    have hc := m.mem i (by omega)
    have hc' := m.mem j (by omega)
    have hu : t.units (t.head + i) = s.units (s.head + i) := by show Cell.units _ = Cell.units _; rw [hc]
    have hu' : t.units (t.head + j) = s.units (s.head + j) := by show Cell.units _ = Cell.units _; rw [hc']
    have := h.canon.noAdj _ _ hs hs' (by rw [← hu]; exact h0) (by rw [← hu']; exact h1)
    have this : s.head + i + (s.mem (s.head + i)).lo + s.units (s.head + i) ≠ s.head + j + (s.mem (s.head + j)).lo := this
    show t.head + i + (t.mem (t.head + i)).lo + t.units (t.head + i) ≠ t.head + j + (t.mem (t.head + j)).lo
    rw [hu, hc, hc']
    omega
  · have hc := m.mem 0 (by omega)
    have hh : Cell.isHole (t.mem (t.head + 0)) := hh
    rw [hc] at hh
    have := h.canon.headNZ (by omega) hh
    show Cell.units (t.mem (t.head + 0)) ≠ 0
    rw [hc]; exact this
  · obtain ⟨i, rfl⟩ := addr a ha.1
    have hs := (m.live_iff h i).1 ha
    have hlt : s.head + i < s.pivot := hs.2.1
    rw [m.mem i (by omega)]
    exact h.word _ hs
  · have hin : t.head ≤ a ∧ a < t.base := by
      rcases hs.2 with k | k
      · have := k.1.1; have := k.1.2.1; omega
      · omega
    obtain ⟨i, rfl⟩ := addr a hin.1
    have hi : i < s.base - s.head := by omega
    rw [m.len h hi]
    rw [m.mem i (by omega)] at h0
    refine h.pos _ g ⟨hs.1, ?_⟩ h0
    rcases hs.2 with ⟨k1, k2⟩ | ⟨k1, k2, k3⟩
    · left
      rw [m.mem i (by omega)] at k2
      exact ⟨(m.live_iff h i).1 k1, k2⟩
    · right
      refine ⟨by omega, by omega, ?_⟩
      rw [show s.head + i - s.pivot = t.head + i - t.pivot by omega]; exact k3

theorem pure (m : Moved s t) (h : WF σ s) (hp : Pure s) : Pure t := by
  have hb := h.inv.bt
  have hhp := h.inv.hp
  have hbase : s.base = s.pivot + s.pre := rfl
  have hpv := m.pivot
  intro a h1 h2
  obtain ⟨i, rfl⟩ : ∃ i, a = t.head + i := ⟨a - t.head, by omega⟩
  have := hp (s.head + i) (by omega) (by omega)
  rw [m.mem i (by omega)]
  exact this

end Moved
end Fptu.Rw
