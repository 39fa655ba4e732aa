import Verif.Lemmas.GearRelease2
/-!
# Specification of `release_data`
-/
namespace Fptu.Gear
open Finset

/-- Result of `release_data`. -/
structure RelPost (s s' : RW) (len : Nat → Nat) (ex : Nat → ℤ) (n : Nat) (before after res : Option Nat) : Prop where
  inv : Inv s' len ex
  canon : Canon s'
  frame : Frame s s' fun _ => False
  tail : s'.tail ≤ s.tail
  res : (∃ r, res = some r ∧ s'.hole r ∧ s'.units r = n + optUnits s before + optUnits s after ∧ s'.tail = s.tail) ∨
    (res = none ∧ s'.tail + n + optUnits s before + optUnits s after ≤ s.tail)
  others : ∀ x, s.hole x → s.units x ≠ 0 → before ≠ some x → after ≠ some x → s'.hole x ∧ s'.mem x = s.mem x

/-- Changing one hole cell `a` into a nonempty hole keeps the first entry nonempty. -/
theorem headNZ_change {s s' : RW} (h : s.headNZ) {a : Nat} (hh : s'.head = s.head) (hp : s'.pivot = s.pivot)
    (hm : ∀ b, b ≠ a → s'.mem b = s.mem b) (hu : s'.units a ≠ 0) : s'.headNZ := by
  intro h1 h2
  rw [hh] at h1 h2 ⊢
  rw [hp] at h1
  by_cases hae : s.head = a
  · rw [hae]; exact hu
  · have e := hm _ hae
    have h2' : Cell.isHole (s'.mem s.head) := h2
    show Cell.units (s'.mem s.head) ≠ 0
    rw [e] at h2' ⊢
    exact h h1 h2'

/-- Canonical form after one hole cell became the hole `[p, p + n)`. -/
theorem Canon.change {s s' : RW} (hC : Canon s) {a p n : Nat} (hh : s'.head = s.head) (hp : s'.pivot = s.pivot)
    (ht : s'.tail = s.tail)
    (hm : ∀ b, b ≠ a → s'.mem b = s.mem b) (hs : s'.start a = p) (hu : s'.units a = n) (hn : n ≠ 0) (hpt : p + n ≠ s.tail)
    (hb : ∀ x, s.hole x → s.units x ≠ 0 → x ≠ a → s.holeEnd x ≠ p)
    (ha : ∀ x, s.hole x → s.units x ≠ 0 → x ≠ a → s.start x ≠ p + n) : Canon s' := by
  have back : ∀ x, x ≠ a → s'.hole x → s'.units x ≠ 0 → s.hole x ∧ s.units x ≠ 0 ∧ s'.start x = s.start x ∧ s'.holeEnd x = s.holeEnd x := by
    intro x hx h1 h2
    have e := hm x hx
    refine ⟨⟨by rw [← hh]; exact h1.1, by rw [← hp]; exact h1.2.1, ?_⟩, ?_, ?_, ?_⟩
    · have := h1.2.2; unfold RW.isHole at this; rw [e] at this; exact this
    · unfold RW.units at *; rw [e] at h2; exact h2
    · show x + (s'.mem x).lo = _; rw [e]
    · show x + (s'.mem x).lo + Cell.units (s'.mem x) = _; rw [e]
  have hea : s'.holeEnd a = p + n := by show s'.start a + s'.units a = _; rw [hs, hu]
  refine ⟨fun x hx hxu => ?_, fun x y hx hy hxu hyu => ?_, headNZ_change hC.headNZ hh hp hm (by rw [hu]; exact hn)⟩
  · rw [ht]
    by_cases hxa : x = a
    · rw [hxa, hea]; exact hpt
    · obtain ⟨q1, q2, q3, q4⟩ := back x hxa hx hxu
      rw [q4]; exact hC.noTail x q1 q2
  · by_cases hxa : x = a
    · by_cases hya : y = a
      · rw [hxa, hya, hea, hs]; omega
      · obtain ⟨q1, q2, q3, q4⟩ := back y hya hy hyu
        rw [hxa, hea, q3]; exact Ne.symm (ha y q1 q2 hya)
    · obtain ⟨q1, q2, q3, q4⟩ := back x hxa hx hxu
      by_cases hya : y = a
      · rw [hya, hs, q4]; exact hb x q1 q2 hxa
      · obtain ⟨r1, r2, r3, r4⟩ := back y hya hy hyu
        rw [q4, r3]; exact hC.noAdj x y q1 r1 q2 r2

theorem hole_of_mem_eq {s s' : RW} {x : Nat} (hh : s'.head ≤ s.head) (hp : s'.pivot = s.pivot) (e : s'.mem x = s.mem x)
    (h : s.hole x) : s'.hole x :=
  ⟨le_trans hh h.1, by rw [hp]; exact h.2.1, by unfold RW.isHole; rw [e]; exact h.2.2⟩

/-- Detached units given to a hole cell: the hole becomes `[p, p + n)`. -/
theorem Inv.growHole {s s' : RW} {len : Nat → Nat} {ex ex' : Nat → ℤ} (h : Inv s len ex) {a : Nat} (ha : s.hole a)
    (hh : s'.head = s.head) (hp : s'.pivot = s.pivot) (hpre : s'.pre = s.pre) (hlim : s'.lim = s.lim)
    (ht : s'.tail = s.tail) (hjc : s'.jc = s.jc) {k : Nat} (hjv : s'.jv = s.jv + k)
    (hmne : ∀ b, b ≠ a → s'.mem b = s.mem b) (hhole : s'.isHole a) (hu : s'.units a = s.units a + k)
    (hc : ∀ u, ind (s'.start a) (s.units a + k) u + ex' u = ind (s.start a) (s.units a) u + ex u)
    (hex : ∀ u, 0 ≤ ex' u) : Inv s' len ex' := by
  refine Inv.change h a ha.1 ha.2.1 hh hp hpre hlim hmne (fun _ _ => rfl) (by rw [ht]; exact h.bt)
    (by rw [ht]; exact h.tl) ?_ ?_ ?_ hex
  · rw [phiC_hole ha.2.2, phiC_hole hhole, hjc]; omega
  · rw [phiV_hole ha.2.2, phiV_hole hhole, hjv]
    show ((s.jv + k : Nat) : ℤ) = s.jv - (s.units a : ℤ) + (s'.units a : ℤ)
    rw [hu]; omega
  · intro u
    rw [phiW_hole ha.2.1 ha.2.2, phiW_hole ha.2.1 hhole, ht]
    show ind (s'.start a) (s'.units a) u + ex' u + _ = ind (s.start a) (s.units a) u + ex u + _
    have := hc u
    rw [hu]; omega

theorem releaseDataAt_spec {s : RW} {len : Nat → Nat} {ex : Nat → ℤ} {chunk n : Nat}
    (h : Inv s len fun u => ex u + ind chunk n u) (hex : ∀ u, 0 ≤ ex u) (hC : Canon s) (hn : 0 < n)
    {before after hole0 : Option Nat} (adj : AdjSpec s chunk (chunk + n) before after)
    (h0 : ∀ z, hole0 = some z → s.hole z ∧ s.units z = 0) :
    (releaseDataAt s chunk n before after hole0).Sat (2047 < s.jv + n)
      (fun e s' => e = .insufficientSpace 1 0 ∧ before = none ∧ after = none ∧ hole0 = none ∧ s.head = 0 ∧
        (∀ a, s.hole a → s.units a ≠ 0) ∧ chunk + n ≠ s.tail ∧ s' = { s with jv := s.jv + n })
      (fun res s' => RelPost s s' len ex n before after res) := by
  have h16 := h.lt16
  have hjc := h.jc_le
  have hbt := h.bt
  have htl := h.tl
  have hvb := h.vol_le (p := chunk) (n := n) (fun u => by have := hex u; omega)
  have hin : s.base ≤ chunk ∧ chunk + n ≤ s.tail := by
    have k1 := h.ex_le chunk
    have k2 := h.ex_le (chunk + n - 1)
    have k3 := hex chunk
    have k4 := hex (chunk + n - 1)
    -- at both ends of the chunk
    unfold ind at k1 k2
    split_ifs at k1 k2 <;> omega
  have hpb : s.pivot ≤ s.base := Nat.le_add_right _ _
  have ev : add16 s.jv n = s.jv + n := add16_eq (by omega)
  unfold releaseDataAt
  by_cases ct : chunk + n = s.tail
  · rw [if_pos ct]
    have hnoafter : after = none := by
      cases haft : after with
      | none => rfl
      | some c =>
        obtain ⟨q1, q2, q3⟩ := adj.after_some c haft
        have := h.hole_inside q1 q2
        have : s.holeEnd c = s.start c + s.units c := rfl
        omega
    simp only
    cases hbef : before with
    | none =>
      show RelPost s { s with tail := s.tail - n } len ex n none after none
      have i1 : Inv { s with tail := s.tail - n } len ex := by
        refine Inv.retail h rfl rfl rfl rfl rfl ?_ ?_ rfl rfl ?_ hex
        · simp only; omega
        · simp only; omega
        · intro u
          simp only
          unfold ind; split_ifs <;> omega
      refine ⟨i1, ⟨fun a ha hu => ?_, hC.noAdj, hC.headNZ⟩, Frame.same rfl rfl rfl rfl rfl, by simp only; omega, Or.inr ⟨rfl, ?_⟩,
        fun x hx _ _ _ => ⟨hx, rfl⟩⟩
      · have := adj.before_none hbef a ha hu
        show s.holeEnd a ≠ s.tail - n
        omega
      · rw [hnoafter]; unfold optUnits; simp only; omega
    | some b =>
      obtain ⟨hb1, hb2, hb3⟩ := adj.before_some b hbef
      have hbin := h.hole_inside hb1 hb2
      have hbe : s.holeEnd b = s.start b + s.units b := rfl
      have hbv := h.hole_units_le hb1
      have e1 : sub16 s.jv (s.units b) = s.jv - s.units b := sub16_eq hbv (by omega)
      set t : RW := RW.purge { s with tail := s.tail - n - s.units b, jv := sub16 s.jv (s.units b) } b with ht
      show RelPost s (trimIf t b) len ex n (some b) after none
      have htm : ∀ x, x ≠ b → t.mem x = s.mem x := fun x hx => by rw [ht, mem_purge_ne _ hx]
      obtain ⟨hth, htu⟩ : Cell.isHole (t.mem b) ∧ Cell.units (t.mem b) = 0 := purge_hole _ _
      have ft : Frame s t fun _ => False := Frame.change b rfl rfl rfl rfl htm (Or.inr ⟨hb1.2.1, hb1.2.2, hth⟩)
      have htt : t.tail = s.start b := by show s.tail - n - s.units b = _; omega
      have it : Inv t len ex := by
        refine Inv.change h b hb1.1 hb1.2.1 rfl rfl rfl rfl htm (fun _ _ => rfl) ?_ ?_ ?_ ?_ ?_ hex
        · rw [htt]; exact hbin.1
        · rw [htt]; omega
        · rw [phiC_hole hb1.2.2, phiC_hole hth]; show (s.jc : ℤ) = _; omega
        · rw [phiV_hole hb1.2.2, phiV_hole hth, htu]
          show ((sub16 s.jv (s.units b) : Nat) : ℤ) = s.jv - (s.units b : ℤ) + _; omega
        · intro u
          rw [phiW_hole hb1.2.1 hb1.2.2, phiW_hole hb1.2.1 hth, htu, ind_zero, htt]
          show 0 + ex u + ind s.base (s.tail - s.base) u
            = ind (s.start b) (s.units b) u + (ex u + ind chunk n u) + ind s.base (s.start b - s.base) u
          generalize s.start b = p at *
          generalize s.units b = k at *
          unfold ind
          split_ifs <;> omega
      have hrt : t.hole b := ⟨hb1.1, hb1.2.1, hth⟩
      obtain ⟨t1, t2, t3, t4, t5, t6⟩ := trimIf_spec t len ex it hrt htu
      obtain ⟨q1, q2, q3⟩ := trimIf_canon t len ex it hrt htu
      have hoth : ∀ x, t.hole x → t.units x ≠ 0 → x ≠ b ∧ s.hole x ∧ s.units x ≠ 0 := by
        intro x hx hxu
        have hxr : x ≠ b := by rintro rfl; exact hxu htu
        have e := htm x hxr
        refine ⟨hxr, ⟨hx.1, hx.2.1, by have := hx.2.2; unfold RW.isHole at this; rw [e] at this; exact this⟩, ?_⟩
        unfold RW.units at *; rw [e] at hxu; exact hxu
      have hend' : ∀ x, x ≠ b → t.holeEnd x = s.holeEnd x := fun x hx => by
        show x + (t.mem x).lo + Cell.units (t.mem x) = _; rw [htm x hx]
      have nt := q1 (fun x hx hxu => by
        obtain ⟨hxr, hx1, hx2⟩ := hoth x hx hxu
        rw [hend' x hxr, htt]; exact hC.noAdj x b hx1 hb1 hx2 hb2)
      have hbk : ∀ x, (trimIf t b).hole x → (trimIf t b).units x ≠ 0 → t.hole x ∧ t.units x ≠ 0 := by
        intro x hx hxu
        have p : (trimIf t b).pivot = t.pivot := t2.pivot
        refine ⟨⟨le_trans t5 hx.1, by rw [← p]; exact hx.2.1, ?_⟩, ?_⟩
        · have := hx.2.2; unfold RW.isHole at this; rw [t3] at this; exact this
        · unfold RW.units at *; rw [t3] at hxu; exact hxu
      have hst' : ∀ x, (trimIf t b).start x = t.start x := fun x => by show x + _ = x + _; rw [t3]
      have hen' : ∀ x, (trimIf t b).holeEnd x = t.holeEnd x := fun x => by
        show x + _ + Cell.units _ = x + _ + Cell.units _; rw [t3]
      refine ⟨t1, ⟨fun x hx hxu => ?_, fun x y hx hy hxu hyu => ?_, ?_⟩, ft.trans t2, ?_, Or.inr ⟨rfl, ?_⟩, ?_⟩
      · obtain ⟨hx1, hxu1⟩ := hbk x hx hxu
        obtain ⟨hxr, hx1, hx2⟩ := hoth x hx1 hxu1
        rw [hen', hend' x hxr, nt.1, htt]; exact hC.noAdj x b hx1 hb1 hx2 hb2
      · obtain ⟨hx1, hxu1⟩ := hbk x hx hxu
        obtain ⟨hy1, hyu1⟩ := hbk y hy hyu
        obtain ⟨hxr, hx1, hx2⟩ := hoth x hx1 hxu1
        obtain ⟨hyr, hy1, hy2⟩ := hoth y hy1 hyu1
        have e : t.start y = s.start y := by show y + (t.mem y).lo = _; rw [htm y hyr]
        rw [hen', hend' x hxr, hst', e]
        exact hC.noAdj x y hx1 hy1 hx2 hy2
      · refine q3 fun hne => ?_
        intro h1 h2
        have e : t.mem s.head = s.mem s.head := htm _ (Ne.symm hne)
        have h2' : Cell.isHole (t.mem s.head) := h2
        show Cell.units (t.mem s.head) ≠ 0
        rw [e] at h2' ⊢
        exact hC.headNZ h1 h2'
      · rw [nt.1, htt]; omega
      · rw [nt.1, htt, hnoafter]; unfold optUnits; simp only; omega
      · intro x hx hxu hxb _
        have hxb' : x ≠ b := fun hh => hxb (by rw [hh])
        have e := htm x hxb'
        have hxt : t.hole x := hole_of_mem_eq (s := s) le_rfl rfl e hx
        have hle := nt.2 x hxt (by unfold RW.units; rw [e]; exact hxu)
        refine ⟨⟨hle, by rw [t2.pivot]; exact hx.2.1, ?_⟩, by rw [t3]; exact e⟩
        unfold RW.isHole; rw [t3]; exact hxt.2.2
  · rw [if_neg ct]
    simp only
    set s0 : RW := { s with jv := add16 s.jv n } with hs0
    cases hbef : before with
    | some b =>
      obtain ⟨hb1, hb2, hb3⟩ := adj.before_some b hbef
      have hbin := h.hole_inside hb1 hb2
      have hbe : s.holeEnd b = s.start b + s.units b := rfl
      have hnb : s0.units b = s.units b := rfl
      by_cases cu : 2047 < n + s.units b
      · have hU : 2047 < s.jv + n := by have := h.hole_units_le hb1; omega
        cases haft : after with
        | none => simp only; rw [hnb, setUnits_ub _ _ cu]; exact hU
        | some c => simp only; rw [hnb, setUnits_ub _ _ cu]; exact hU
      set s1 : RW := s0.setHi b (holeWord (n + s.units b)) with hs1
      have hm1 : s1.mem b = ⟨(s.mem b).lo, holeWord (n + s.units b)⟩ := Memory.set_same _ _ _
      have hmne : ∀ x, x ≠ b → s1.mem x = s.mem x := fun x hx => Memory.set_ne _ _ hx
      have hh1 : Cell.isHole (s1.mem b) := by rw [hm1]; exact isHole_holeWord (by omega)
      have hu1 : s1.units b = s.units b + n := by
        show Cell.units (s1.mem b) = _; rw [hm1, units_holeWord (by omega)]; omega
      have hst1 : s1.start b = s.start b := by show b + (s1.mem b).lo = _; rw [hm1]
      have hen1 : s1.holeEnd b = chunk + n := by show s1.start b + s1.units b = _; rw [hst1, hu1]; omega
      have i1 : Inv s1 len ex := by
        refine Inv.growHole h hb1 rfl rfl rfl rfl rfl rfl ev hmne hh1 hu1 ?_ hex
        intro u
        rw [hst1, ind_add, ← hbe, hb3]; omega
      have f1 : Frame s s1 fun _ => False := Frame.change b rfl rfl rfl rfl hmne (Or.inr ⟨hb1.2.1, hb1.2.2, hh1⟩)
      cases haft : after with
      | none =>
        simp only
        rw [hnb, setUnits_ok _ _ (by omega)]
        show RelPost s s1 len ex n (some b) none (some b)
        refine ⟨i1, ?_, f1, le_rfl, Or.inl ⟨b, rfl, ⟨hb1.1, hb1.2.1, hh1⟩, ?_, rfl⟩, ?_⟩
        · refine Canon.change hC (p := s.start b) (n := s.units b + n) rfl rfl rfl hmne hst1 hu1 (by omega) (by omega) ?_ ?_
          · intro x hx hxu _; exact hC.noAdj x b hx hb1 hxu hb2
          · intro x hx hxu _
            have := adj.after_none haft x hx hxu
            omega
        · rw [hu1]; unfold optUnits; simp only; omega
        · intro x hx hxu hxb _
          have hxb' : x ≠ b := fun hh => hxb (by rw [hh])
          exact ⟨hole_of_mem_eq (s := s) le_rfl rfl (hmne x hxb') hx, hmne x hxb'⟩
      | some c =>
        obtain ⟨hc1, hc2, hc3⟩ := adj.after_some c haft
        have hce : s.holeEnd c = s.start c + s.units c := rfl
        have hcin := h.hole_inside hc1 hc2
        have hcb : c ≠ b := by rintro rfl; omega
        have ec := hmne c hcb
        have hc1' : s1.hole c := hole_of_mem_eq (s := s) le_rfl rfl ec hc1
        have hc2' : s1.units c = s.units c := by show Cell.units (s1.mem c) = _; rw [ec]
        have hc3' : s1.start c = s.start c := by show c + (s1.mem c).lo = _; rw [ec]
        have hc4' : s1.holeEnd c = s.holeEnd c := by show s1.start c + s1.units c = _; rw [hc2', hc3']
        simp only
        rw [hnb, setUnits_ok _ _ (by omega)]
        refine Out.Sat.bind (P := fun r t => MergePost s1 t len ex b c r)
          ((mergeHoles_spec i1 ⟨hb1.1, hb1.2.1, hh1⟩ hc1' (by omega) (by omega) (by rw [hen1, hc3', hc3])).mono
            (fun hh => by rw [← ev]; exact hh) (fun _ _ hh => hh.elim) (fun _ _ hh => hh)) ?_
        intro r t mp
        show RelPost s t len ex n (some b) (some c) (some r)
        have back : ∀ x, x ≠ b → s1.hole x → s1.units x ≠ 0 →
            s.hole x ∧ s.units x ≠ 0 ∧ s1.start x = s.start x ∧ s1.holeEnd x = s.holeEnd x := by
          intro x hx h1 h2
          have e := hmne x hx
          refine ⟨⟨h1.1, h1.2.1, ?_⟩, ?_, ?_, ?_⟩
          · have := h1.2.2; unfold RW.isHole at this; rw [e] at this; exact this
          · unfold RW.units at *; rw [e] at h2; exact h2
          · show x + (s1.mem x).lo = _; rw [e]
          · show x + (s1.mem x).lo + Cell.units (s1.mem x) = _; rw [e]
        have tA := mp.tailA (by
          intro x hx hxu
          by_cases hxb : x = b
          · rw [hxb, hen1]; exact ct
          · obtain ⟨q1, q2, q3, q4⟩ := back x hxb hx hxu
            rw [q4]; exact hC.noTail x q1 q2)
        have hend : t.holeEnd r = s.holeEnd c := by
          show t.start r + t.units r = _
          rw [mp.start, mp.units, hc2', hst1, hu1]; omega
        have hstr : t.start r = s.start b := by rw [mp.start, hst1]
        have hru : t.units r = n + s.units b + s.units c := by rw [mp.units, hu1, hc2']; omega
        have hrlt : r < t.pivot := by
          rw [mp.frame.pivot]
          rcases mp.which with rfl | rfl
          · exact hb1.2.1
          · exact hc1.2.1
        have hT : t.tail = s.tail := tA.1
        have tback : ∀ x, t.hole x → t.units x ≠ 0 → x = r ∨ (x ≠ b ∧ x ≠ c ∧ s.hole x ∧ s.units x ≠ 0 ∧ t.start x = s.start x ∧ t.holeEnd x = s.holeEnd x) := by
          intro x hx hxu
          rcases mp.holes x hx hxu with hxr | ⟨hx1, hx2, hx3⟩
          · exact Or.inl hxr
          · have e := mp.other x hx1 hx2
            have e2 := hmne x hx1
            have hxu1 : s1.units x ≠ 0 := by unfold RW.units at *; rw [e] at hxu; exact hxu
            obtain ⟨q1, q2, q3, q4⟩ := back x hx1 hx3 hxu1
            refine Or.inr ⟨hx1, hx2, q1, q2, ?_, ?_⟩
            · show x + (t.mem x).lo = _; rw [e, e2]
            · show x + (t.mem x).lo + Cell.units (t.mem x) = _; rw [e, e2]
        refine ⟨mp.inv, ⟨fun x hx hxu => ?_, fun x y hx hy hxu hyu => ?_, mp.headNZ (headNZ_change hC.headNZ rfl rfl hmne (by omega))⟩,
          f1.trans mp.frame, by rw [hT], Or.inl ⟨r, rfl, ⟨tA.2.1, hrlt, mp.isHole⟩, hru, hT⟩, ?_⟩
        · rw [hT]
          rcases tback x hx hxu with rfl | ⟨_, _, q1, q2, q3, q4⟩
          · rw [hend]; exact hC.noTail c hc1 hc2
          · rw [q4]; exact hC.noTail x q1 q2
        · rcases tback x hx hxu with rfl | ⟨_, _, q1, q2, q3, q4⟩
          · rcases tback y hy hyu with rfl | ⟨_, _, p1, p2, p3, p4⟩
            · have : t.holeEnd y = t.start y + t.units y := rfl
              omega
            · rw [hend, p3]; exact hC.noAdj c y hc1 p1 hc2 p2
          · rcases tback y hy hyu with rfl | ⟨_, _, p1, p2, p3, p4⟩
            · rw [q4, hstr]; exact hC.noAdj x b q1 hb1 q2 hb2
            · rw [q4, p3]; exact hC.noAdj x y q1 p1 q2 p2
        · intro x hx hxu hxb hxc
          have hxb' : x ≠ b := fun hh => hxb (by rw [hh])
          have hxc' : x ≠ c := fun hh => hxc (by rw [hh])
          have e := mp.other x hxb' hxc'
          have e2 := hmne x hxb'
          have hx1 : s1.hole x := hole_of_mem_eq (s := s) le_rfl rfl e2 hx
          have hle := tA.2.2 x hx1 (by unfold RW.units; rw [e2]; exact hxu) hxb' hxc'
          refine ⟨⟨hle, by rw [mp.frame.pivot]; exact hx.2.1, ?_⟩, by rw [e, e2]⟩
          unfold RW.isHole; rw [e]; exact hx1.2.2
    | none =>
      cases haft : after with
      | some c =>
        obtain ⟨hc1, hc2, hc3⟩ := adj.after_some c haft
        have hce : s.holeEnd c = s.start c + s.units c := rfl
        have hcin := h.hole_inside hc1 hc2
        have hcl : s.start c = c + (s.mem c).lo := rfl
        have hclt := hc1.2.1
        simp only
        have hnu : (s0.subDelta c n).units c = s.units c := by
          show Cell.units ((s0.subDelta c n).mem c) = _; rw [mem_subDelta_same]
        rw [hnu]
        by_cases cu : 2047 < n + s.units c
        · rw [setUnits_ub _ _ cu]; show 2047 < s.jv + n; have := h.hole_units_le hc1; omega
        rw [setUnits_ok _ _ (by omega)]
        set s1 : RW := (s0.subDelta c n).setHi c (holeWord (n + s.units c)) with hs1
        show RelPost s s1 len ex n none (some c) (some c)
        have elo : sub16 (s0.mem c).lo n = (s.mem c).lo - n := by
          show sub16 (s.mem c).lo n = _
          exact sub16_eq (by omega) (by omega)
        have hm1 : s1.mem c = ⟨(s.mem c).lo - n, holeWord (n + s.units c)⟩ := by
          rw [hs1, mem_setHi_same, mem_subDelta_same, elo]
        have hmne : ∀ x, x ≠ c → s1.mem x = s.mem x := fun x hx => by
          rw [hs1, mem_setHi_ne _ _ hx, mem_subDelta_ne _ _ hx]
        have hh1 : Cell.isHole (s1.mem c) := by rw [hm1]; exact isHole_holeWord (by omega)
        have hu1 : s1.units c = s.units c + n := by
          show Cell.units (s1.mem c) = _; rw [hm1, units_holeWord (by omega)]; omega
        have hst1 : s1.start c = chunk := by show c + (s1.mem c).lo = _; rw [hm1]; simp only; omega
        have i1 : Inv s1 len ex := by
          refine Inv.growHole h hc1 rfl rfl rfl rfl rfl rfl ev hmne hh1 hu1 ?_ hex
          intro u
          rw [hst1, Nat.add_comm, ind_add, hc3]; omega
        have f1 : Frame s s1 fun _ => False := Frame.change c rfl rfl rfl rfl hmne (Or.inr ⟨hc1.2.1, hc1.2.2, hh1⟩)
        refine ⟨i1, ?_, f1, le_rfl, Or.inl ⟨c, rfl, ⟨hc1.1, hc1.2.1, hh1⟩, ?_, rfl⟩, ?_⟩
        · have := hC.noTail c hc1 hc2
          refine Canon.change hC (p := chunk) (n := s.units c + n) rfl rfl rfl hmne hst1 hu1 (by omega) (by omega) ?_ ?_
          · intro x hx hxu _; exact adj.before_none hbef x hx hxu
          · intro x hx hxu _
            have := hC.noAdj c x hc1 hx hc2 hxu
            omega
        · rw [hu1]; unfold optUnits; simp only; omega
        · intro x hx hxu _ hxc
          have hxc' : x ≠ c := fun hh => hxc (by rw [hh])
          exact ⟨hole_of_mem_eq (s := s) le_rfl rfl (hmne x hxc') hx, hmne x hxc'⟩
      | none =>
        simp only
        -- a slot `z` for the new hole, `t` = state with the slot reserved and counted
        refine Out.Sat.bind (P := fun z t => ∃ s1, Slot s s1 z ∧ t = { s1 with jc := s1.jc + 1, jv := s.jv + n }) ?_ ?_
        · cases hz0 : hole0 with
          | some z =>
            obtain ⟨hz1, hz2⟩ := h0 z hz0
            have := h.jc_pos hz1
            refine ⟨{ s with jc := s.jc - 1 }, Or.inl ⟨hz1, hz2, this, rfl⟩, ?_⟩
            rw [hs0, ev]
            simp only
            rw [show s.jc - 1 + 1 = s.jc by omega]
          | none =>
            refine Out.Sat.bind (P := fun a s' => Slot s0 s' a) ?_ ?_
            · have hl : s0.lookup (holeWord 0) = s.lookup (holeWord 0) := rfl
              have sp := indexAlloc_spec h 0
              -- `index_alloc` does not look at the volume
              unfold indexAlloc at sp ⊢
              rw [hl]
              show Out.Sat (match if s.jc > 0 then s.lookup (holeWord 0) else none with
                | some h => Out.ok h { s0 with jc := sub16 s.jc 1 }
                | none => if s.head < 1 then Out.exc (Exc.insufficientSpace 1 0) s0
                  else Out.ok (s.head - 1) { s0 with head := s.head - 1 }) _ _ _
              cases hm : (if s.jc > 0 then s.lookup (holeWord 0) else none) with
              | some z =>
                rw [hm] at sp
                have sp' : Slot s { s with jc := sub16 s.jc 1 } z := sp
                rcases sp' with ⟨w1, w2, w3, w4⟩ | ⟨w1, w2, w4⟩
                · have : sub16 s.jc 1 = s.jc - 1 := sub16_eq w3 (by omega)
                  exact Or.inl ⟨w1, w2, w3, by rw [this]⟩
                · have : s.head = s.head - 1 := congrArg RW.head w4
                  omega
              | none =>
                rw [hm] at sp
                simp only at sp ⊢
                by_cases c2 : s.head < 1
                · rw [if_pos c2] at sp ⊢
                  obtain ⟨_, w2, w3, w4⟩ := sp
                  refine ⟨rfl, ?_, ?_, ?_, w3, w4, ct, by rw [hs0, ev]⟩ <;> trivial
                · rw [if_neg c2]
                  exact Or.inr ⟨by show 0 < s.head; omega, rfl, rfl⟩
            · intro z s1 hz
              have hz' : Slot s { s1 with jv := s.jv } z := by
                rcases hz with ⟨w1, w2, w3, rfl⟩ | ⟨w1, w2, rfl⟩
                · exact Or.inl ⟨w1, w2, w3, rfl⟩
                · exact Or.inr ⟨w1, w2, rfl⟩
              refine ⟨{ s1 with jv := s.jv }, hz', ?_⟩
              have hj : s1.jc + 1 < 65536 := by
                have := hz'.range h
                have : s1.jc ≤ s.jc := this.2.2.2.2.2.2.2.2.2.2
                omega
              have hjv : s1.jv = s.jv + n := by
                rw [← ev]
                rcases hz with ⟨_, _, _, rfl⟩ | ⟨_, _, rfl⟩ <;> rfl
              simp only
              rw [add16_eq hj, ← hjv]
        · rintro z t ⟨s1, hz, rfl⟩
          have hr := hz.range h
          obtain ⟨g1, g2, g3, g4, g5, g6, g7, g8, g9, g10, g11⟩ := hr
          by_cases cu : 2047 < n
          · rw [setUnits_ub _ _ cu]; show 2047 < s.jv + n; omega
          rw [setUnits_ok _ _ (by omega)]
          set t1 : RW := RW.setPayload (RW.setHi { s1 with jc := s1.jc + 1, jv := s.jv + n } z (holeWord n)) z chunk with ht1
          show RelPost s t1 len ex n none none (some z)
          have hm1 : t1.mem z = ⟨chunk - z, holeWord n⟩ := by
            rw [ht1, setHi_setPayload_mem, show (chunk + 65536 - z) % 65536 = chunk - z by omega]
          have hmne : ∀ x, x ≠ z → t1.mem x = s.mem x := fun x hx => by
            rw [ht1, mem_setPayload_ne _ _ hx, mem_setHi_ne _ _ hx, g8]
          have hh1 : Cell.isHole (t1.mem z) := by rw [hm1]; exact isHole_holeWord (by omega)
          have hu1 : t1.units z = n := by show Cell.units (t1.mem z) = _; rw [hm1, units_holeWord (by omega)]
          have hst1 : t1.start z = chunk := by show z + (t1.mem z).lo = _; rw [hm1]; simp only; omega
          have i1 : Inv t1 len ex := by
            refine Inv.fill h hz rfl g4 g5 g6 hmne (fun _ _ => rfl) ?_ ?_ ?_ ?_ ?_ hex
            · show s.base ≤ s1.tail; rw [g7]; exact hbt
            · show s1.tail ≤ s.lim; rw [g7]; exact htl
            · rw [phiC_hole hh1]; show ((s1.jc + 1 : Nat) : ℤ) = _; omega
            · rw [phiV_hole hh1]; show ((s.jv + n : Nat) : ℤ) = s.jv + (t1.units z : ℤ); rw [hu1]; omega
            · intro u
              rw [phiW_hole g2 hh1]
              show ind (t1.start z) (t1.units z) u + ex u + _ = _ + ind s.base (s1.tail - s.base) u
              rw [hst1, hu1, g7]
              have := hex u
              omega
          have f1 : Frame s t1 fun _ => False := Frame.fill h hz rfl g4 g5 g6 hmne (Or.inr hh1)
          have hT : t1.tail = s.tail := g7
          have back : ∀ x, x ≠ z → t1.hole x → s.hole x := by
            intro x hx h1
            refine ⟨?_, by have := h1.2.1; rw [show t1.pivot = s.pivot from g4] at this; exact this, ?_⟩
            · have a1 : s1.head ≤ x := h1.1
              rcases hz with ⟨w1, w2, w3, w4⟩ | ⟨w1, w2, w4⟩
              · have : s1.head = s.head := by rw [w4]
                omega
              · have : s1.head = s.head - 1 := by rw [w4]
                omega
            · have := h1.2.2; unfold RW.isHole at this; rw [hmne x hx] at this; exact this
          have hzu : t1.units z ≠ 0 := by omega
          have hsx : ∀ x, x ≠ z → t1.start x = s.start x ∧ t1.units x = s.units x ∧ t1.holeEnd x = s.holeEnd x := by
            intro x hx
            have e := hmne x hx
            refine ⟨?_, ?_, ?_⟩
            · show x + (t1.mem x).lo = _; rw [e]
            · show Cell.units (t1.mem x) = _; rw [e]
            · show x + (t1.mem x).lo + Cell.units (t1.mem x) = _; rw [e]
          have hze : t1.holeEnd z = chunk + n := by show t1.start z + t1.units z = _; rw [hst1, hu1]
          refine ⟨i1, ⟨fun x hx hxu => ?_, fun x y hx hy hxu hyu => ?_, ?_⟩, f1, by rw [hT], Or.inl ⟨z, rfl, ⟨g1, ?_, hh1⟩, ?_, hT⟩, ?_⟩
          · rw [hT]
            by_cases hxz : x = z
            · rw [hxz, hze]; exact ct
            · obtain ⟨q1, q2, q3⟩ := hsx x hxz
              rw [q3]; exact hC.noTail x (back x hxz hx) (by rw [← q2]; exact hxu)
          · by_cases hxz : x = z
            · by_cases hyz : y = z
              · rw [hxz, hyz, hze, hst1]; omega
              · obtain ⟨q1, q2, q3⟩ := hsx y hyz
                rw [hxz, hze, q1]
                exact Ne.symm (adj.after_none haft y (back y hyz hy) (by rw [← q2]; exact hyu))
            · obtain ⟨p1, p2, p3⟩ := hsx x hxz
              by_cases hyz : y = z
              · rw [hyz, hst1, p3]
                exact adj.before_none hbef x (back x hxz hx) (by rw [← p2]; exact hxu)
              · obtain ⟨q1, q2, q3⟩ := hsx y hyz
                rw [p3, q1]
                exact hC.noAdj x y (back x hxz hx) (back y hyz hy) (by rw [← p2]; exact hxu) (by rw [← q2]; exact hyu)
          · intro h1 h2
            by_cases hzh : z = t1.head
            · rw [← hzh]; exact hzu
            · have e := hmne t1.head (fun hh => hzh hh.symm)
              have hb := back t1.head (fun hh => hzh hh.symm) ⟨le_rfl, h1, h2⟩
              have hhe : t1.head = s.head := by
                have : t1.head ≤ s.head := g3
                have := hb.1
                omega
              show Cell.units (t1.mem t1.head) ≠ 0
              rw [e, hhe]
              rw [hhe] at hb
              exact hC.headNZ hb.2.1 hb.2.2
          · show z < s1.pivot; rw [g4]; exact g2
          · rw [hu1]; unfold optUnits; simp only; omega
          · intro x hx hxu _ _
            have hxz : x ≠ z := by
              rintro rfl
              rcases hz with ⟨w1, w2, w3, w4⟩ | ⟨w1, w2, w4⟩
              · exact hxu w2
              · have := hx.1; omega
            exact ⟨hole_of_mem_eq g3 g4 (hmne x hxz) hx, hmne x hxz⟩

end Fptu.Gear
