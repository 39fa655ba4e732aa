import Verif.Lemmas.GearAlloc
/-!
# Specifications of the releasing functions
-/
namespace Fptu.Gear
open Finset

/-- The kept hole absorbs the dropped one. -/
theorem Inv.merge {s s' : RW} {len : Nat → Nat} {ex : Nat → ℤ} (h : Inv s len ex) {f g k d : Nat}
    (hf : s.hole f) (hg : s.hole g) (hadj : s.holeEnd f = s.start g)
    (hk : (k = f ∧ d = g) ∨ (k = g ∧ d = f)) (hfg : f ≠ g) (hsum : s.units f + s.units g ≤ 2047)
    (hh : s'.head = s.head) (hp : s'.pivot = s.pivot) (hpre : s'.pre = s.pre) (hlim : s'.lim = s.lim)
    (ht : s'.tail = s.tail) (hjc : s'.jc = s.jc) (hjv : s'.jv = s.jv)
    (hmd : s'.mem d = ⟨0, holeWord 0⟩) (hmk : (s'.mem k).hi = holeWord (s.units f + s.units g))
    (hlo : k + (s'.mem k).lo = s.start f) (hmne : ∀ b, b ≠ k → b ≠ d → s'.mem b = s.mem b) : Inv s' len ex := by
  have hkd : k ≠ d := by rcases hk with ⟨rfl, rfl⟩ | ⟨rfl, rfl⟩ <;> [exact hfg; exact Ne.symm hfg]
  have hd : s.hole d := by rcases hk with ⟨rfl, rfl⟩ | ⟨rfl, rfl⟩ <;> assumption
  have hk' : s.hole k := by rcases hk with ⟨rfl, rfl⟩ | ⟨rfl, rfl⟩ <;> assumption
  have husum : s.units k + s.units d = s.units f + s.units g := by
    rcases hk with ⟨rfl, rfl⟩ | ⟨rfl, rfl⟩ <;> omega
  have hvd := h.hole_units_le hd
  have hz : Cell.isHole (⟨0, holeWord 0⟩ : Cell) := isHole_holeWord (by omega)
  have hzu : Cell.units (⟨0, holeWord 0⟩ : Cell) = 0 := units_holeWord (by omega)
  have hkh : Cell.isHole (s'.mem k) := by
    show (s'.mem k).hi / 2048 = 31; rw [hmk]; unfold holeWord; omega
  have hku : Cell.units (s'.mem k) = s.units f + s.units g := by
    show (s'.mem k).hi % 2048 = _; rw [hmk]; unfold holeWord; omega
  set sA : RW := { s with mem := s.mem.set d ⟨0, holeWord 0⟩, jv := s.jv - s.units d } with hsA
  have hAd : sA.mem d = ⟨0, holeWord 0⟩ := Memory.set_same _ _ _
  have hAne : ∀ b, b ≠ d → sA.mem b = s.mem b := fun b hb => Memory.set_ne _ _ hb
  have iA : Inv sA len fun u => ex u + ind (s.start d) (s.units d) u := by
    refine Inv.change h d hd.1 hd.2.1 rfl rfl rfl rfl hAne (fun _ _ => rfl) h.bt h.tl ?_ ?_ ?_ ?_
    · rw [phiC_hole hd.2.2, hAd, phiC_hole hz]; show (s.jc : ℤ) = _; omega
    · rw [phiV_hole hd.2.2, hAd, phiV_hole hz, hzu]
      show ((s.jv - s.units d : Nat) : ℤ) = s.jv - (s.units d : ℤ) + _; omega
    · intro u
      rw [phiW_hole hd.2.1 hd.2.2, hAd, phiW_hole hd.2.1 hz, hzu, ind_zero]
      show 0 + (ex u + ind (s.start d) (s.units d) u) + _ = ind (s.start d) (s.units d) u + ex u + _
      show 0 + _ + ind s.base (s.tail - s.base) u = _ + ind s.base (s.tail - s.base) u
      omega
    · intro u; have := h.exnn u; have := ind_nonneg (s.start d) (s.units d) u; omega
  have hAk : sA.mem k = s.mem k := hAne k hkd
  have hkh' : Cell.isHole (sA.mem k) := by rw [hAk]; exact hk'.2.2
  refine Inv.change iA k hk'.1 hk'.2.1 hh hp hpre hlim ?_ (fun _ _ => rfl) (by rw [ht]; exact h.bt)
    (by rw [ht]; exact h.tl) ?_ ?_ ?_ h.exnn
  · intro b hb
    by_cases hbd : b = d
    · subst hbd; rw [hmd, hAd]
    · rw [hmne b hb hbd, hAne b hbd]
  · rw [phiC_hole hkh', phiC_hole hkh, hjc]; show (s.jc : ℤ) = s.jc - 1 + 1; omega
  · rw [phiV_hole hkh', phiV_hole hkh, hku, hAk, hjv]
    show (s.jv : ℤ) = ((s.jv - s.units d : Nat) : ℤ) - (s.units k : ℤ) + ((s.units f + s.units g : Nat) : ℤ)
    omega
  · intro u
    rw [phiW_hole hk'.2.1 hkh', phiW_hole hk'.2.1 hkh, hku, hAk, hlo, ht]
    show ind (s.start f) (s.units f + s.units g) u + ex u + ind s.base (s.tail - s.base) u
      = ind (s.start k) (s.units k) u + (ex u + ind (s.start d) (s.units d) u) + ind s.base (s.tail - s.base) u
    have e : ind (s.start f) (s.units f + s.units g) u = ind (s.start f) (s.units f) u + ind (s.start g) (s.units g) u := by
      rw [ind_add]
      have : s.start f + s.units f = s.start g := hadj
      rw [this]
    rcases hk with ⟨rfl, rfl⟩ | ⟨rfl, rfl⟩ <;> omega

/-- No hole with a gap touches the free tail, no two such holes are adjacent, the first index entry is not an empty
hole. -/
structure Canon (s : RW) : Prop where
  noTail : ∀ a, s.hole a → s.units a ≠ 0 → s.holeEnd a ≠ s.tail
  noAdj : ∀ a b, s.hole a → s.hole b → s.units a ≠ 0 → s.units b ≠ 0 → s.holeEnd a ≠ s.start b
  headNZ : s.head < s.pivot → s.isHole s.head → s.units s.head ≠ 0

def RW.headNZ (s : RW) : Prop := s.head < s.pivot → s.isHole s.head → s.units s.head ≠ 0

theorem trim_head_gt (s : RW) : s.head < (trim s).head := by
  rw [trim]
  simp only
  set s1 : RW := { s with jc := sub16 s.jc 1, head := s.head + 1 } with hs1
  have base : s.head < s1.head := Nat.lt_succ_self _
  split_ifs
  · exact lt_trans base (trim_head_gt s1)
  · exact base
  · exact lt_trans base (trim_head_gt { s1 with jv := sub16 s1.jv (s1.units s1.head), tail := s1.tail - s1.units s1.head })
  · exact base
  · exact base
termination_by s.pivot - s.head
decreasing_by
  all_goals (show s.pivot - (s.head + 1) < s.pivot - s.head; have : s.head + 1 < s.pivot := by assumption
             omega)

theorem trim_tailA (s : RW) (h1 : s.head < s.pivot)
    (hA : ∀ x, s.head < x → x < s.pivot → s.isHole x → s.units x ≠ 0 → s.holeEnd x ≠ s.tail) :
    (trim s).tail = s.tail ∧ ∀ x, s.head < x → x < (trim s).head → s.units x = 0 := by
  rw [trim]
  simp only
  set s1 : RW := { s with jc := sub16 s.jc 1, head := s.head + 1 } with hs1
  have base : s1.tail = s.tail ∧ ∀ x, s.head < x → x < s1.head → s.units x = 0 :=
    ⟨rfl, fun x hx hx' => by have : x < s.head + 1 := hx'; omega⟩
  by_cases c1 : s1.head < s1.pivot
  · rw [if_pos c1]
    by_cases c2 : s1.isHole s1.head
    · rw [if_neg (not_not.2 c2)]
      by_cases c3 : s1.units s1.head = 0
      · rw [if_pos c3]
        have ih := trim_tailA s1 c1 (fun x hx => hA x (lt_trans (Nat.lt_succ_self _) hx))
        refine ⟨ih.1, fun x hx hx' => ?_⟩
        by_cases hxe : x = s.head + 1
        · subst hxe; exact c3
        · exact ih.2 x (by show s.head + 1 < x; omega) hx'
      · rw [if_neg c3]
        have : s1.holeEnd s1.head ≠ s1.tail := hA (s.head + 1) (Nat.lt_succ_self _) c1 c2 c3
        rw [if_pos this]
        exact base
    · rw [if_pos c2]; exact base
  · rw [if_neg c1]; exact base
termination_by s.pivot - s.head
decreasing_by
  all_goals (show s.pivot - (s.head + 1) < s.pivot - s.head; omega)

theorem trim_tailB (s : RW) (h1 : s.head < s.pivot) (r : Nat) (hr : s.head < r) (hrp : r < s.pivot) (hrh : s.isHole r)
    (hru : s.units r ≠ 0) (hre : s.holeEnd r = s.tail)
    (hB : ∀ x, s.head < x → x < s.pivot → s.isHole x → s.units x ≠ 0 → x ≠ r → s.holeEnd x ≠ s.tail ∧ s.holeEnd x ≠ s.start r) :
    (∀ x, s.head < x → x < (trim s).head → x ≠ r → s.units x = 0) ∧
      (((trim s).head ≤ r ∧ (trim s).tail = s.tail) ∨ (r < (trim s).head ∧ (trim s).tail = s.start r)) := by
  rw [trim]
  simp only
  set s1 : RW := { s with jc := sub16 s.jc 1, head := s.head + 1 } with hs1
  have base : (∀ x, s.head < x → x < s1.head → x ≠ r → s.units x = 0) ∧
      ((s1.head ≤ r ∧ s1.tail = s.tail) ∨ (r < s1.head ∧ s1.tail = s.start r)) :=
    ⟨fun x hx hx' => by have : x < s.head + 1 := hx'; omega, Or.inl ⟨hr, rfl⟩⟩
  by_cases c1 : s1.head < s1.pivot
  · rw [if_pos c1]
    by_cases c2 : s1.isHole s1.head
    · rw [if_neg (not_not.2 c2)]
      by_cases c3 : s1.units s1.head = 0
      · rw [if_pos c3]
        have hne : r ≠ s.head + 1 := by rintro rfl; exact hru c3
        have ih := trim_tailB s1 c1 r (by show s.head + 1 < r; omega) hrp hrh hru hre
          (fun x hx => hB x (lt_trans (Nat.lt_succ_self _) hx))
        refine ⟨fun x hx hx' => ?_, ih.2⟩
        by_cases hxe : x = s.head + 1
        · subst hxe; exact fun _ => c3
        · exact ih.1 x (by show s.head + 1 < x; omega) hx'
      · rw [if_neg c3]
        by_cases c4 : s1.holeEnd s1.head ≠ s1.tail
        · rw [if_pos c4]; exact base
        · rw [if_neg c4]
          have hrr : r = s.head + 1 := by
            by_contra hne
            exact c4 (hB (s.head + 1) (Nat.lt_succ_self _) c1 c2 c3 (Ne.symm hne)).1
          set s2 : RW := { s1 with jv := sub16 s1.jv (s1.units s1.head), tail := s1.tail - s1.units s1.head } with hs2
          have ht2 : s2.tail = s.start r := by
            have e : s2.tail = s.tail - s.units (s.head + 1) := rfl
            rw [← hrr] at e
            have : s.holeEnd r = s.start r + s.units r := rfl
            omega
          have a := trim_tailA s2 c1 (fun x hx hx2 hx3 hx4 => by
            rw [ht2]
            have hx' : s.head + 1 < x := hx
            exact (hB x (by omega) hx2 hx3 hx4 (by omega)).2)
          have hlt : s.head + 1 < (trim s2).head := trim_head_gt s2
          refine ⟨fun x hx hx' hne => ?_, Or.inr ⟨by omega, a.1.trans ht2⟩⟩
          exact a.2 x (by show s.head + 1 < x; omega) hx'
    · rw [if_pos c2]; exact base
  · rw [if_neg c1]; exact base
termination_by s.pivot - s.head
decreasing_by
  all_goals (show s.pivot - (s.head + 1) < s.pivot - s.head; omega)

structure MergePost (s s' : RW) (len : Nat → Nat) (ex : Nat → ℤ) (f g r : Nat) : Prop where
  inv : Inv s' len ex
  frame : Frame s s' fun _ => False
  which : r = f ∨ r = g
  isHole : s'.isHole r
  units : s'.units r = s.units f + s.units g
  start : s'.start r = s.start f
  tail : s'.tail ≤ s.tail
  head : s.head ≤ s'.head
  kept : s'.head ≤ r ∨ s'.tail ≤ s'.start r
  other : ∀ x, x ≠ f → x ≠ g → s'.mem x = s.mem x
  popped : ∀ x, x ≠ f → x ≠ g → s.head ≤ x → x < s'.head → s.units x ≠ 0 → s'.tail ≤ s.start x
  holes : ∀ x, s'.hole x → s'.units x ≠ 0 → x = r ∨ (x ≠ f ∧ x ≠ g ∧ s.hole x)
  headNZ : s.headNZ → s'.headNZ
  tailA : (∀ x, s.hole x → s.units x ≠ 0 → s.holeEnd x ≠ s.tail) → s'.tail = s.tail ∧ s'.head ≤ r ∧
    ∀ x, s.hole x → s.units x ≠ 0 → x ≠ f → x ≠ g → s'.head ≤ x
  tailB : s.holeEnd g = s.tail →
    (∀ x, s.hole x → s.units x ≠ 0 → x ≠ f → x ≠ g → s.holeEnd x ≠ s.tail ∧ s.holeEnd x ≠ s.start f) →
    (s'.head ≤ r ∧ s'.tail = s.tail) ∨ (r < s'.head ∧ s'.tail = s.start f)

theorem trimIf_spec (s : RW) (len : Nat → Nat) (ex : Nat → ℤ) (h : Inv s len ex) {a : Nat} (ha : s.hole a)
    (hu : s.units a = 0) :
    Inv (trimIf s a) len ex ∧ Frame s (trimIf s a) (fun _ => False) ∧ (trimIf s a).mem = s.mem ∧
    (trimIf s a).tail ≤ s.tail ∧ s.head ≤ (trimIf s a).head ∧
    (∀ x, s.head ≤ x → x < (trimIf s a).head → s.units x ≠ 0 → (trimIf s a).tail ≤ s.start x) := by
  unfold trimIf
  by_cases c : a = s.head
  · rw [if_pos c]
    rw [c] at ha hu
    have t := trim_spec s len ex h ha.2.1 ha.2.2 hu
    exact ⟨t.inv, t.frame, t.mem, t.tail, le_of_lt t.head, t.popped⟩
  · rw [if_neg c]
    exact ⟨h, Frame.refl _ _, rfl, le_rfl, le_rfl, fun x h1 h2 => by omega⟩

/-- Effect of trimming on the canonical form. -/
theorem trimIf_canon (s : RW) (len : Nat → Nat) (ex : Nat → ℤ) (h : Inv s len ex) {a : Nat} (ha : s.hole a)
    (hu : s.units a = 0) :
    ((∀ x, s.hole x → s.units x ≠ 0 → s.holeEnd x ≠ s.tail) → (trimIf s a).tail = s.tail ∧
      ∀ x, s.hole x → s.units x ≠ 0 → (trimIf s a).head ≤ x) ∧
    (∀ r, s.hole r → s.units r ≠ 0 → s.holeEnd r = s.tail →
      (∀ x, s.hole x → s.units x ≠ 0 → x ≠ r → s.holeEnd x ≠ s.tail ∧ s.holeEnd x ≠ s.start r) →
      (∀ x, s.hole x → s.units x ≠ 0 → x ≠ r → (trimIf s a).head ≤ x) ∧
      (((trimIf s a).head ≤ r ∧ (trimIf s a).tail = s.tail) ∨ (r < (trimIf s a).head ∧ (trimIf s a).tail = s.start r))) ∧
    ((a ≠ s.head → s.headNZ) → (trimIf s a).headNZ) := by
  unfold trimIf
  by_cases c : a = s.head
  · rw [if_pos c]
    rw [c] at ha hu
    refine ⟨fun hA => ?_, fun r hr hru hre hB => ?_, fun _ => ?_⟩
    · have t := trim_tailA s ha.2.1 (fun x h1 h2 h3 h4 => hA x ⟨le_of_lt h1, h2, h3⟩ h4)
      refine ⟨t.1, fun x hx hxu => ?_⟩
      by_contra hlt
      have hxh : x ≠ s.head := by rintro rfl; exact hxu hu
      have := hx.1
      exact hxu (t.2 x (by omega) (by omega))
    · have hrh : r ≠ s.head := by rintro rfl; exact hru hu
      have := hr.1
      have t := trim_tailB s ha.2.1 r (by omega) hr.2.1 hr.2.2 hru hre
        (fun x h1 h2 h3 h4 h5 => hB x ⟨le_of_lt h1, h2, h3⟩ h4 h5)
      refine ⟨fun x hx hxu hxr => ?_, t.2⟩
      by_contra hlt
      have hxh : x ≠ s.head := by rintro rfl; exact hxu hu
      have := hx.1
      exact hxu (t.1 x (by omega) (by omega) hxr)
    · exact fun h1 h2 => ((trim_spec s len ex h ha.2.1 ha.2.2 hu).stop h1 h2).1
  · rw [if_neg c]
    exact ⟨fun _ => ⟨rfl, fun x hx _ => hx.1⟩, fun r hr _ _ _ => ⟨fun x hx _ _ => hx.1, Or.inl ⟨hr.1, rfl⟩⟩, fun h => h c⟩

theorem start_inj {s : RW} {len : Nat → Nat} {ex : Nat → ℤ} (h : Inv s len ex) {f g : Nat} (hf : s.hole f) (hg : s.hole g)
    (huf : s.units f ≠ 0) (hug : s.units g ≠ 0) (he : s.start f = s.start g) : f = g := by
  by_contra hne
  have hpb : s.pivot ≤ s.base := Nat.le_add_right _ _
  have := h.disjoint hne hf.1 (lt_of_lt_of_le hf.2.1 hpb) hg.1 (lt_of_lt_of_le hg.2.1 hpb) (s.start f)
  rw [Inv.clen_hole hf, Inv.clen_hole hg, ← he, ind_start (by omega), ind_start (by omega)] at this
  have := h.exnn (s.start f)
  have := ind_le_one s.base (s.tail - s.base) (s.start f)
  omega

theorem mergeHoles_spec {s : RW} {len : Nat → Nat} {ex : Nat → ℤ} (h : Inv s len ex) {f g : Nat}
    (hf : s.hole f) (hg : s.hole g) (huf : s.units f ≠ 0) (hug : s.units g ≠ 0) (hadj : s.holeEnd f = s.start g) :
    (mergeHoles s f g).Sat (2047 < s.jv) (fun _ _ => False) (fun r s' => MergePost s s' len ex f g r) := by
  have hfg : f ≠ g := by
    rintro rfl
    have : s.holeEnd f = s.start f + s.units f := rfl
    omega
  have hin1 := h.hole_inside hf huf
  have hin2 := h.hole_inside hg hug
  have h16 := h.lt16
  have he1 : s.holeEnd f = s.start f + s.units f := rfl
  have he2 : s.holeEnd g = s.start g + s.units g := rfl
  have hpb : s.pivot ≤ s.base := Nat.le_add_right _ _
  unfold mergeHoles
  simp only
  by_cases hs : 2047 < s.units f + s.units g
  · have : 2047 < s.jv := lt_of_lt_of_le hs (h.two_holes_le hfg hf hg)
    split_ifs
    · rw [setUnits_ub _ _ hs]; exact this
    · rw [setUnits_ub _ _ hs]; exact this
  · by_cases c : f = s.head
    · rw [if_neg (not_not.2 c), setUnits_ok _ _ (by omega)]
      set s1 : RW := RW.purge (RW.setHi (s.subDelta g (s.units f)) g (holeWord (s.units f + s.units g))) f with hs1
      show MergePost s (trim s1) len ex f g g
      have elo : sub16 (s.mem g).lo (s.units f) = (s.mem g).lo - s.units f := by
        have : s.start g = g + (s.mem g).lo := rfl
        have := hg.2.1
        exact sub16_eq (by omega) (by omega)
      have hm1g : s1.mem g = ⟨(s.mem g).lo - s.units f, holeWord (s.units f + s.units g)⟩ := by
        rw [hs1, mem_purge_ne _ (Ne.symm hfg), mem_setHi_same, mem_subDelta_same, elo]
      have hm1f : s1.mem f = ⟨0, holeWord 0⟩ := by rw [hs1, mem_purge_same]
      have hmne : ∀ b, b ≠ g → b ≠ f → s1.mem b = s.mem b := fun b hb hb' => by
        rw [hs1, mem_purge_ne _ hb', mem_setHi_ne _ _ hb, mem_subDelta_ne _ _ hb]
      have hlo : g + (s1.mem g).lo = s.start f := by
        rw [hm1g]; simp only
        have : s.start g = g + (s.mem g).lo := rfl
        have := hg.2.1
        omega
      have i1 : Inv s1 len ex := Inv.merge h hf hg hadj (Or.inr ⟨rfl, rfl⟩) hfg (by omega) rfl rfl rfl rfl rfl rfl rfl
        hm1f (by rw [hm1g]) hlo hmne
      have hhg : Cell.isHole (s1.mem g) := by rw [hm1g]; exact isHole_holeWord (by omega)
      have hug' : Cell.units (s1.mem g) = s.units f + s.units g := by rw [hm1g]; exact units_holeWord (by omega)
      have hhf : Cell.isHole (s1.mem f) := by rw [hm1f]; exact isHole_holeWord (by omega)
      have huf' : Cell.units (s1.mem f) = 0 := by rw [hm1f]; exact units_holeWord (by omega)
      have f1 : Frame s s1 fun _ => False := by
        refine ⟨rfl, rfl, rfl, fun b _ => ?_, fun b _ hl => ?_, fun b _ hl => ?_⟩
        · by_cases hbf : b = f
          · subst hbf; exact ⟨fun q => absurd hhf q.2.2, fun q => absurd hf.2.2 q.2.2⟩
          · by_cases hbg : b = g
            · subst hbg; exact ⟨fun q => absurd hhg q.2.2, fun q => absurd hg.2.2 q.2.2⟩
            · show _ ∧ _ ∧ ¬ Cell.isHole _ ↔ _ ∧ _ ∧ ¬ Cell.isHole _
              rw [hmne b hbg hbf]; exact Iff.rfl
        · refine hmne b ?_ ?_
          · rintro rfl; exact hl.2.2 hg.2.2
          · rintro rfl; exact hl.2.2 hf.2.2
        · have := hf.2.1; have := hg.2.1
          exact hmne b (by omega) (by omega)
      have hlt : s1.head < s1.pivot := by show s.head < s.pivot; rw [← c]; exact hf.2.1
      have hh1 : s1.head = f := c.symm
      have t := trim_spec s1 len ex i1 hlt (by rw [hh1]; exact hhf) (by rw [hh1]; exact huf')
      have tc := trimIf_canon s1 len ex i1 (a := f) ⟨hf.1, hf.2.1, hhf⟩ huf'
      rw [show trimIf s1 f = trim s1 from if_pos c] at tc
      have hm' : ∀ x, (trim s1).mem x = s1.mem x := fun x => by rw [t.mem]
      have hst : s1.start g = s.start f := hlo
      have hst' : (trim s1).start g = s.start f := by show g + ((trim s1).mem g).lo = _; rw [hm']; exact hlo
      have hback : ∀ x, x ≠ f → x ≠ g → s1.hole x → s.hole x := fun x hxf hxg hx =>
        ⟨hx.1, hx.2.1, by have := hx.2.2; unfold RW.isHole at this; rw [hmne x hxg hxf] at this; exact this⟩
      have hfwd : ∀ x, x ≠ f → x ≠ g → s.hole x → s1.hole x := fun x hxf hxg hx =>
        ⟨hx.1, hx.2.1, by unfold RW.isHole; rw [hmne x hxg hxf]; exact hx.2.2⟩
      have hgend : s1.holeEnd g = s.holeEnd g := by
        show s1.start g + Cell.units (s1.mem g) = _; rw [hst, hug']; omega
      have hg1 : s1.hole g := ⟨hg.1, hg.2.1, hhg⟩
      have hux : ∀ x, x ≠ f → x ≠ g → s1.units x = s.units x := fun x hxf hxg => by
        show Cell.units (s1.mem x) = _; rw [hmne x hxg hxf]
      have hex : ∀ x, x ≠ f → x ≠ g → s1.holeEnd x = s.holeEnd x := fun x hxf hxg => by
        show x + (s1.mem x).lo + Cell.units (s1.mem x) = _; rw [hmne x hxg hxf]
      have hnf : ∀ x, s1.units x ≠ 0 → x ≠ f := by rintro x hx rfl; exact hx huf'
      have ht1 : s1.tail = s.tail := rfl
      refine ⟨t.inv, f1.trans t.frame, Or.inr rfl, ?_, ?_, hst', t.tail, ?_, ?_, ?_, ?_, ?_, ?_, ?_, ?_⟩
      · show Cell.isHole ((trim s1).mem g); rw [hm']; exact hhg
      · show Cell.units ((trim s1).mem g) = _; rw [hm']; exact hug'
      · exact le_of_lt t.head
      · by_cases hc : (trim s1).head ≤ g
        · exact Or.inl hc
        · refine Or.inr ?_
          rw [hst', ← hst]
          refine t.popped g hg.1 (by omega) ?_
          show Cell.units (s1.mem g) ≠ 0
          omega
      · intro x hxf hxg; rw [hm', hmne x hxg hxf]
      · intro x hxf hxg h1 h2 h3
        have e : s1.mem x = s.mem x := hmne x hxg hxf
        have := t.popped x h1 h2 (by show Cell.units (s1.mem x) ≠ 0; rw [e]; exact h3)
        have e2 : s1.start x = s.start x := by show x + (s1.mem x).lo = _; rw [e]
        rw [e2] at this; exact this
      · intro x hx hxu
        have hxu1 : s1.units x ≠ 0 := by have := hm' x; unfold RW.units at hxu; rw [this] at hxu; exact hxu
        have hx1 : s1.hole x := ⟨by have := hx.1; have : s1.head ≤ (trim s1).head := le_of_lt t.head; omega,
          by have := hx.2.1; rw [show (trim s1).pivot = s1.pivot from t.frame.pivot] at this; exact this,
          by have := hx.2.2; unfold RW.isHole at this; rw [hm'] at this; exact this⟩
        by_cases hxr : x = g
        · exact Or.inl hxr
        · have hxo := hnf x hxu1
          refine Or.inr ⟨by first | exact hxo | exact hxr, by first | exact hxr | exact hxo, ?_⟩
          exact hback x (by first | exact hxo | exact hxr) (by first | exact hxr | exact hxo) hx1
      · intro hz
        exact tc.2.2 (fun hne => by exact absurd c hne)
      · intro hA
        have q := tc.1 (fun x hx hxu => by
          have hxo := hnf x hxu
          by_cases hxr : x = g
          · rw [hxr, hgend, ht1]; exact hA g hg hug
          · have a1 : x ≠ f := by first | exact hxo | exact hxr
            have a2 : x ≠ g := by first | exact hxr | exact hxo
            rw [hex x a1 a2, ht1]
            exact hA x (hback x a1 a2 hx) (by rw [← hux x a1 a2]; exact hxu))
        refine ⟨q.1, q.2 g hg1 (by show Cell.units (s1.mem g) ≠ 0; omega), fun x hx hxu a1 a2 => ?_⟩
        exact q.2 x (hfwd x a1 a2 hx) (by rw [hux x a1 a2]; exact hxu)
      · intro hend hB
        have q := tc.2.1 g hg1 (by show Cell.units (s1.mem g) ≠ 0; omega) (by rw [hgend, ht1]; exact hend)
          (fun x hx hxu hxr => by
            have hxo := hnf x hxu
            have a1 : x ≠ f := by first | exact hxo | exact hxr
            have a2 : x ≠ g := by first | exact hxr | exact hxo
            rw [hex x a1 a2, ht1, hst]
            exact hB x (hback x a1 a2 hx) (by rw [← hux x a1 a2]; exact hxu) a1 a2)
        rw [hst, ht1] at q
        exact q.2
    · rw [if_pos c, setUnits_ok _ _ (by omega)]
      set s1 : RW := RW.purge (RW.setHi s f (holeWord (s.units f + s.units g))) g with hs1
      show MergePost s (trimIf s1 g) len ex f g f
      have hm1f : s1.mem f = ⟨(s.mem f).lo, holeWord (s.units f + s.units g)⟩ := by
        rw [hs1, mem_purge_ne _ hfg, mem_setHi_same]
      have hm1g : s1.mem g = ⟨0, holeWord 0⟩ := by rw [hs1, mem_purge_same]
      have hmne : ∀ b, b ≠ f → b ≠ g → s1.mem b = s.mem b := fun b hb hb' => by
        rw [hs1, mem_purge_ne _ hb', mem_setHi_ne _ _ hb]
      have hlo : f + (s1.mem f).lo = s.start f := by rw [hm1f]
      have i1 : Inv s1 len ex := Inv.merge h hf hg hadj (Or.inl ⟨rfl, rfl⟩) hfg (by omega) rfl rfl rfl rfl rfl rfl rfl
        hm1g (by rw [hm1f]) hlo hmne
      have hhf : Cell.isHole (s1.mem f) := by rw [hm1f]; exact isHole_holeWord (by omega)
      have huf' : Cell.units (s1.mem f) = s.units f + s.units g := by rw [hm1f]; exact units_holeWord (by omega)
      have hhg : Cell.isHole (s1.mem g) := by rw [hm1g]; exact isHole_holeWord (by omega)
      have hug' : Cell.units (s1.mem g) = 0 := by rw [hm1g]; exact units_holeWord (by omega)
      have f1 : Frame s s1 fun _ => False := by
        refine ⟨rfl, rfl, rfl, fun b _ => ?_, fun b _ hl => ?_, fun b _ hl => ?_⟩
        · by_cases hbf : b = f
          · subst hbf; exact ⟨fun q => absurd hhf q.2.2, fun q => absurd hf.2.2 q.2.2⟩
          · by_cases hbg : b = g
            · subst hbg; exact ⟨fun q => absurd hhg q.2.2, fun q => absurd hg.2.2 q.2.2⟩
            · show _ ∧ _ ∧ ¬ Cell.isHole _ ↔ _ ∧ _ ∧ ¬ Cell.isHole _
              rw [hmne b hbf hbg]; exact Iff.rfl
        · refine hmne b ?_ ?_
          · rintro rfl; exact hl.2.2 hf.2.2
          · rintro rfl; exact hl.2.2 hg.2.2
        · have := hf.2.1; have := hg.2.1
          exact hmne b (by omega) (by omega)
      obtain ⟨t1, t2, t3, t4, t5, t6⟩ := trimIf_spec s1 len ex i1 (a := g) ⟨hg.1, hg.2.1, hhg⟩ hug'
      have hm' : ∀ x, (trimIf s1 g).mem x = s1.mem x := fun x => by rw [t3]
      have hst : s1.start f = s.start f := hlo
      have hst' : (trimIf s1 g).start f = s.start f := by show f + ((trimIf s1 g).mem f).lo = _; rw [hm']; exact hlo
      have tc := trimIf_canon s1 len ex i1 (a := g) ⟨hg.1, hg.2.1, hhg⟩ hug'
      have hback : ∀ x, x ≠ f → x ≠ g → s1.hole x → s.hole x := fun x hxf hxg hx =>
        ⟨hx.1, hx.2.1, by have := hx.2.2; unfold RW.isHole at this; rw [hmne x hxf hxg] at this; exact this⟩
      have hfwd : ∀ x, x ≠ f → x ≠ g → s.hole x → s1.hole x := fun x hxf hxg hx =>
        ⟨hx.1, hx.2.1, by unfold RW.isHole; rw [hmne x hxf hxg]; exact hx.2.2⟩
      have hfend : s1.holeEnd f = s.holeEnd g := by
        show s1.start f + Cell.units (s1.mem f) = _; rw [hst, huf']; omega
      have hf1 : s1.hole f := ⟨hf.1, hf.2.1, hhf⟩
      have hux : ∀ x, x ≠ f → x ≠ g → s1.units x = s.units x := fun x hxf hxg => by
        show Cell.units (s1.mem x) = _; rw [hmne x hxf hxg]
      have hex : ∀ x, x ≠ f → x ≠ g → s1.holeEnd x = s.holeEnd x := fun x hxf hxg => by
        show x + (s1.mem x).lo + Cell.units (s1.mem x) = _; rw [hmne x hxf hxg]
      have hng : ∀ x, s1.units x ≠ 0 → x ≠ g := by rintro x hx rfl; exact hx hug'
      have ht1 : s1.tail = s.tail := rfl
      refine ⟨t1, f1.trans t2, Or.inl rfl, ?_, ?_, hst', t4, t5, ?_, ?_, ?_, ?_, ?_, ?_, ?_⟩
      · show Cell.isHole ((trimIf s1 g).mem f); rw [hm']; exact hhf
      · show Cell.units ((trimIf s1 g).mem f) = _; rw [hm']; exact huf'
      · by_cases hc : (trimIf s1 g).head ≤ f
        · exact Or.inl hc
        · refine Or.inr ?_
          rw [hst', ← hst]
          refine t6 f hf.1 (by omega) ?_
          show Cell.units (s1.mem f) ≠ 0
          omega
      · intro x hxf hxg; rw [hm', hmne x hxf hxg]
      · intro x hxf hxg h1 h2 h3
        have e : s1.mem x = s.mem x := hmne x hxf hxg
        have := t6 x h1 h2 (by show Cell.units (s1.mem x) ≠ 0; rw [e]; exact h3)
        have e2 : s1.start x = s.start x := by show x + (s1.mem x).lo = _; rw [e]
        rw [e2] at this; exact this
      · intro x hx hxu
        have hxu1 : s1.units x ≠ 0 := by have := hm' x; unfold RW.units at hxu; rw [this] at hxu; exact hxu
        have hx1 : s1.hole x := ⟨by have := hx.1; have : s1.head ≤ (trimIf s1 g).head := t5; omega,
          by have := hx.2.1; rw [show (trimIf s1 g).pivot = s1.pivot from t2.pivot] at this; exact this,
          by have := hx.2.2; unfold RW.isHole at this; rw [hm'] at this; exact this⟩
        by_cases hxr : x = f
        · exact Or.inl hxr
        · have hxo := hng x hxu1
          refine Or.inr ⟨by first | exact hxo | exact hxr, by first | exact hxr | exact hxo, ?_⟩
          exact hback x (by first | exact hxo | exact hxr) (by first | exact hxr | exact hxo) hx1
      · intro hz
        exact tc.2.2 (fun hne => by 
          have e : s1.mem s.head = s.mem s.head := hmne _ (Ne.symm c) (fun hh => hne hh.symm)
          intro h1 h2
          have h2' : Cell.isHole (s1.mem s.head) := h2
          show Cell.units (s1.mem s.head) ≠ 0
          rw [e] at h2' ⊢
          exact hz h1 h2')
      · intro hA
        have q := tc.1 (fun x hx hxu => by
          have hxo := hng x hxu
          by_cases hxr : x = f
          · rw [hxr, hfend, ht1]; exact hA g hg hug
          · have a1 : x ≠ f := by first | exact hxo | exact hxr
            have a2 : x ≠ g := by first | exact hxr | exact hxo
            rw [hex x a1 a2, ht1]
            exact hA x (hback x a1 a2 hx) (by rw [← hux x a1 a2]; exact hxu))
        refine ⟨q.1, q.2 f hf1 (by show Cell.units (s1.mem f) ≠ 0; omega), fun x hx hxu a1 a2 => ?_⟩
        exact q.2 x (hfwd x a1 a2 hx) (by rw [hux x a1 a2]; exact hxu)
      · intro hend hB
        have q := tc.2.1 f hf1 (by show Cell.units (s1.mem f) ≠ 0; omega) (by rw [hfend, ht1]; exact hend)
          (fun x hx hxu hxr => by
            have hxo := hng x hxu
            have a1 : x ≠ f := by first | exact hxo | exact hxr
            have a2 : x ≠ g := by first | exact hxr | exact hxo
            rw [hex x a1 a2, ht1, hst]
            exact hB x (hback x a1 a2 hx) (by rw [← hux x a1 a2]; exact hxu) a1 a2)
        rw [hst, ht1] at q
        exact q.2

end Fptu.Gear
