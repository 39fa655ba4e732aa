import Verif.Lemmas.GearRelease
/-!
# Specifications of `release_loose` and `release_data`
-/
namespace Fptu.Gear
open Finset

/-- A hole of `s` (other than `a`) that is still intact in `s'`. -/
def Other (s s' : RW) (a x : Nat) : Prop := x ≠ a ∧ s.hole x ∧ s.units x ≠ 0 ∧ s'.mem x = s.mem x

/-- State in the middle of `release_loose`: `r` is the hole made of the released chunk and its merged neighbours. -/
structure Mid (s s' : RW) (len : Nat → Nat) (ex : Nat → ℤ) (a r : Nat) : Prop where
  inv : Inv s' len ex
  frame : Frame s s' fun b => b = a
  dead : ¬ s'.live a
  holes : ∀ x, s'.hole x → s'.units x ≠ 0 → x = r ∨ Other s s' a x
  rhole : s'.isHole r
  rlt : r < s'.pivot
  rnz : s'.units r ≠ 0
  tails : (s'.head ≤ r ∧ s'.tail = s.tail) ∨ (r < s'.head ∧ s'.tail = s'.start r ∧ s'.holeEnd r = s.tail)
  headNZ : s'.headNZ

theorem Other.start {s s' : RW} {a x : Nat} (h : Other s s' a x) : s'.start x = s.start x := by
  show x + (s'.mem x).lo = _; rw [h.2.2.2]
theorem Other.units {s s' : RW} {a x : Nat} (h : Other s s' a x) : s'.units x = s.units x := by
  show Cell.units (s'.mem x) = _; rw [h.2.2.2]
theorem Other.holeEnd {s s' : RW} {a x : Nat} (h : Other s s' a x) : s'.holeEnd x = s.holeEnd x := by
  show s'.start x + s'.units x = _; rw [h.start, h.units]

theorem purge_hole (s : RW) (a : Nat) : Cell.isHole ((s.purge a).mem a) ∧ Cell.units ((s.purge a).mem a) = 0 := by
  rw [mem_purge_same]; exact ⟨isHole_holeWord (by omega), units_holeWord (by omega)⟩

/-- Last step of `release_loose`. -/
theorem Mid.finish {s s' : RW} {len : Nat → Nat} {ex : Nat → ℤ} {a r : Nat} (hC : Canon s) (m : Mid s s' len ex a r)
    (hB : ∀ x, Other s s' a x → s.holeEnd x ≠ s'.start r) (hA : ∀ x, Other s s' a x → s.start x ≠ s'.holeEnd r) :
    (if s'.holeEnd r ≠ s'.tail then Out.ok () s'
      else
        .ok () (trimIf (RW.purge { s' with tail := s'.tail - s'.units r, jv := sub16 s'.jv (s'.units r) } r) r)).Sat False
      (fun _ _ => False)
      (fun _ t => Inv t len ex ∧ Canon t ∧ Frame s t (fun b => b = a) ∧ ¬ t.live a ∧ t.tail ≤ s.tail) := by
  have hre : s'.holeEnd r = s'.start r + s'.units r := rfl
  have rnz := m.rnz
  have hend : ∀ x y, (s'.hole x ∧ s'.units x ≠ 0) → (s'.hole y ∧ s'.units y ≠ 0) → s'.holeEnd x ≠ s'.start y := by
    intro x y hx hy
    rcases m.holes x hx.1 hx.2 with rfl | ox <;> rcases m.holes y hy.1 hy.2 with rfl | oy
    · omega
    · rw [oy.start]; exact fun h => hA y oy h.symm
    · rw [ox.holeEnd]; exact hB x ox
    · rw [ox.holeEnd, oy.start]; exact hC.noAdj x y ox.2.1 oy.2.1 ox.2.2.1 oy.2.2.1
  by_cases c : s'.holeEnd r ≠ s'.tail
  · rw [if_pos c]
    refine ⟨m.inv, ⟨fun x hx hxu => ?_, fun x y hx hy hxu hyu => hend x y ⟨hx, hxu⟩ ⟨hy, hyu⟩, m.headNZ⟩, m.frame, m.dead, ?_⟩
    · rcases m.holes x hx hxu with rfl | ox
      · exact c
      · rw [ox.holeEnd]
        rcases m.tails with ⟨_, ht⟩ | ⟨_, ht, _⟩
        · rw [ht]; exact hC.noTail x ox.2.1 ox.2.2.1
        · rw [ht]; exact hB x ox
    · rcases m.tails with ⟨_, ht⟩ | ⟨_, ht, ht'⟩ <;> omega
  · rw [if_neg c]
    have c' : s'.holeEnd r = s'.tail := not_not.1 c
    obtain ⟨hrh, ht⟩ : s'.head ≤ r ∧ s'.tail = s.tail := by
      rcases m.tails with h | ⟨_, h, _⟩
      · exact h
      · omega
    have hole : s'.hole r := ⟨hrh, m.rlt, m.rhole⟩
    have hin := m.inv.hole_inside hole rnz
    have hv := m.inv.hole_units_le hole
    have hvl := m.inv.vol_le (p := 0) (n := 0) (fun u => by rw [ind_zero]; exact m.inv.exnn u)
    have h16 := m.inv.lt16
    have e1 : sub16 s'.jv (s'.units r) = s'.jv - s'.units r := sub16_eq hv (by omega)
    set t : RW := RW.purge { s' with tail := s'.tail - s'.units r, jv := sub16 s'.jv (s'.units r) } r with ht'
    have htm : ∀ b, b ≠ r → t.mem b = s'.mem b := fun b hb => by rw [ht', mem_purge_ne _ hb]
    obtain ⟨hth, htu⟩ : Cell.isHole (t.mem r) ∧ Cell.units (t.mem r) = 0 := purge_hole _ _
    have ft : Frame s' t fun _ => False := Frame.change r rfl rfl rfl rfl htm (Or.inr ⟨m.rlt, m.rhole, hth⟩)
    have it : Inv t len ex := by
      refine Inv.change m.inv r hrh m.rlt rfl rfl rfl rfl htm (fun _ _ => rfl) ?_ ?_ ?_ ?_ ?_ m.inv.exnn
      · show s'.base ≤ s'.tail - s'.units r; omega
      · have := m.inv.tl; show s'.tail - s'.units r ≤ s'.lim; omega
      · rw [phiC_hole m.rhole, phiC_hole hth]; show (s'.jc : ℤ) = _; omega
      · rw [phiV_hole m.rhole, phiV_hole hth, htu]
        show ((sub16 s'.jv (s'.units r) : Nat) : ℤ) = s'.jv - (s'.units r : ℤ) + _; omega
      · intro u
        rw [phiW_hole m.rlt m.rhole, phiW_hole m.rlt hth, htu, ind_zero]
        show 0 + ex u + ind s'.base (s'.tail - s'.base) u
          = ind (s'.start r) (s'.units r) u + ex u + ind s'.base (s'.tail - s'.units r - s'.base) u
        generalize s'.start r = p at *
        generalize s'.units r = n at *
        unfold ind
        split_ifs <;> omega
    have hrt : t.hole r := ⟨hrh, m.rlt, hth⟩
    obtain ⟨t1, t2, t3, t4, t5, t6⟩ := trimIf_spec t len ex it hrt htu
    obtain ⟨q1, q2, q3⟩ := trimIf_canon t len ex it hrt htu
    have hoth : ∀ x, t.hole x → t.units x ≠ 0 → Other s s' a x ∧ x ≠ r ∧ s'.hole x := by
      intro x hx hxu
      have hxr : x ≠ r := by rintro rfl; exact hxu htu
      have e := htm x hxr
      have hx' : s'.hole x := ⟨hx.1, hx.2.1, by have := hx.2.2; unfold RW.isHole at this; rw [e] at this; exact this⟩
      have hxu' : s'.units x ≠ 0 := by unfold RW.units at *; rw [e] at hxu; exact hxu
      rcases m.holes x hx' hxu' with h | h
      · exact absurd h hxr
      · exact ⟨h, hxr, hx'⟩
    have htt : t.tail = s'.start r := by show s'.tail - s'.units r = _; omega
    have hend' : ∀ x, x ≠ r → t.holeEnd x = s'.holeEnd x := fun x hx => by
      show x + (t.mem x).lo + Cell.units (t.mem x) = _; rw [htm x hx]
    have nt := q1 (fun x hx hxu => by
      obtain ⟨o, hxr, hx'⟩ := hoth x hx hxu
      rw [hend' x hxr, htt, o.holeEnd]; exact hB x o)
    have hbk : ∀ x, (trimIf t r).hole x → (trimIf t r).units x ≠ 0 → t.hole x ∧ t.units x ≠ 0 := by
      intro x hx hxu
      have p : (trimIf t r).pivot = t.pivot := t2.pivot
      refine ⟨⟨le_trans t5 hx.1, by rw [← p]; exact hx.2.1, ?_⟩, ?_⟩
      · have := hx.2.2; unfold RW.isHole at this; rw [t3] at this; exact this
      · unfold RW.units at *; rw [t3] at hxu; exact hxu
    have hst' : ∀ x, (trimIf t r).start x = t.start x := fun x => by show x + _ = x + _; rw [t3]
    have hen' : ∀ x, (trimIf t r).holeEnd x = t.holeEnd x := fun x => by
      show x + _ + Cell.units _ = x + _ + Cell.units _; rw [t3]
    refine ⟨t1, ⟨fun x hx hxu => ?_, fun x y hx hy hxu hyu => ?_, ?_⟩, (m.frame.trans (ft.mono fun _ h => h.elim)).trans (t2.mono fun _ h => h.elim), ?_, ?_⟩
    · obtain ⟨hx1, hxu1⟩ := hbk x hx hxu
      obtain ⟨o, hxr, hx'⟩ := hoth x hx1 hxu1
      rw [hen', hend' x hxr, nt.1, htt, o.holeEnd]; exact hB x o
    · obtain ⟨hx1, hxu1⟩ := hbk x hx hxu
      obtain ⟨hy1, hyu1⟩ := hbk y hy hyu
      obtain ⟨ox, hxr, hx'⟩ := hoth x hx1 hxu1
      obtain ⟨oy, hyr, hy'⟩ := hoth y hy1 hyu1
      have e : t.start y = s'.start y := by show y + (t.mem y).lo = _; rw [htm y hyr]
      rw [hen', hend' x hxr, hst', e]
      exact hend x y ⟨hx', by rw [ox.units]; exact ox.2.2.1⟩ ⟨hy', by rw [oy.units]; exact oy.2.2.1⟩
    · refine q3 fun hne => ?_
      intro h1 h2
      have e : t.mem s'.head = s'.mem s'.head := htm _ (Ne.symm hne)
      have h2' : Cell.isHole (t.mem s'.head) := h2
      show Cell.units (t.mem s'.head) ≠ 0
      rw [e] at h2' ⊢
      exact m.headNZ h1 h2'
    · intro hl
      have hl1 := (t2.live a (fun h => h)).1 hl
      exact m.dead ((ft.live a (fun h => h)).1 hl1)
    · have : t.tail ≤ s'.tail := by show s'.tail - _ ≤ s'.tail; omega
      omega

theorem releaseLoose_spec {s : RW} {len : Nat → Nat} {ex : Nat → ℤ} (h : Inv s len ex) (hC : Canon s) {a : Nat}
    (ha : s.live a) :
    (releaseLoose s a (len a)).Sat (2047 < s.jv + len a) (fun _ _ => False)
      (fun _ t => Inv t len ex ∧ Canon t ∧ Frame s t (fun b => b = a) ∧ ¬ t.live a ∧ t.tail ≤ s.tail) := by
  have h16 := h.lt16
  have hjc := h.jc_le
  have hpb : s.pivot ≤ s.base := Nat.le_add_right _ _
  have hlive := ha.2.2
  have ec : add16 s.jc 1 = s.jc + 1 := add16_eq (by omega)
  have hclen : clen s.pivot len a (s.mem a) = len a := by unfold clen; rw [if_neg fun h => hlive h.2]
  unfold releaseLoose
  simp only
  by_cases c0 : len a = 0
  · rw [if_pos c0]
    set t : RW := RW.purge { s with jc := add16 s.jc 1 } a with ht
    have htm : ∀ b, b ≠ a → t.mem b = s.mem b := fun b hb => by rw [ht, mem_purge_ne _ hb]
    obtain ⟨hth, htu⟩ : Cell.isHole (t.mem a) ∧ Cell.units (t.mem a) = 0 := purge_hole _ _
    have ft : Frame s t fun b => b = a := Frame.change a rfl rfl rfl rfl htm (Or.inl rfl)
    have it : Inv t len ex := by
      refine Inv.change h a ha.1 ha.2.1 rfl rfl rfl rfl htm (fun _ _ => rfl) h.bt h.tl ?_ ?_ ?_ h.exnn
      · rw [phiC_live hlive, phiC_hole hth]; show ((add16 s.jc 1 : Nat) : ℤ) = _; omega
      · rw [phiV_live hlive, phiV_hole hth, htu]; show (s.jv : ℤ) = _; omega
      · intro u
        rw [phiW_live hlive, phiW_hole ha.2.1 hth, htu, ind_zero, c0, ind_zero]
        rfl
    have hat : t.hole a := ⟨ha.1, ha.2.1, hth⟩
    obtain ⟨t1, t2, t3, t4, t5, t6⟩ := trimIf_spec t len ex it hat htu
    obtain ⟨q1, q2, q3⟩ := trimIf_canon t len ex it hat htu
    have hoth : ∀ x, t.hole x → t.units x ≠ 0 → Other s t a x := by
      intro x hx hxu
      have hxr : x ≠ a := by rintro rfl; exact hxu htu
      have e := htm x hxr
      refine ⟨hxr, ⟨hx.1, hx.2.1, by have := hx.2.2; unfold RW.isHole at this; rw [e] at this; exact this⟩, ?_, e⟩
      unfold RW.units at *; rw [e] at hxu; exact hxu
    have nt := q1 (fun x hx hxu => by
      have o := hoth x hx hxu
      rw [o.holeEnd]; exact hC.noTail x o.2.1 o.2.2.1)
    have hbk : ∀ x, (trimIf t a).hole x → (trimIf t a).units x ≠ 0 → t.hole x ∧ t.units x ≠ 0 := by
      intro x hx hxu
      have p : (trimIf t a).pivot = t.pivot := t2.pivot
      refine ⟨⟨le_trans t5 hx.1, by rw [← p]; exact hx.2.1, ?_⟩, ?_⟩
      · have := hx.2.2; unfold RW.isHole at this; rw [t3] at this; exact this
      · unfold RW.units at *; rw [t3] at hxu; exact hxu
    have hst' : ∀ x, (trimIf t a).start x = t.start x := fun x => by show x + _ = x + _; rw [t3]
    have hen' : ∀ x, (trimIf t a).holeEnd x = t.holeEnd x := fun x => by
      show x + _ + Cell.units _ = x + _ + Cell.units _; rw [t3]
    refine ⟨t1, ⟨fun x hx hxu => ?_, fun x y hx hy hxu hyu => ?_, ?_⟩, ft.trans (t2.mono fun _ h => h.elim), ?_, t4⟩
    · obtain ⟨hx1, hxu1⟩ := hbk x hx hxu
      have o := hoth x hx1 hxu1
      rw [hen', nt.1, o.holeEnd]; exact hC.noTail x o.2.1 o.2.2.1
    · obtain ⟨hx1, hxu1⟩ := hbk x hx hxu
      obtain ⟨hy1, hyu1⟩ := hbk y hy hyu
      have ox := hoth x hx1 hxu1
      have oy := hoth y hy1 hyu1
      rw [hen', ox.holeEnd, hst', oy.start]
      exact hC.noAdj x y ox.2.1 oy.2.1 ox.2.2.1 oy.2.2.1
    · refine q3 fun hne => ?_
      intro h1 h2
      have e : t.mem s.head = s.mem s.head := htm _ (Ne.symm hne)
      have h2' : Cell.isHole (t.mem s.head) := h2
      show Cell.units (t.mem s.head) ≠ 0
      rw [e] at h2' ⊢
      exact hC.headNZ h1 h2'
    · intro hl
      exact ((t2.live a (fun h => h)).1 hl).2.2 hth
  · rw [if_neg c0]
    have hin := h.inside ha.1 (lt_of_lt_of_le ha.2.1 hpb) (by rw [hclen]; omega)
    rw [hclen] at hin
    by_cases cu : 2047 < len a
    · rw [setUnits_ub _ _ cu]; show 2047 < s.jv + len a; omega
    rw [setUnits_ok _ _ (by omega)]
    -- volume does not wrap: ghost debt of the released chunk
    set N := len a with hN
    have hvb : s.jv + N ≤ s.tail - s.base := by
      have i0 : Inv { s with mem := s.mem.set a ⟨(s.mem a).lo, holeWord 0⟩, jc := s.jc + 1 } len
          (fun u => ex u + ind (s.start a) N u) := by
        have hm0 : (s.mem.set a ⟨(s.mem a).lo, holeWord 0⟩) a = ⟨(s.mem a).lo, holeWord 0⟩ := Memory.set_same _ _ _
        have hz : Cell.isHole (⟨(s.mem a).lo, holeWord 0⟩ : Cell) := isHole_holeWord (by omega)
        have hzu : Cell.units (⟨(s.mem a).lo, holeWord 0⟩ : Cell) = 0 := units_holeWord (by omega)
        refine Inv.change h a ha.1 ha.2.1 rfl rfl rfl rfl (fun b hb => Memory.set_ne _ _ hb) (fun _ _ => rfl) h.bt h.tl ?_ ?_ ?_ ?_
        · rw [phiC_live hlive]; simp only; rw [hm0, phiC_hole hz]; omega
        · rw [phiV_live hlive]; simp only; rw [hm0, phiV_hole hz, hzu]; omega
        · intro u
          rw [phiW_live hlive]; simp only; rw [hm0, phiW_hole ha.2.1 hz, hzu, ind_zero]
          show 0 + (ex u + ind (a + (s.mem a).lo) N u) + _ = ind (a + (s.mem a).lo) (len a) u + ex u + _
          rw [← hN]
          omega
        · intro u; have := h.exnn u; have := ind_nonneg (s.start a) N u; omega
      have := i0.vol_le (p := s.start a) (n := N) (fun u => by have := h.exnn u; omega)
      exact this
    have ev : add16 s.jv N = s.jv + N := add16_eq (by omega)
    set s1 : RW := { RW.setHi { s with jc := add16 s.jc 1 } a (holeWord N) with jv := add16 s.jv N } with hs1
    have hm1 : s1.mem a = ⟨(s.mem a).lo, holeWord N⟩ := Memory.set_same _ _ _
    have hmne : ∀ b, b ≠ a → s1.mem b = s.mem b := fun b hb => Memory.set_ne _ _ hb
    have hh1 : Cell.isHole (s1.mem a) := by rw [hm1]; exact isHole_holeWord (by omega)
    have hu1 : Cell.units (s1.mem a) = N := by rw [hm1]; exact units_holeWord (by omega)
    have hst1 : s1.start a = s.start a := by show a + (s1.mem a).lo = _; rw [hm1]
    have hen1 : s1.holeEnd a = s.start a + N := by show s1.start a + Cell.units (s1.mem a) = _; rw [hst1, hu1]
    have i1 : Inv s1 len ex := by
      refine Inv.change h a ha.1 ha.2.1 rfl rfl rfl rfl hmne (fun _ _ => rfl) h.bt h.tl ?_ ?_ ?_ h.exnn
      · rw [phiC_live hlive, phiC_hole hh1]; show ((add16 s.jc 1 : Nat) : ℤ) = _; omega
      · rw [phiV_live hlive, phiV_hole hh1, hu1]; show ((add16 s.jv N : Nat) : ℤ) = _; omega
      · intro u
        rw [phiW_live hlive, phiW_hole ha.2.1 hh1, hu1, hm1]
        rfl
    have f1 : Frame s s1 fun b => b = a := Frame.change a rfl rfl rfl rfl hmne (Or.inl rfl)
    have d1 : ¬ s1.live a := fun hl => hl.2.2 hh1
    have ha1 : s1.hole a := ⟨ha.1, ha.2.1, hh1⟩
    have hau1 : s1.units a ≠ 0 := by show Cell.units (s1.mem a) ≠ 0; omega
    have o1 : ∀ x, x ≠ a → s1.hole x → s1.units x ≠ 0 → Other s s1 a x := by
      intro x hxa hx hxu
      have e := hmne x hxa
      refine ⟨hxa, ⟨hx.1, hx.2.1, by have := hx.2.2; unfold RW.isHole at this; rw [e] at this; exact this⟩, ?_, e⟩
      unfold RW.units at *; rw [e] at hxu; exact hxu
    have ht1 : s1.tail = s.tail := rfl
    have z1 : s1.headNZ := by
      intro h1 h2
      by_cases hae : a = s.head
      · show Cell.units (s1.mem s.head) ≠ 0; rw [← hae]; omega
      · have e : s1.mem s.head = s.mem s.head := hmne _ (Ne.symm hae)
        have h2' : Cell.isHole (s1.mem s.head) := h2
        show Cell.units (s1.mem s.head) ≠ 0
        rw [e] at h2' ⊢
        exact hC.headNZ h1 h2'
    show Out.Sat (match lookupAdjacent s1 (s1.start a) (s1.holeEnd a) with
      | none => Out.ub
      | some (before, after) => _) _ _ _
    obtain ⟨before, after, hlk, adj⟩ := lookupAdjacent_spec s1 i1.cnt (s1.start a) (s1.holeEnd a)
    rw [hlk]
    simp only
    -- merge with the hole before
    refine Out.Sat.bind (P := fun r t => Mid s t len ex a r ∧ t.holeEnd r = s.start a + N ∧
        (∀ x, x ≠ a → s.hole x → s.units x ≠ 0 → s.holeEnd x ≠ t.start r) ∧
        (∀ x, s1.hole x → s1.units x ≠ 0 → x ≠ a → before ≠ some x → t.mem x = s1.mem x ∧
          (s.start a + N ≠ s.tail → t.head ≤ x)) ∧ (r = a ∨ before = some r)) ?_ ?_
    · cases hbef : before with
      | none =>
        refine ⟨⟨i1, f1, d1, fun x hx hxu => ?_, hh1, ha.2.1, hau1, Or.inl ⟨ha.1, rfl⟩, z1⟩, hen1, ?_, ?_, Or.inl rfl⟩
        · by_cases hxa : x = a
          · exact Or.inl hxa
          · exact Or.inr (o1 x hxa hx hxu)
        · intro x hxa hx hxu
          have ox : Other s s1 a x := ⟨hxa, hx, hxu, hmne x hxa⟩
          have hx1 : s1.hole x := ⟨hx.1, hx.2.1, by unfold RW.isHole; rw [ox.2.2.2]; exact hx.2.2⟩
          rw [← ox.holeEnd]
          exact adj.before_none hbef x hx1 (by rw [ox.units]; exact ox.2.2.1)
        · intro x hx hxu hxa _; exact ⟨rfl, fun _ => hx.1⟩
      | some b =>
        obtain ⟨hb1, hb2, hb3⟩ := adj.before_some b hbef
        have hba : b ≠ a := by
          rintro rfl
          have : s1.holeEnd b = s1.start b + s1.units b := rfl
          omega
        have ob := o1 b hba hb1 hb2
        refine (mergeHoles_spec i1 hb1 ha1 hb2 hau1 hb3).mono (fun hh => by rw [← ev]; exact hh) (fun _ _ hh => hh) ?_
        intro r t mp
        have hend : t.holeEnd r = s.start a + N := by
          show t.start r + t.units r = _
          rw [mp.start, mp.units]
          have : s1.holeEnd b = s1.start b + s1.units b := rfl
          have : s1.units a = N := hu1
          omega
        have hoth : ∀ x, t.hole x → t.units x ≠ 0 → x = r ∨ Other s t a x := by
          intro x hx hxu
          rcases mp.holes x hx hxu with hxr | ⟨hx1, hx2, hx3⟩
          · exact Or.inl hxr
          · have e := mp.other x hx1 hx2
            have hxu1 : s1.units x ≠ 0 := by unfold RW.units at *; rw [e] at hxu; exact hxu
            have o := o1 x hx2 hx3 hxu1
            exact Or.inr ⟨o.1, o.2.1, o.2.2.1, by rw [e]; exact o.2.2.2⟩
        have hstr : t.start r = s.start b := by rw [mp.start]; exact ob.start
        have hnt : ∀ x, s1.hole x → s1.units x ≠ 0 → x ≠ b → x ≠ a → s1.holeEnd x ≠ s1.tail ∧ s1.holeEnd x ≠ s1.start b := by
          intro x hx hxu _ hxa
          have o := o1 x hxa hx hxu
          rw [o.holeEnd, ob.start, ht1]
          exact ⟨hC.noTail x o.2.1 o.2.2.1, hC.noAdj x b o.2.1 ob.2.1 o.2.2.1 ob.2.2.1⟩
        have hA : s.start a + N ≠ s.tail → ∀ x, s1.hole x → s1.units x ≠ 0 → s1.holeEnd x ≠ s1.tail := by
          intro hne x hx hxu
          by_cases hxa : x = a
          · rw [hxa, hen1]; exact hne
          · have o := o1 x hxa hx hxu
            rw [o.holeEnd]; exact hC.noTail x o.2.1 o.2.2.1
        have tl : (t.head ≤ r ∧ t.tail = s.tail) ∨ (r < t.head ∧ t.tail = t.start r ∧ t.holeEnd r = s.tail) := by
          by_cases hne : s.start a + N = s.tail
          · rcases mp.tailB (by rw [hen1]; exact hne) hnt with ⟨p1, p2⟩ | ⟨p1, p2⟩
            · exact Or.inl ⟨p1, p2⟩
            · exact Or.inr ⟨p1, by rw [p2, mp.start], by rw [hend]; exact hne⟩
          · have p := mp.tailA (hA hne)
            exact Or.inl ⟨p.2.1, p.1⟩
        have hrlt : r < t.pivot := by
          rw [mp.frame.pivot]
          rcases mp.which with rfl | rfl
          · exact hb1.2.1
          · exact ha.2.1
        refine ⟨⟨mp.inv, f1.trans (mp.frame.mono fun _ h => h.elim), ?_, hoth, mp.isHole, hrlt, ?_, tl, mp.headNZ z1⟩, hend, ?_, ?_, ?_⟩
        · intro hl; exact d1 ((mp.frame.live a (fun h => h)).1 hl)
        · rw [mp.units]; omega
        · intro x _ hx hxu
          rw [hstr]
          exact hC.noAdj x b hx ob.2.1 hxu ob.2.2.1
        · intro x hx hxu hxa hxb
          have hxb' : x ≠ b := fun hh => hxb (by rw [hh])
          refine ⟨mp.other x hxb' hxa, fun hne => ?_⟩
          exact (mp.tailA (hA hne)).2.2 x hx hxu hxb' hxa
        · rcases mp.which with rfl | rfl
          · exact Or.inr rfl
          · exact Or.inl rfl
    · rintro r t ⟨m, hend, hB, hsurv, hwhich⟩
      refine Out.Sat.bind (P := fun r t => Mid s t len ex a r ∧ (∀ x, Other s t a x → s.holeEnd x ≠ t.start r) ∧
        (∀ x, Other s t a x → s.start x ≠ t.holeEnd r)) ?_ ?_
      · cases haft : after with
        | none =>
          refine ⟨m, fun x ox => hB x ox.1 ox.2.1 ox.2.2.1, fun x ox => ?_⟩
          have e := hmne x ox.1
          have hx1 : s1.hole x := ⟨ox.2.1.1, ox.2.1.2.1, by unfold RW.isHole; rw [e]; exact ox.2.1.2.2⟩
          have hs : s1.start x = s.start x := by show x + (s1.mem x).lo = _; rw [e]
          have hu : s1.units x = s.units x := by show Cell.units (s1.mem x) = _; rw [e]
          rw [hend, ← hen1, ← hs]
          exact adj.after_none haft x hx1 (by rw [hu]; exact ox.2.2.1)
        | some c =>
          obtain ⟨hc1, hc2, hc3⟩ := adj.after_some c haft
          rw [hen1] at hc3
          have hcin := i1.hole_inside hc1 hc2
          have hce : s1.holeEnd c = s1.start c + s1.units c := rfl
          have hne : s.start a + N ≠ s.tail := by omega
          have hca : c ≠ a := by rintro rfl; omega
          have hcb : before ≠ some c := by
            intro hh
            have := (adj.before_some c hh).2.2
            omega
          obtain ⟨hcm, hch⟩ := hsurv c hc1 hc2 hca hcb
          have hch := hch hne
          have oc := o1 c hca hc1 hc2
          obtain ⟨hrh, htt⟩ : t.head ≤ r ∧ t.tail = s.tail := by
            rcases m.tails with hh | ⟨_, _, hh⟩
            · exact hh
            · omega
          have hct : t.hole c := ⟨hch, by rw [m.frame.pivot]; exact hc1.2.1, by unfold RW.isHole; rw [hcm]; exact hc1.2.2⟩
          have hcu : t.units c ≠ 0 := by unfold RW.units; rw [hcm]; exact hc2
          have hcs : t.start c = s.start a + N := by show c + (t.mem c).lo = _; rw [hcm]; exact hc3
          have hce' : t.holeEnd c = s.holeEnd c := by
            show c + (t.mem c).lo + Cell.units (t.mem c) = c + (s.mem c).lo + Cell.units (s.mem c)
            rw [hcm, oc.2.2.2]
          have hUb : 2047 < t.jv → 2047 < s.jv + N := by
            intro hh
            have := h.jv_release m.inv ha m.dead m.frame (le_of_eq htt)
            omega
          refine (mergeHoles_spec m.inv ⟨hrh, m.rlt, m.rhole⟩ hct m.rnz hcu (by rw [hend, hcs])).mono hUb (fun _ _ hh => hh) ?_
          intro r2 t2 mp
          have hcr : c ≠ r := by
            rintro rfl
            rcases hwhich with hw | hw
            · exact hca hw
            · exact hcb hw
          have htm2 : ∀ x, x ≠ r → x ≠ c → t2.mem x = t.mem x := mp.other
          have hends : ∀ x, t.hole x → t.units x ≠ 0 → t.holeEnd x ≠ t.tail := by
            intro x hx hxu
            rcases m.holes x hx hxu with rfl | ox
            · rw [hend, htt]; exact hne
            · rw [ox.holeEnd, htt]; exact hC.noTail x ox.2.1 ox.2.2.1
          have tA := mp.tailA hends
          have hr2lt : r2 < t2.pivot := by
            rw [mp.frame.pivot]
            rcases mp.which with rfl | rfl
            · exact m.rlt
            · exact hct.2.1
          have hend2 : t2.holeEnd r2 = s.holeEnd c := by
            show t2.start r2 + t2.units r2 = _
            rw [mp.start, mp.units, ← hce']
            have : t.holeEnd c = t.start c + t.units c := rfl
            have : t.holeEnd r = t.start r + t.units r := rfl
            omega
          have hst2 : t2.start r2 = t.start r := mp.start
          refine ⟨⟨mp.inv, m.frame.trans (mp.frame.mono fun _ h => h.elim), ?_, ?_, mp.isHole, hr2lt, ?_, Or.inl ⟨tA.2.1, tA.1.trans htt⟩, mp.headNZ m.headNZ⟩, ?_, ?_⟩
          · intro hl; exact m.dead ((mp.frame.live a (fun h => h)).1 hl)
          · intro x hx hxu
            rcases mp.holes x hx hxu with hxr | ⟨hx1, hx2, hx3⟩
            · exact Or.inl hxr
            · have e := htm2 x hx1 hx2
              have hxu1 : t.units x ≠ 0 := by unfold RW.units at *; rw [e] at hxu; exact hxu
              rcases m.holes x hx3 hxu1 with hh | o
              · exact absurd hh hx1
              · exact Or.inr ⟨o.1, o.2.1, o.2.2.1, by rw [e]; exact o.2.2.2⟩
          · rw [mp.units]; have := m.rnz; omega
          · intro x ox
            rw [hst2]
            exact hB x ox.1 ox.2.1 ox.2.2.1
          · intro x ox
            rw [hend2]
            exact fun hh => hC.noAdj c x oc.2.1 ox.2.1 oc.2.2.1 ox.2.2.1 hh.symm
      · rintro r2 t2 ⟨m2, hB2, hA2⟩
        exact (m2.finish hC hB2 hA2).mono (fun hh => hh.elim) (fun _ _ hh => hh) (fun _ _ hh => hh)

end Fptu.Gear
