import Verif.Lemmas.GearRealloc
import Verif.Lemmas.GearPure
/-!
# Where `realloc_data` places a value: best fit among the gaps between the values of the other fields
-/
namespace Fptu.Gear

/-- A gap of `m` units at `p`: not occupied, enclosed by occupied units or the beginning of the payload area. -/
structure Gap (base : Nat) (occ : Nat → Prop) (p m : Nat) : Prop where
  pos : 0 < m
  from_base : base ≤ p
  free : ∀ u, p ≤ u → u < p + m → ¬ occ u
  left : p = base ∨ occ (p - 1)
  right : occ (p + m)

/-- `p` is the end of the occupied units. -/
structure EndOf (base : Nat) (occ : Nat → Prop) (p : Nat) : Prop where
  from_base : base ≤ p
  left : p = base ∨ occ (p - 1)
  free : ∀ u, p ≤ u → ¬ occ u

/-- Best fit: the smallest gap that can hold `n` units, the one with the lowest address among those; the end only if there is no such gap. -/
def BestPlace (base : Nat) (occ : Nat → Prop) (n p : Nat) : Prop :=
  (∃ m, n ≤ m ∧ Gap base occ p m ∧ ∀ q k, Gap base occ q k → n ≤ k → m < k ∨ (m = k ∧ p ≤ q)) ∨
  (EndOf base occ p ∧ ∀ q k, Gap base occ q k → k < n)

/-- Unit `u` belongs to the value of a field. -/
def Occ (s : RW) (len : Nat → Nat) (u : Nat) : Prop := ∃ b, s.owner b ∧ s.start b ≤ u ∧ u < s.start b + len b

/-- The chosen hole, or the end of the data. -/
def spot (s : RW) : Option Nat → Nat
  | some x => s.start x
  | none => s.tail

section
variable {s : RW} {len : Nat → Nat}

theorem Inv.occ_inside (h : Inv s len fun _ => 0) {u : Nat} (ho : Occ s len u) : s.base ≤ u ∧ u < s.tail := by
  obtain ⟨b, h1, h2, h3⟩ := ho
  have := h.inside (h1.head_le h.hp) h1.lt_base (by rw [h1.clen]; omega)
  rw [h1.clen] at this
  omega

/-- Every unit of the payload area is in a value or in a hole. -/
theorem Inv.occ_or_hole (h : Inv s len fun _ => 0) {u : Nat} (h1 : s.base ≤ u) (h2 : u < s.tail) :
    Occ s len u ∨ ∃ x, s.hole x ∧ s.start x ≤ u ∧ u < s.holeEnd x := by
  have hc := h.cover u
  have h1' : ind s.base (s.tail - s.base) u = 1 := by unfold ind; rw [if_pos (by omega)]
  rw [h1'] at hc
  have : ∃ a, s.head ≤ a ∧ a < s.base ∧ phiW s.pivot len u a (s.mem a) ≠ 0 := by
    by_contra k
    rw [T_congr (ψ := fun _ _ => 0) (m' := s.mem)] at hc
    · unfold T at hc; simp at hc
    · intro a k1 k2
      by_contra k3
      exact k ⟨a, k1, k2, k3⟩
  obtain ⟨a, a1, a2, a3⟩ := this
  unfold phiW ind at a3
  have a4 : a + (s.mem a).lo ≤ u ∧ u < a + (s.mem a).lo + clen s.pivot len a (s.mem a) := by
    by_contra k
    rw [if_neg k] at a3
    exact a3 rfl
  by_cases c : a < s.pivot ∧ s.isHole a
  · have hh : s.hole a := ⟨a1, c.1, c.2⟩
    rw [Inv.clen_hole hh] at a4
    exact Or.inr ⟨a, hh, a4.1, a4.2⟩
  · have hw : s.owner a := by
      by_cases c1 : a < s.pivot
      · exact Or.inl ⟨a1, c1, fun k => c ⟨c1, k⟩⟩
      · exact Or.inr ⟨by omega, a2⟩
    rw [hw.clen] at a4
    exact Or.inl ⟨a, hw, a4.1, a4.2⟩

theorem Inv.not_both (h : Inv s len fun _ => 0) {u x : Nat} (ho : Occ s len u) (hx : s.hole x) (h1 : s.start x ≤ u) (h2 : u < s.holeEnd x) : False := by
  obtain ⟨b, k1, k2, k3⟩ := ho
  have hpb : s.pivot ≤ s.base := Nat.le_add_right _ _
  have hne : x ≠ b := by rintro rfl; exact k1.not_hole hx
  have d := h.disjoint hne hx.1 (lt_of_lt_of_le hx.2.1 hpb) (k1.head_le h.hp) k1.lt_base u
  rw [Inv.clen_hole hx, k1.clen] at d
  have := ind_le_one s.base (s.tail - s.base) u
  have he : s.holeEnd x = s.start x + s.units x := rfl
  have i1 : ind (s.start x) (s.units x) u = 1 := by unfold ind; rw [if_pos (by omega)]
  have i2 : ind (s.start b) (len b) u = 1 := by unfold ind; rw [if_pos (by omega)]
  omega

theorem Inv.hole_once (h : Inv s len fun _ => 0) {u x y : Nat} (hx : s.hole x) (hy : s.hole y) (h1 : s.start x ≤ u) (h2 : u < s.holeEnd x)
    (h3 : s.start y ≤ u) (h4 : u < s.holeEnd y) : x = y := by
  by_contra hne
  have hpb : s.pivot ≤ s.base := Nat.le_add_right _ _
  have d := h.disjoint hne hx.1 (lt_of_lt_of_le hx.2.1 hpb) hy.1 (lt_of_lt_of_le hy.2.1 hpb) u
  rw [Inv.clen_hole hx, Inv.clen_hole hy] at d
  have := ind_le_one s.base (s.tail - s.base) u
  have he : s.holeEnd x = s.start x + s.units x := rfl
  have he' : s.holeEnd y = s.start y + s.units y := rfl
  have i1 : ind (s.start x) (s.units x) u = 1 := by unfold ind; rw [if_pos (by omega)]
  have i2 : ind (s.start y) (s.units y) u = 1 := by unfold ind; rw [if_pos (by omega)]
  omega

theorem gap_of_hole (h : Inv s len fun _ => 0) (hC : Canon s) {x : Nat} (hx : s.hole x) (hu : s.units x ≠ 0) :
    Gap s.base (Occ s len) (s.start x) (s.units x) := by
  have hin := h.hole_inside hx hu
  have he : s.holeEnd x = s.start x + s.units x := rfl
  refine ⟨by omega, hin.1, fun u h1 h2 ho => h.not_both ho hx h1 (by omega), ?_, ?_⟩
  · by_contra k
    rw [not_or] at k
    obtain ⟨k1, k2⟩ := k
    rcases h.occ_or_hole (u := s.start x - 1) (by omega) (by omega) with k3 | ⟨y, y1, y2, y3⟩
    · exact k2 k3
    · have hey : s.holeEnd y = s.start y + s.units y := rfl
      have hyx : s.holeEnd y = s.start x := by
        by_contra c
        have := h.hole_once hx y1 (u := s.start x) le_rfl (by omega) (by omega) (by omega)
        subst this
        omega
      exact hC.noAdj y x y1 hx (by omega) hu hyx
  · have hlt : s.holeEnd x < s.tail := lt_of_le_of_ne hin.2 (hC.noTail x hx hu)
    rcases h.occ_or_hole (u := s.start x + s.units x) (by omega) (by omega) with k3 | ⟨y, y1, y2, y3⟩
    · exact k3
    · exfalso
      have hey : s.holeEnd y = s.start y + s.units y := rfl
      have hyx : s.holeEnd x = s.start y := by
        by_contra c
        have := h.hole_once hx y1 (u := s.holeEnd x - 1) (by omega) (by omega) (by omega) (by omega)
        subst this
        omega
      exact hC.noAdj x y hx y1 hu (by omega) hyx

theorem hole_of_gap (h : Inv s len fun _ => 0) (hC : Canon s) {p m : Nat} (hg : Gap s.base (Occ s len) p m) :
    ∃ x, s.hole x ∧ s.start x = p ∧ s.units x = m := by
  have hr := h.occ_inside hg.right
  have hp := hg.pos
  have hb := hg.from_base
  rcases h.occ_or_hole (u := p) hb (by omega) with k | ⟨x, x1, x2, x3⟩
  · exact absurd k (hg.free p le_rfl (by omega))
  have he : s.holeEnd x = s.start x + s.units x := rfl
  have g := gap_of_hole h hC x1 (by omega)
  have e1 : s.start x = p := by
    by_contra c
    rcases hg.left with k | k
    · have := g.from_base; omega
    · exact h.not_both k x1 (by omega) (by omega)
  refine ⟨x, x1, e1, ?_⟩
  by_contra c
  rcases Nat.lt_or_gt_of_ne c with c | c
  · exact hg.free _ (by omega) (by omega) g.right
  · exact h.not_both hg.right x1 (by omega) (by omega)

theorem end_tail (h : Inv s len fun _ => 0) (hC : Canon s) : EndOf s.base (Occ s len) s.tail := by
  refine ⟨h.bt, ?_, fun u h1 h2 => by have := h.occ_inside h2; omega⟩
  have hbt := h.bt
  by_contra k
  rw [not_or] at k
  obtain ⟨k1, k2⟩ := k
  rcases h.occ_or_hole (u := s.tail - 1) (by omega) (by omega) with k3 | ⟨x, x1, x2, x3⟩
  · exact k2 k3
  · have he : s.holeEnd x = s.start x + s.units x := rfl
    have := h.hole_inside x1 (by omega)
    exact hC.noTail x x1 (by omega) (by omega)

theorem bestPlace_of_spec (h : Inv s len fun _ => 0) (hC : Canon s) {n : Nat} (hn : 0 < n) {r : Option Nat} (hb : BestSpec s n r) :
    BestPlace s.base (Occ s len) n (spot s r) := by
  cases r with
  | none =>
    refine Or.inr ⟨end_tail h hC, fun q k hg => ?_⟩
    obtain ⟨x, x1, x2, x3⟩ := hole_of_gap h hC hg
    rw [← x3]; exact hb.none' rfl x x1
  | some x =>
    obtain ⟨h1, h2, h3⟩ := hb.some' x rfl
    refine Or.inl ⟨s.units x, h2, gap_of_hole h hC h1 (by omega), fun q k hg hk => ?_⟩
    obtain ⟨y, y1, y2, y3⟩ := hole_of_gap h hC hg
    have := h3 y y1 (by omega)
    unfold betterEq at this
    show s.units x < k ∨ (s.units x = k ∧ s.start x ≤ q)
    omega

end

section
variable {s : RW} {len : Nat → Nat} {ref : Nat}

theorem occ_upd {n : Nat} {u : Nat} : Occ s (upd len ref 0) u → Occ s (upd len ref n) u := by
  rintro ⟨b, h1, h2, h3⟩
  by_cases c : b = ref
  · subst c; rw [upd_same] at h3; omega
  · exact ⟨b, h1, h2, by rw [upd_ne _ _ c] at h3 ⊢; exact h3⟩

/-- The values of the other fields and the value of `ref` are disjoint. -/
theorem occ_split (h : Inv s len fun _ => 0) (ho : s.owner ref) {u : Nat} :
    Occ s len u ↔ (Occ s (upd len ref 0) u ∨ (s.start ref ≤ u ∧ u < s.start ref + len ref)) := by
  constructor
  · rintro ⟨b, h1, h2, h3⟩
    by_cases c : b = ref
    · subst c; exact Or.inr ⟨h2, h3⟩
    · exact Or.inl ⟨b, h1, h2, by rw [upd_ne _ _ c]; exact h3⟩
  · rintro (h1 | ⟨h1, h2⟩)
    · have := occ_upd (n := len ref) h1
      rw [upd_self] at this; exact this
    · exact ⟨ref, ho, h1, h2⟩

theorem occ_apart (h : Inv s len fun _ => 0) (ho : s.owner ref) {u : Nat} (h1 : Occ s (upd len ref 0) u) :
    ¬ (s.start ref ≤ u ∧ u < s.start ref + len ref) := by
  rintro ⟨h2, h3⟩
  obtain ⟨b, k1, k2, k3⟩ := h1
  have hne : b ≠ ref := by rintro rfl; rw [upd_same] at k3; omega
  rw [upd_ne _ _ hne] at k3
  have d := h.disjoint hne (k1.head_le h.hp) k1.lt_base (ho.head_le h.hp) ho.lt_base u
  rw [k1.clen, ho.clen] at d
  have := ind_le_one s.base (s.tail - s.base) u
  have i1 : ind (s.start b) (len b) u = 1 := by unfold ind; rw [if_pos (by omega)]
  have i2 : ind (s.start ref) (len ref) u = 1 := by unfold ind; rw [if_pos (by omega)]
  omega

/-- A gap between the other values that has no unit of `ref` is a hole. -/
theorem gap_away (h : Inv s len fun _ => 0) (hC : Canon s) (ho : s.owner ref) {q k : Nat} (hg : Gap s.base (Occ s (upd len ref 0)) q k)
    (ha : ∀ u, q ≤ u → u < q + k → ¬ (s.start ref ≤ u ∧ u < s.start ref + len ref)) : ∃ x, s.hole x ∧ s.start x = q ∧ s.units x = k := by
  refine hole_of_gap h hC ⟨hg.pos, hg.from_base, fun u h1 h2 h3 => ?_, ?_, (occ_split h ho).2 (Or.inl hg.right)⟩
  · rcases (occ_split h ho).1 h3 with h3 | h3
    · exact hg.free u h1 h2 h3
    · exact ha u h1 h2 h3
  · rcases hg.left with k | k
    · exact Or.inl k
    · exact Or.inr ((occ_split h ho).2 (Or.inl k))

/-- A gap with a unit of `ref` contains all of them and the holes next to them, nothing else. -/
theorem gap_around (h : Inv s len fun _ => 0) (hC : Canon s) (ho : s.owner ref) {q k w : Nat} {before after : Option Nat}
    (adj : AdjSpec s (s.start ref) (s.start ref + len ref) before after) (hg : Gap s.base (Occ s (upd len ref 0)) q k)
    (w1 : q ≤ w) (w2 : w < q + k) (w3 : s.start ref ≤ w) (w4 : w < s.start ref + len ref) :
    q ≤ s.start ref ∧ s.start ref + len ref ≤ q + k ∧ s.start ref - q ≤ optUnits s before ∧ q + k - (s.start ref + len ref) ≤ optUnits s after := by
  have hin := h.inside (ho.head_le h.hp) ho.lt_base (by rw [ho.clen]; omega)
  rw [ho.clen] at hin
  have a1 : q ≤ s.start ref := by
    by_contra c
    rcases hg.left with k | k
    · omega
    · exact occ_apart h ho k ⟨by omega, by omega⟩
  have a2 : s.start ref + len ref ≤ q + k := by
    by_contra c
    exact occ_apart h ho hg.right ⟨by omega, by omega⟩
  have hrt := h.occ_inside ((occ_split h ho).2 (Or.inl hg.right))
  have hqb := hg.from_base
  have chunk : ∀ u, s.start ref ≤ u → u < s.start ref + len ref → Occ s len u := fun u k1 k2 => (occ_split h ho).2 (Or.inr ⟨k1, k2⟩)
  have outside : ∀ u, q ≤ u → u < q + k → ¬ (s.start ref ≤ u ∧ u < s.start ref + len ref) → ∃ x, s.hole x ∧ s.start x ≤ u ∧ u < s.holeEnd x := by
    intro u k1 k2 k3
    rcases h.occ_or_hole (u := u) (by omega) (by omega) with c | c
    · rcases (occ_split h ho).1 c with c | c
      · exact absurd c (hg.free u k1 k2)
      · exact absurd c k3
    · exact c
  refine ⟨a1, a2, ?_, ?_⟩
  · by_cases c : q = s.start ref
    · omega
    obtain ⟨x, x1, x2, x3⟩ := outside (s.start ref - 1) (by omega) (by omega) (by omega)
    have hex : s.holeEnd x = s.start x + s.units x := rfl
    have e1 : s.holeEnd x = s.start ref := by
      by_contra c'
      exact h.not_both (chunk (s.start ref) le_rfl (by omega)) x1 (by omega) (by omega)
    cases hb : before with
    | none => exact absurd e1 (adj.before_none hb x x1 (by omega))
    | some b =>
      obtain ⟨b1, b2, b3⟩ := adj.before_some b hb
      have heb : s.holeEnd b = s.start b + s.units b := rfl
      show s.start ref - q ≤ s.units b
      have g := gap_of_hole h hC b1 b2
      by_contra c'
      rcases g.left with k1 | k1
      · omega
      · obtain ⟨y, y1, y2, y3⟩ := outside (s.start b - 1) (by omega) (by omega) (by omega)
        exact h.not_both k1 y1 y2 y3
  · by_cases c : q + k = s.start ref + len ref
    · omega
    obtain ⟨x, x1, x2, x3⟩ := outside (s.start ref + len ref) (by omega) (by omega) (by omega)
    have hex : s.holeEnd x = s.start x + s.units x := rfl
    have e1 : s.start x = s.start ref + len ref := by
      by_contra c'
      exact h.not_both (chunk (s.start ref + len ref - 1) (by omega) (by omega)) x1 (by omega) (by omega)
    cases hb : after with
    | none => exact absurd e1 (adj.after_none hb x x1 (by omega))
    | some b =>
      obtain ⟨b1, b2, b3⟩ := adj.after_some b hb
      have heb : s.holeEnd b = s.start b + s.units b := rfl
      show q + k - (s.start ref + len ref) ≤ s.units b
      have g := gap_of_hole h hC b1 b2
      by_contra c'
      obtain ⟨y, y1, y2, y3⟩ := outside (s.start b + s.units b) (by omega) (by omega) (by omega)
      exact h.not_both g.right y1 y2 y3

theorem occ_frame {s1 : RW} (f : Frame s s1 fun _ => False) : Occ s1 len = Occ s len := by
  funext u
  refine propext ⟨?_, ?_⟩
  · rintro ⟨b, h1, h2, h3⟩
    have ho := (f.owner id).1 h1
    have e := f.owner_mem id ho
    have e' : s1.start b = s.start b := by unfold RW.start; rw [e]
    exact ⟨b, ho, by omega, by omega⟩
  · rintro ⟨b, ho, h2, h3⟩
    have e := f.owner_mem id ho
    have e' : s1.start b = s.start b := by unfold RW.start; rw [e]
    exact ⟨b, (f.owner id).2 ho, by omega, by omega⟩

theorem allocDataAt_start {s t : RW} {n p : Nat} {r : Option Nat} (hs : allocDataAt s n r = .ok p t) :
    p = spot s r := by
  unfold allocDataAt at hs
  cases r with
  | none =>
    simp only [tailAlloc] at hs
    split_ifs at hs
    injection hs with e _; exact e.symm
  | some x =>
    simp only at hs
    split_ifs at hs
    · injection hs with e _; exact e.symm
    · obtain ⟨_, s2, h1, h2⟩ := Out.bind_ok hs
      injection h2 with e _; exact e.symm

theorem releaseAndAlloc_place {t : RW} {needed p : Nat} (h : Inv s len fun _ => 0) (hC : Canon s)
    (ho : s.owner ref) (hhave : 0 < len ref) (hneed : 0 < needed) (hneed16 : needed < 65536)
    {before after h4r h4a : Option Nat} (adj : AdjSpec s (s.start ref) (s.start ref + len ref) before after)
    (hr : ∀ z, h4r = some z → s.hole z ∧ s.units z = 0)
    (hsp : ∀ x, h4a = some x → BestSpec s needed (some x) ∧ len ref + optUnits s before + optUnits s after < needed)
    (hs : releaseAndAlloc s ref (len ref) needed before after h4r h4a = .ok p t) :
    BestPlace s.base (Occ s (upd len ref 0)) needed p := by
  unfold releaseAndAlloc at hs
  obtain ⟨r, s1, h1, hs⟩ := Out.bind_ok hs
  obtain ⟨x, s2, h2, hs⟩ := Out.bind_ok hs
  obtain ⟨p', s3, h3, hs⟩ := Out.bind_ok hs
  injection hs with e _
  subst e
  have rp := releaseDataAt_spec (h.detach ho) h.exnn hC hhave adj hr
  rw [h1] at rp
  have rp : RelPost s s1 (upd len ref 0) (fun _ => 0) (len ref) before after r := rp
  have hocc := occ_frame (len := upd len ref 0) rp.frame
  have hbase := rp.frame.base
  have fin : ∀ r', BestSpec s1 needed r' → x = r' → s2 = s1 → BestPlace s.base (Occ s (upd len ref 0)) needed p' := by
    rintro r' hb rfl rfl
    have := bestPlace_of_spec rp.inv rp.canon hneed hb
    rw [hocc, hbase] at this
    rw [allocDataAt_start h3]
    exact this
  have best : (match lookupBest s1 needed with | none => Out.ub | some h => Out.ok h s1) = .ok x s2 →
      BestPlace s.base (Occ s (upd len ref 0)) needed p' := by
    intro hm
    obtain ⟨r', hr', hb⟩ := lookupBest_spec rp.inv needed
    rw [hr'] at hm
    injection hm with e1 e2
    exact fin r' hb e1.symm e2.symm
  cases h4a with
  | none => exact best h2
  | some y =>
    simp only at h2
    obtain ⟨hb, hsmall⟩ := hsp y rfl
    obtain ⟨g1, g2, g3⟩ := hb.some' y rfl
    have hxb : before ≠ some y := by
      rintro rfl
      have : optUnits s (some y) = s.units y := rfl
      omega
    have hxa : after ≠ some y := by
      rintro rfl
      have : optUnits s (some y) = s.units y := rfl
      omega
    obtain ⟨o1, o2⟩ := rp.others y g1 (by omega) hxb hxa
    have o3 : s1.units y = s.units y := by show Cell.units (s1.mem y) = _; rw [o2]
    have o4 : s1.start y = s.start y := by show y + (s1.mem y).lo = _; rw [o2]
    rw [if_pos ⟨o1.1, by omega⟩, bestFit_small hneed16 (r := y) ?_ (by omega)] at h2
    · injection h2 with e1 e2
      refine fin (some y) ⟨fun z hz => ?_, fun k => by cases k⟩ e1.symm e2.symm
      cases hz
      refine ⟨o1, by omega, fun z z1 z2 => ?_⟩
      -- the hole `z` is a gap between the other values
      have gz := gap_of_hole rp.inv rp.canon z1 (by omega)
      rw [hocc, hbase] at gz
      by_cases c : ∃ u, s1.start z ≤ u ∧ u < s1.start z + s1.units z ∧ s.start ref ≤ u ∧ u < s.start ref + len ref
      · obtain ⟨u, u1, u2, u3, u4⟩ := c
        have := gap_around h hC ho adj gz u1 u2 u3 u4
        omega
      · obtain ⟨w, w1, w2, w3⟩ := gap_away h hC ho gz (fun u u1 u2 u3 => c ⟨u, u1, u2, u3⟩)
        have := g3 w w1 (by omega)
        unfold betterEq at this ⊢
        omega
    · intro z hz
      rcases rp.res with ⟨q, hq0, hq, hqu, _⟩ | ⟨hq0, hq⟩
      · rw [hq0] at hz; cases hz; omega
      · rw [hq0] at hz; cases hz

/-- `realloc_data` places the value by best fit, if there is junk or if an entry of the index is free. -/
theorem reallocData_place {fixed : Bool} {t : RW} {needed p : Nat} (h : Inv s len fun _ => 0) (hC : Canon s)
    (ho : s.owner ref) (hhave : 0 < len ref) (hneed : 0 < needed) (hneed16 : needed < 65536) (hne : len ref ≠ needed)
    (hidx : s.jv = 0 ∨ 0 < s.head ∨ ∃ x, s.hole x ∧ s.units x = 0)
    (hs : reallocDataWith fixed s ref (len ref) needed = .ok p t) :
    BestPlace s.base (Occ s (upd len ref 0)) needed p := by
  obtain ⟨before, after, hla, adj⟩ := lookupAdjacent_spec s h.cnt (s.start ref) (s.start ref + len ref)
  have hin := h.inside (ho.head_le h.hp) ho.lt_base (by rw [ho.clen]; exact hhave)
  rw [ho.clen] at hin
  have hbt := h.bt
  unfold reallocDataWith at hs
  by_cases cj : s.jv = 0
  · rw [if_pos cj] at hs
    have hz := h.no_holes cj
    have full : ∀ u, s.base ≤ u → u < s.tail → ¬ (s.start ref ≤ u ∧ u < s.start ref + len ref) → Occ s (upd len ref 0) u := by
      intro u h1 h2 h3
      rcases h.occ_or_hole h1 h2 with k | ⟨x, x1, x2, x3⟩
      · rcases (occ_split h ho).1 k with k | k
        · exact k
        · exact absurd k h3
      · have he : s.holeEnd x = s.start x + s.units x := rfl
        have := hz x x1
        omega
    have hb0 : optUnits s before = 0 := by
      cases hb : before with
      | none => rfl
      | some b => exact absurd (hz b (adj.before_some b hb).1) (adj.before_some b hb).2.1
    have ha0 : optUnits s after = 0 := by
      cases hb : after with
      | none => rfl
      | some b => exact absurd (hz b (adj.after_some b hb).1) (adj.after_some b hb).2.1
    have only : ∀ q k, Gap s.base (Occ s (upd len ref 0)) q k → q = s.start ref ∧ k = len ref := by
      intro q k hg
      by_cases c : ∃ u, q ≤ u ∧ u < q + k ∧ s.start ref ≤ u ∧ u < s.start ref + len ref
      · obtain ⟨u, u1, u2, u3, u4⟩ := c
        have := gap_around h hC ho adj hg u1 u2 u3 u4
        omega
      · obtain ⟨x, x1, x2, x3⟩ := gap_away h hC ho hg (fun u u1 u2 u3 => c ⟨u, u1, u2, u3⟩)
        have := hz x x1
        have := hg.pos
        omega
    have left : s.start ref = s.base ∨ Occ s (upd len ref 0) (s.start ref - 1) := by
      by_cases c : s.start ref = s.base
      · exact Or.inl c
      · exact Or.inr (full _ (by omega) (by omega) (by omega))
    have nochunk : ∀ u, s.start ref ≤ u → u < s.start ref + len ref → ¬ Occ s (upd len ref 0) u := fun u h1 h2 h3 => occ_apart h ho h3 ⟨h1, h2⟩
    have beyond : ∀ u, s.tail ≤ u → ¬ Occ s (upd len ref 0) u := by
      intro u h1 h2
      have := h.occ_inside ((occ_split h ho).2 (Or.inl h2))
      omega
    by_cases ct : s.start ref + len ref = s.tail
    · rw [if_pos ct] at hs
      have e : p = s.start ref := by
        split_ifs at hs
        injection hs with e _; exact e.symm
      rw [e]
      refine Or.inr ⟨⟨hin.1, left, fun u h1 => ?_⟩, fun q k hg => ?_⟩
      · by_cases c : u < s.tail
        · exact nochunk u h1 (by omega)
        · exact beyond u (by omega)
      · obtain ⟨e1, e2⟩ := only q k hg
        exact absurd hg.right (beyond _ (by omega))
    · rw [if_neg ct] at hs
      by_cases cn : needed > len ref
      · rw [if_pos cn] at hs
        split_ifs at hs
        obtain ⟨z, s1, h1, hs⟩ := Out.bind_ok hs
        obtain ⟨_, s2, h2, hs⟩ := Out.bind_ok hs
        obtain ⟨q, s3, h3, hs⟩ := Out.bind_ok hs
        injection hs with e _
        have key := indexAlloc_spec h needed
        rw [h1] at key
        have g7 := (Slot.range h key).2.2.2.2.2.2.1
        have e2 : s2.tail = s1.tail := by
          unfold RW.setUnits at h2
          split_ifs at h2
          injection h2 with _ h2; rw [← h2]; rfl
        have e3 : q = s2.tail := by
          unfold tailAlloc at h3
          split_ifs at h3
          injection h3 with h3 _; exact h3.symm
        have ep : p = s.tail := by rw [← e, e3, e2, g7]
        rw [ep]
        refine Or.inr ⟨⟨hbt, Or.inr (full _ (by omega) (by omega) (by omega)), beyond⟩, fun q k hg => ?_⟩
        have := only q k hg
        omega
      · rw [if_neg cn] at hs
        obtain ⟨z, s1, h1, hs⟩ := Out.bind_ok hs
        obtain ⟨_, s2, h2, hs⟩ := Out.bind_ok hs
        injection hs with e _
        have key := indexAlloc_spec h needed
        rw [h1] at key
        have hzr : z ≠ ref := by
          rintro rfl
          rcases ho with ho | ho
          · exact Slot.not_live key ho
          · have := (Slot.range h key).2.1
            omega
        have g8 := (Slot.range h key).2.2.2.2.2.2.2.1
        have e2 : (s2.setPayload z (s2.start ref + needed)).start ref = s.start ref := by
          unfold RW.setUnits at h2
          split_ifs at h2
          injection h2 with _ h2
          rw [← h2]
          show ref + (((s1.setHi z _).setPayload z _).mem ref).lo = _
          rw [mem_setPayload_ne _ _ (Ne.symm hzr), mem_setHi_ne _ _ (Ne.symm hzr), g8]
        have ep : p = s.start ref := by rw [← e, e2]
        rw [ep]
        refine Or.inl ⟨len ref, by omega, ⟨hhave, hin.1, nochunk, left, full _ (by omega) (by omega) (by omega)⟩, fun q k hg _ => ?_⟩
        have := only q k hg
        omega
  · rw [if_neg cj, hla] at hs
    simp only at hs
    by_cases c1 : len ref < needed ∧ len ref + (optUnits s before + optUnits s after) ≥ needed
    · rw [if_pos c1] at hs
      exact releaseAndAlloc_place h hC ho hhave hneed hneed16 adj (fun z hz => by cases hz) (fun x hx => by cases hx) hs
    · rw [if_neg c1] at hs
      have ex0 : lookupExact s 0 = some (if s.jc < 1 then none else s.lookup (holeWord 0)) := by
        unfold lookupExact
        by_cases cc : s.jc < 1
        · rw [if_pos (Or.inl cc), if_pos cc]
        · rw [if_neg (by omega), if_neg (by omega), if_neg cc]
      have ex0s : ∀ z, (lookupExact s 0).join = some z → s.hole z ∧ s.units z = 0 := by
        intro z hz
        rw [ex0] at hz
        have hz : (if s.jc < 1 then none else s.lookup (holeWord 0)) = some z := hz
        split_ifs at hz
        exact lookup_hole_some (by omega) hz
      have ex0n : (lookupExact s 0).join = none → ∀ a, s.hole a → s.units a ≠ 0 := by
        intro hz a ha
        rw [ex0] at hz
        have hz : (if s.jc < 1 then none else s.lookup (holeWord 0)) = none := hz
        have := h.jc_pos ha
        rw [if_neg (by omega)] at hz
        exact lookup_hole_none hz a ha
      have hr : ∀ z, (if optUnits s before + optUnits s after > 0 ∨ s.head > 0 then none else (lookupExact s 0).join) = some z →
          s.hole z ∧ s.units z = 0 := by
        intro z hz
        split_ifs at hz
        exact ex0s z hz
      have c2 : optUnits s before + optUnits s after > 0 ∨ s.head > 0 ∨
          (if optUnits s before + optUnits s after > 0 ∨ s.head > 0 then none else (lookupExact s 0).join).isSome = true := by
        by_contra k
        push Not at k
        obtain ⟨k1, k2, k3⟩ := k
        rw [if_neg (by omega)] at k3
        rcases hidx with c | c | ⟨x, x1, x2⟩
        · exact cj c
        · omega
        · cases hx : (lookupExact s 0).join with
          | none => exact ex0n hx x x1 x2
          | some z => rw [hx] at k3; exact k3 rfl
      rw [if_neg (not_not.2 c2)] at hs
      by_cases c3 : len ref > needed ∨ needed ≤ s.lim - s.tail
      · rw [if_pos c3] at hs
        exact releaseAndAlloc_place h hC ho hhave hneed hneed16 adj hr (fun x hx => by cases hx) hs
      · rw [if_neg c3] at hs
        obtain ⟨r', hr', hb⟩ := lookupBest_spec h needed
        rw [hr'] at hs
        cases r' with
        | none => cases hs
        | some x =>
          refine releaseAndAlloc_place h hC ho hhave hneed hneed16 adj hr (fun y hy => ?_) hs
          cases hy
          clear hidx c2
          exact ⟨hb, by omega⟩

end
end Fptu.Gear
