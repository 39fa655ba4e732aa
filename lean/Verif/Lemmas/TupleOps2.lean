import Verif.Lemmas.TupleOps
/-!
# Tuple operations: release, rewriting of a present field, preplaced fields
-/
namespace Fptu.Rw
open Fptu.Gear

/-- `a` is a field of genus `g`: a loose field, or a stretchy preplaced one. -/
def FieldAt (σ : Sch) (s : RW) (a : Nat) (g : Genus) : Prop :=
  (s.live a ∧ cellGenus (s.mem a) = g) ∨ (s.pivot ≤ a ∧ a < s.base ∧ σ (a - s.pivot) = some g)

theorem FieldAt.owner {σ : Sch} {s : RW} {a : Nat} {g : Genus} (h : FieldAt σ s a g) : s.owner a := by
  rcases h with h | h
  · exact Or.inl h.1
  · exact Or.inr ⟨h.1, h.2.1⟩

theorem FieldAt.len {σ : Sch} {s : RW} {a : Nat} {g : Genus} (h : FieldAt σ s a g) :
    lenOf σ s a = fieldUnits s.mem g a := by
  unfold lenOf
  rcases h with ⟨h1, h2⟩ | ⟨h1, h2, h3⟩
  · rw [if_pos h1.2.1, h2]
  · rw [if_neg (by omega), h3]

theorem FieldAt.unique {σ : Sch} {s : RW} {a : Nat} {g g' : Genus} (h : FieldAt σ s a g) (h' : FieldAt σ s a g') : g = g' := by
  rcases h with ⟨h1, h2⟩ | ⟨h1, h2, h3⟩ <;> rcases h' with ⟨k1, k2⟩ | ⟨k1, k2, k3⟩
  · rw [← h2, ← k2]
  · have := h1.2.1; omega
  · have := k1.2.1; omega
  · rw [h3] at k3; injection k3

/-- A field keeps its genus when its descriptor word stays. -/
theorem FieldAt.transfer {σ : Sch} {s s' : RW} {a : Nat} {g : Genus} (h : FieldAt σ s a g) (hp : s'.pivot = s.pivot)
    (hpre : s'.pre = s.pre) (ho : s'.owner a) (hhi : (s'.mem a).hi = (s.mem a).hi) : FieldAt σ s' a g := by
  rcases h with ⟨h1, h2⟩ | ⟨h1, h2, h3⟩
  · left
    rcases ho with ho | ho
    · refine ⟨ho, ?_⟩
      unfold cellGenus at *
      rw [hhi]; exact h2
    · have := h1.2.1; omega
  · right
    refine ⟨by rw [hp]; exact h1, ?_, by rw [hp]; exact h3⟩
    show a < s'.pivot + s'.pre
    rw [hp, hpre]; exact h2

/-- Writing the value of a present field after its payload was resized or moved. -/
theorem owner_write {σ : Sch} {s s1 : RW} {a n p : Nat} {g : Genus} {v : Val} (h : WF σ s)
    (post : ReallocPost s s1 (lenOf σ s) (fun _ => 0) a n p) (c1 : Canon s1) (hg : FieldAt σ s a g)
    (hf : v.fits g) (hn : needs g v n) (h0 : 0 < n) :
    WF σ (RW.withMem s1 (v.write s1.mem p)) ∧ Others σ s (RW.withMem s1 (v.write s1.mem p)) a ∧
      FieldAt σ (RW.withMem s1 (v.write s1.mem p)) a g ∧
      ((RW.withMem s1 (v.write s1.mem p)).mem a) = s1.mem a ∧ (s1.mem a).hi = (s.mem a).hi ∧ (s1.mem a).lo ≠ 0 := by
  obtain ⟨w1, w2, w3⟩ := write_spec hf hn h0 s1.mem p
  have ol := post.owner
  have hst := post.start
  have hin := post.inv.inside (ol.head_le post.inv.hp) ol.lt_base (by rw [ol.clen, upd_same]; exact h0)
  have hlt := ol.lt_base
  have ea : (v.write s1.mem p) a = s1.mem a := w1 a (Or.inl (by omega))
  have hlow : ∀ b, b < s1.base → (v.write s1.mem p) b = s1.mem b := fun b hb => w1 b (Or.inl (by omega))
  have hlo : (s1.mem a).lo ≠ 0 := by
    intro h'; have e : s1.start a = a + (s1.mem a).lo := rfl; omega
  have ow : (RW.withMem s1 (v.write s1.mem p)).owner a := by
    unfold RW.owner; rw [live_withMem hlow a]; exact ol
  have hg2 : FieldAt σ (RW.withMem s1 (v.write s1.mem p)) a g :=
    FieldAt.transfer hg post.frame.pivot post.frame.pre ow (by
      show ((v.write s1.mem p) a).hi = _; rw [ea]; exact post.hi)
  have key := wf_of_frame (m := v.write s1.mem p) h post.frame post.inv c1 (fun _ => ol) ol.lt_base (by rw [hst]; exact w1)
    (fun _ => ⟨?_, ?_, fun _ _ _ => h0⟩)
  · exact ⟨key.1, key.2, hg2, ea, post.hi, hlo⟩
  · rw [hg2.len]
    unfold fieldUnits
    unfold needs at hn
    cases hfx : g.isFixed with
    | true => rw [if_pos rfl]; rw [hfx, if_pos rfl] at hn; exact hn.symm
    | false =>
      rw [if_neg (by decide)]
      show (if ((v.write s1.mem p) a).lo = 0 then 0 else brutto g (v.write s1.mem p) (a + ((v.write s1.mem p) a).lo)) = n
      rw [ea, if_neg hlo]
      rw [show a + (s1.mem a).lo = p from hst]
      exact w2 hfx
  · intro hl
    rw [post.hi]
    rcases hg with hg | hg
    · exact h.word a hg.1
    · have := hl.2.1; have := post.frame.pivot; omega

/-- Rewriting the descriptor word of a field without payload. -/
theorem inline_write {σ : Sch} {s : RW} {a : Nat} {g : Genus} (x : Nat) (h : WF σ s) (hl : s.live a)
    (hg : cellGenus (s.mem a) = g) (hin : g.isInplaced = true) :
    WF σ (s.setLo a x) ∧ Others σ s (s.setLo a x) a ∧ (s.setLo a x).live a ∧
      (s.setLo a x).mem a = ⟨x, (s.mem a).hi⟩ := by
  have ol : s.owner a := Or.inl hl
  have hfx := inplaced_facts g hin
  have hlen : lenOf σ s a = 0 := by
    rw [lenOf_index hl.2.1, hg]; unfold fieldUnits; rw [hfx.1, if_pos rfl]; exact hfx.2
  set s2 := s.setLo a x with hs2
  have hma : s2.mem a = ⟨x, (s.mem a).hi⟩ := Memory.set_same _ _ _
  have hmne : ∀ b, b ≠ a → s2.mem b = s.mem b := fun b hb => Memory.set_ne _ _ hb
  have hhi : (s2.mem a).hi = (s.mem a).hi := by rw [hma]
  have hl2 : s2.live a := ⟨hl.1, hl.2.1, fun hh => hl.2.2 (by
    have hh : (s2.mem a).hi / 2048 = 31 := hh
    rw [hhi] at hh; exact hh)⟩
  have hcg : cellGenus (s2.mem a) = g := by unfold cellGenus at *; rw [hhi]; exact hg
  have i2 : Inv s2 (upd (lenOf σ s) a 0) fun _ => 0 := by
    refine Inv.rewrite h.inv ol rfl rfl rfl rfl rfl rfl rfl hmne (fun b hb => upd_ne _ _ hb) hhi ?_ (fun _ => le_rfl)
    intro u; rw [upd_same, hlen, ind_zero, ind_zero]
  have c2 : Canon s2 := Canon.same h.canon rfl rfl rfl ol hhi hmne
  have fr2 : Frame s s2 fun b => b = a := Frame.change a rfl rfl rfl rfl hmne (Or.inl rfl)
  have key := wf_of_frame (m := s2.mem) h fr2 i2 c2 (fun h0 => absurd h0 (by omega)) ol.lt_base (fun _ _ => rfl)
    (fun _ => ⟨?_, ?_, ?_⟩)
  · exact ⟨key.1, key.2, hl2, hma⟩
  · rw [lenOf_index (s := RW.withMem s2 s2.mem) hl.2.1]
    show fieldUnits s2.mem (cellGenus (s2.mem a)) a = 0
    rw [hcg]
    unfold fieldUnits
    rw [hfx.1, if_pos rfl, hfx.2]
  · intro _; rw [hma]; exact h.word a hl
  · intro g' hs' h0
    rcases hs' with ⟨k1, ⟨k2, k3⟩ | ⟨k2, k3, k4⟩⟩
    · have k3 : cellGenus (s2.mem a) = g' := k3
      rw [hcg] at k3; rw [← k3, hfx.1] at k1; cases k1
    · have := hl.2.1
      have k2 : s.pivot ≤ a := k2
      omega

/-- Erasing a loose field. -/
theorem release_spec {σ : Sch} {s : RW} {a : Nat} (h : WF σ s) (hl : s.live a) :
    (releaseLoose s a (lenOf σ s a)).Sat (2047 < s.jv + lenOf σ s a) (fun _ _ => False)
      (fun _ t => WF σ t ∧ Others σ s t a ∧ ¬ t.live a ∧ t.tail ≤ s.tail) := by
  refine (releaseLoose_spec h.inv h.canon hl).mono id (fun _ _ => id) ?_
  rintro _ t ⟨i1, c1, fr, hnl, ht⟩
  have hap : a < s.pivot := hl.2.1
  have hpb : s.pivot ≤ s.base := Nat.le_add_right _ _
  have hnt : ¬ t.owner a := by
    rintro (ho | ho)
    · exact hnl ho
    · have := fr.pivot; omega
  have oth : Others σ s t a := by
    refine ⟨fr.pivot, fr.pre, fr.lim, fun b hb => fr.live b hb, fun b hb hob => ⟨fr.owner_mem hb hob, fun u h1 h2 => ?_⟩⟩
    have hge := h.payload_ge hob (by omega)
    exact fr.data u (by omega) (by omega)
  refine ⟨?_, oth, hnl, ht⟩
  exact WF.next (a := a) h i1 c1 fr.pivot fr.pre (fun b hb hb' => (fr.live b hb).1 hb')
    (fun b hb hob => ⟨oth.kept b hb ((oth.owner hb).1 hob), rfl⟩) (fun ho => absurd ho hnt)

/-- `alloc_data` for a field without payload. -/
theorem attach_spec {σ : Sch} {s : RW} {a n : Nat} (h : WF σ s) (ho : s.owner a) (hlen : lenOf σ s a = 0) (hn : 0 < n) :
    (allocData s n).Sat False
      (fun e s' => s' = s ∧ e = .insufficientSpace 0 n ∧ s.lim - s.tail < n ∧ ∀ y, s.hole y → s.units y < n)
      (fun p s1 => ReallocPost s (s1.setPayload a p) (lenOf σ s) (fun _ => 0) a n p ∧ Canon (s1.setPayload a p)) := by
  obtain ⟨r, hr, hb⟩ := lookupBest_spec h.inv n
  unfold allocData
  rw [hr]
  have e0 : upd (lenOf σ s) a 0 = lenOf σ s := by rw [← hlen]; exact upd_self _ _
  cases r with
  | none =>
    show (tailAlloc s n).Sat _ _ _
    refine (tailAlloc_spec h.inv n).mono id ?_ ?_
    · rintro e s' ⟨e1, e2, e3⟩
      exact ⟨e1, e2, e3, hb.none' rfl⟩
    · rintro p s1 ⟨rfl, rfl, hfit, i1, fr⟩
      exact reattach fr ho (by rw [e0]; exact i1) (fun _ => le_rfl) hn (tailAlloc_canon h.inv h.canon hn)
  | some x =>
    obtain ⟨h1, h2, _⟩ := hb.some' x rfl
    refine ((allocDataAt_hole h.inv hn h1 h2).and (allocDataAt_canon h.inv h.canon hn h1 h2)).mono (fun h => h.1) (fun _ _ h => h.1.elim) ?_
    rintro p s1 ⟨⟨_, i1, fr⟩, c1⟩
    exact reattach fr ho (by rw [e0]; exact i1) (fun _ => le_rfl) hn c1

/-- `release_data` of a preplaced field. -/
theorem detach_spec {σ : Sch} {s : RW} {a : Nat} (F : Fix) (h : WF σ s) (ho : s.pivot ≤ a ∧ a < s.base) (hlen : 0 < lenOf σ s a) :
    (releaseDataF F s (s.start a) (lenOf σ s a)).Sat (2047 < s.jv + lenOf σ s a)
      (fun e s' => e = .insufficientSpace 1 0 ∧ s.head = 0 ∧ (∀ x, s.hole x → s.units x ≠ 0) ∧
        s' = if F.rel then s else { s with jv := s.jv + lenOf σ s a })
      (fun _ s1 => WF σ (s1.setLo a 0) ∧ Others σ s (s1.setLo a 0) a ∧ (s1.setLo a 0).mem a = ⟨0, (s.mem a).hi⟩) := by
  have ow : s.owner a := Or.inr ho
  obtain ⟨before, after, hadj, adj⟩ := lookupAdjacent_spec s h.inv.cnt (s.start a) (s.start a + lenOf σ s a)
  have spec := releaseDataAt_spec (ex := fun _ => 0) (h.inv.detach ow) (fun _ => le_rfl) h.canon hlen adj (hole0 := none)
    (fun z hz => by cases hz)
  have e : releaseData s (s.start a) (lenOf σ s a)
      = (releaseDataAt s (s.start a) (lenOf σ s a) before after none).bind fun _ s => .ok () s := by
    unfold releaseData; rw [hadj]
  unfold releaseDataF
  rw [e]
  cases hr : releaseDataAt s (s.start a) (lenOf σ s a) before after none with
  | ub => rw [hr] at spec; exact spec
  | exc e' s' =>
    rw [hr] at spec
    obtain ⟨e1, _, _, _, e2, e3, _, e4⟩ := spec
    refine ⟨e1, e2, e3, ?_⟩
    rw [e4]
  | ok r s1 =>
    rw [hr] at spec
    have post : RelPost s s1 (upd (lenOf σ s) a 0) (fun _ => 0) (lenOf σ s a) before after r := spec
    have ow1 : s1.owner a := (post.frame.owner id).2 ow
    have em : s1.mem a = s.mem a := post.frame.owner_mem id ow
    set s2 := s1.setLo a 0 with hs2
    have hma : s2.mem a = ⟨0, (s.mem a).hi⟩ := by rw [← em]; exact Memory.set_same _ _ _
    have hmne : ∀ b, b ≠ a → s2.mem b = s1.mem b := fun b hb => Memory.set_ne _ _ hb
    have hhi : (s2.mem a).hi = (s1.mem a).hi := by rw [hma, em]
    have i2 : Inv s2 (upd (lenOf σ s) a 0) fun _ => 0 := by
      refine Inv.rewrite post.inv ow1 rfl rfl rfl rfl rfl rfl rfl hmne (fun _ _ => rfl) hhi ?_ (fun _ => le_rfl)
      intro u; rw [upd_same, ind_zero, ind_zero]
    have c2 : Canon s2 := Canon.same post.canon rfl rfl rfl ow1 hhi hmne
    have fr2 : Frame s s2 fun b => b = a :=
      (post.frame.mono (Y := fun b => b = a) (fun _ => False.elim)).trans (Frame.change a rfl rfl rfl rfl hmne (Or.inl rfl))
    have hlt2 : a < s2.base := ow1.lt_base
    have hnl : ¬ s2.live a := by
      rintro hh
      have h1 : a < s1.pivot := hh.2.1
      have := post.frame.pivot
      omega
    have key := wf_of_frame (m := s2.mem) h fr2 i2 c2 (fun h0 => absurd h0 (by omega)) hlt2 (fun _ _ => rfl)
      (fun _ => ⟨?_, ?_, ?_⟩)
    · exact ⟨key.1, key.2, hma⟩
    · unfold lenOf
      have hp : s2.pivot = s.pivot := post.frame.pivot
      rw [if_neg (by show ¬ a < s2.pivot; omega)]
      show (match σ (a - s2.pivot) with | some g => fieldUnits s2.mem g a | none => 0) = 0
      cases hσ : σ (a - s2.pivot) with
      | none => rfl
      | some g =>
        show fieldUnits s2.mem g a = 0
        unfold fieldUnits
        rw [h.sch _ g hσ, if_neg (by decide), hma, if_pos rfl]
    · intro hl; exact absurd hl hnl
    · intro g' _ h0; rw [hma] at h0; exact absurd rfl h0

/-- Writing bytes of fixed-size preplaced fields. -/
theorem preplaced_write {σ : Sch} {s : RW} (h : WF σ s) {m : Memory}
    (hm : ∀ b, (b < s.pivot ∨ s.base ≤ b ∨ (∃ g, σ (b - s.pivot) = some g)) → m b = s.mem b) :
    WF σ (RW.withMem s m) ∧ (∀ b, (RW.withMem s m).live b ↔ s.live b) ∧
      (∀ b, s.live b → Kept σ s (RW.withMem s m) b) ∧
      (∀ b g, FieldAt σ s b g → FieldAt σ (RW.withMem s m) b g ∧ Kept σ s (RW.withMem s m) b) := by
  have hpb : s.pivot ≤ s.base := Nat.le_add_right _ _
  have hidx : ∀ b, b < s.pivot → m b = s.mem b := fun b hb => hm b (Or.inl hb)
  have live : ∀ b, (RW.withMem s m).live b ↔ s.live b := by
    intro b
    unfold RW.live
    constructor
    · rintro ⟨h1, h2, h3⟩
      refine ⟨h1, h2, fun hh => h3 ?_⟩
      show Cell.isHole (m b); rw [hidx b h2]; exact hh
    · rintro ⟨h1, h2, h3⟩
      refine ⟨h1, h2, fun hh => h3 ?_⟩
      show Cell.isHole (s.mem b); rw [← hidx b h2]; exact hh
  have kp : ∀ b g, FieldAt σ s b g → Kept σ s (RW.withMem s m) b := by
    intro b g hb
    refine ⟨?_, fun u h1 h2 => hm u ?_⟩
    · rcases hb with hb | hb
      · exact hm b (Or.inl hb.1.2.1)
      · exact hm b (Or.inr (Or.inr ⟨g, hb.2.2⟩))
    · have := h.payload_ge hb.owner (by omega)
      right; left; omega
  have lens : ∀ b, s.owner b → lenOf σ (RW.withMem s m) b = lenOf σ s b := by
    intro b hb
    by_cases c : ∃ g, FieldAt σ s b g
    · obtain ⟨g, hg⟩ := c
      exact (kp b g hg).len h hb rfl
    · have hb' : s.pivot ≤ b ∧ b < s.base := by
        rcases hb with hb | hb
        · exact absurd ⟨_, Or.inl ⟨hb, rfl⟩⟩ c
        · exact hb
      have hσ : σ (b - s.pivot) = none := by
        cases hσ : σ (b - s.pivot) with
        | none => rfl
        | some g => exact absurd ⟨g, Or.inr ⟨hb'.1, hb'.2, hσ⟩⟩ c
      unfold lenOf
      rw [if_neg (by show ¬ b < s.pivot; omega), if_neg (by omega)]
      show (match σ (b - s.pivot) with | some g => _ | none => 0) = _
      rw [hσ]
  have inv : Inv (RW.withMem s m) (lenOf σ s) fun _ => 0 := by
    refine ⟨h.inv.hp, h.inv.bt, h.inv.tl, h.inv.ll, fun u => ?_, ?_, ?_, h.inv.exnn⟩
    · refine Eq.trans ?_ (h.inv.cover u)
      show T _ m s.head s.base + _ = T _ s.mem s.head s.base + _
      congr 1
      refine T_congr fun b h1 h2 => ?_
      by_cases hb : b < s.pivot
      · rw [hidx b hb]; rfl
      · cases hσ : σ (b - s.pivot) with
        | some g => rw [hm b (Or.inr (Or.inr ⟨g, hσ⟩))]; rfl
        | none =>
          have h0 : lenOf σ s b = 0 := by unfold lenOf; rw [if_neg hb, hσ]
          have c0 : ∀ c, clen s.pivot (lenOf σ s) b c = 0 := by
            intro c; unfold clen; rw [if_neg (by omega), h0]
          show ind _ (clen s.pivot (lenOf σ s) b (m b)) u = ind _ (clen s.pivot (lenOf σ s) b (s.mem b)) u
          rw [c0, c0, ind_zero, ind_zero]
    · rw [show (RW.withMem s m).jc = s.jc from rfl, h.inv.cnt]
      exact T_congr fun b h1 h2 => by rw [show (RW.withMem s m).mem b = s.mem b from hidx b h2]
    · rw [show (RW.withMem s m).jv = s.jv from rfl, h.inv.vol]
      exact T_congr fun b h1 h2 => by rw [show (RW.withMem s m).mem b = s.mem b from hidx b h2]
  have canon : Canon (RW.withMem s m) := by
    have back : ∀ x, (RW.withMem s m).hole x → s.hole x ∧ (RW.withMem s m).mem x = s.mem x := by
      intro x hx
      have ee : (RW.withMem s m).mem x = s.mem x := hidx x hx.2.1
      refine ⟨⟨hx.1, hx.2.1, ?_⟩, ee⟩
      have := hx.2.2; unfold RW.isHole at this; rw [ee] at this; exact this
    refine ⟨fun a ha hu => ?_, fun a b ha hb hua hub => ?_, fun h1 h2 => ?_⟩
    · obtain ⟨k1, k2⟩ := back a ha
      unfold RW.units RW.holeEnd RW.start RW.units at *
      rw [k2] at hu ⊢
      exact h.canon.noTail a k1 hu
    · obtain ⟨k1, k2⟩ := back a ha
      obtain ⟨k3, k4⟩ := back b hb
      unfold RW.units RW.holeEnd RW.start RW.units at *
      rw [k2] at hua ⊢
      rw [k4] at hub ⊢
      exact h.canon.noAdj a b k1 k3 hua hub
    · have h1' : s.head < s.pivot := h1
      have ee : (RW.withMem s m).mem s.head = s.mem s.head := hidx _ h1'
      have := h.canon.headNZ h1' (by
        have h2' : Cell.isHole ((RW.withMem s m).mem s.head) := h2
        rw [ee] at h2'; exact h2')
      show Cell.units ((RW.withMem s m).mem s.head) ≠ 0
      rw [ee]; exact this
  have own : ∀ b, (RW.withMem s m).owner b ↔ s.owner b := by
    intro b; unfold RW.owner; rw [live b]; rfl
  have fld : ∀ b g, FieldAt σ s b g → FieldAt σ (RW.withMem s m) b g := by
    intro b g hb
    refine hb.transfer rfl rfl ((own b).2 hb.owner) ?_
    rw [(kp b g hb).cell]
  refine ⟨⟨Inv.congr_len inv fun b hb => lens b ((own b).1 hb), canon, ?_, ?_, h.sch⟩, live,
    fun b hb => kp b _ (Or.inl ⟨hb, rfl⟩), fun b g hb => ⟨fld b g hb, kp b g hb⟩⟩
  · intro b hb
    show (m b).hi < _
    rw [hidx b hb.2.1]; exact h.word b ((live b).1 hb)
  · rintro b g ⟨hs0, hs⟩ h0
    have hb : FieldAt σ s b g := by
      rcases hs with ⟨k1, k2⟩ | ⟨k1, k2, k3⟩
      · refine Or.inl ⟨(live b).1 k1, ?_⟩
        have k2 : cellGenus (m b) = g := k2
        rw [hidx b k1.2.1] at k2; exact k2
      · exact Or.inr ⟨k1, k2, k3⟩
    rw [lens b hb.owner]
    rw [(kp b g hb).cell] at h0
    exact h.pos b g ⟨hs0, hb⟩ h0

end Fptu.Rw
