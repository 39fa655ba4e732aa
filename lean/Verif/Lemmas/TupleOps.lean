import Verif.Lemmas.TupleBase
/-!
# Tuple operations: specifications
-/
namespace Fptu.Rw
open Fptu.Gear

/-- The fields of `s` other than `a` are exactly the fields of `s'` other than `a`, all untouched. -/
structure Others (σ : Sch) (s s' : RW) (a : Nat) : Prop where
  pivot : s'.pivot = s.pivot
  pre : s'.pre = s.pre
  lim : s'.lim = s.lim
  live : ∀ b, b ≠ a → (s'.live b ↔ s.live b)
  kept : ∀ b, b ≠ a → s.owner b → Kept σ s s' b

theorem Others.refl (σ : Sch) (s : RW) (a : Nat) : Others σ s s a :=
  ⟨rfl, rfl, rfl, fun _ _ => Iff.rfl, fun b _ _ => Kept.refl σ s b⟩

theorem Others.base {σ : Sch} {s s' : RW} {a : Nat} (h : Others σ s s' a) : s'.base = s.base := by
  show s'.pivot + s'.pre = _; rw [h.pivot, h.pre]

theorem Others.owner {σ : Sch} {s s' : RW} {a b : Nat} (h : Others σ s s' a) (hb : b ≠ a) : s'.owner b ↔ s.owner b := by
  unfold RW.owner
  rw [h.live b hb, h.pivot, h.base]

theorem lenOf_index {σ : Sch} {s : RW} {a : Nat} (h : a < s.pivot) : lenOf σ s a = fieldUnits s.mem (cellGenus (s.mem a)) a := by
  unfold lenOf; rw [if_pos h]

/-- Payload units of an owner lie at or above the base. -/
theorem WF.payload_ge {σ : Sch} {s : RW} (h : WF σ s) {b : Nat} (hb : s.owner b) (h0 : 0 < lenOf σ s b) :
    s.base ≤ s.start b ∧ s.start b + lenOf σ s b ≤ s.tail := by
  have := h.inv.inside (hb.head_le h.inv.hp) hb.lt_base (by rw [hb.clen]; exact h0)
  rw [hb.clen] at this
  exact this

/-- From an allocator frame and a write confined to the units owned by `a`, the other fields are untouched. -/
theorem others_of_frame {σ : Sch} {s s1 : RW} {a : Nat} {n : Nat} {m : Memory} (h : WF σ s)
    (fr : Frame s s1 fun b => b = a) (i1 : Inv s1 (upd (lenOf σ s) a n) fun _ => 0) (ho : 0 < n → s1.owner a)
    (hab : a < s1.base)
    (hm : Props.StaysInside s1.mem m (s1.start a) n) : Others σ s (RW.withMem s1 m) a := by
  have hbase := fr.base
  have hlow : ∀ b, b < s1.base → m b = s1.mem b := by
    intro b hb
    by_cases h0 : n = 0
    · subst h0; exact hm b (by omega)
    · refine hm b (Or.inl ?_)
      have o := ho (by omega)
      have := i1.inside (o.head_le i1.hp) o.lt_base (by rw [o.clen, upd_same]; omega)
      omega
  refine ⟨fr.pivot, fr.pre, fr.lim, fun b hb => (live_withMem hlow b).trans (fr.live b hb), fun b hb hob => ⟨?_, ?_⟩⟩
  · show m b = _
    rw [hlow b (by rw [hbase]; exact hob.lt_base)]
    exact fr.owner_mem hb hob
  · intro u h1 h2
    have hge := h.payload_ge hob (by omega)
    have hu : u ≠ a := by omega
    have hpb : s.pivot ≤ s.base := Nat.le_add_right _ _
    have e1 : s1.mem u = s.mem u := fr.data u hu (by omega)
    show m u = _
    rw [← e1]
    by_cases h0 : n = 0
    · subst h0; exact hm u (by omega)
    · have o := ho (by omega)
      have ob1 := (fr.owner hb).2 hob
      have d := i1.disjoint hb (ob1.head_le i1.hp) ob1.lt_base (o.head_le i1.hp) o.lt_base u
      rw [ob1.clen, o.clen, upd_same, upd_ne _ _ hb] at d
      have est : s1.start b = s.start b := by show b + (s1.mem b).lo = _; rw [fr.owner_mem hb hob]
      rw [est] at d
      have k1 : ind (s.start b) (lenOf σ s b) u = 1 := by unfold ind; rw [if_pos ⟨h1, h2⟩]
      have k2 := ind_le_one s1.base (s1.tail - s1.base) u
      have k3 : ind (s1.start a) n u ≤ 0 := by omega
      refine hm u ?_
      unfold ind at k3
      split_ifs at k3 <;> omega

/-- A state valid up to the contents of the field `a` is valid once those are written. -/
theorem wf_of_frame {σ : Sch} {s s1 : RW} {a : Nat} {n : Nat} {m : Memory} (h : WF σ s)
    (fr : Frame s s1 fun b => b = a) (i1 : Inv s1 (upd (lenOf σ s) a n) fun _ => 0) (c1 : Canon s1)
    (ho : 0 < n → s1.owner a) (hab : a < s1.base)
    (hm : Props.StaysInside s1.mem m (s1.start a) n)
    (ha : s1.owner a → lenOf σ (RW.withMem s1 m) a = n ∧ (s1.live a → (s1.mem a).hi < 65536) ∧
      ∀ g, StretchyAt σ (RW.withMem s1 m) a g → (s1.mem a).lo ≠ 0 → 0 < n) :
    WF σ (RW.withMem s1 m) ∧ Others σ s (RW.withMem s1 m) a := by
  have oth := others_of_frame h fr i1 ho hab hm
  have hlow : ∀ b, b < s1.base → m b = s1.mem b := by
    intro b hb
    by_cases h0 : n = 0
    · subst h0; exact hm b (by omega)
    · refine hm b (Or.inl ?_)
      have o := ho (by omega)
      have := i1.inside (o.head_le i1.hp) o.lt_base (by rw [o.clen, upd_same]; omega)
      omega
  have own : (RW.withMem s1 m).owner a ↔ s1.owner a := by
    unfold RW.owner; rw [live_withMem hlow a]; rfl
  refine ⟨WF.next (a := a) h (Inv.withMem i1 hlow) (Canon.withMem c1 hlow) fr.pivot fr.pre
    (fun b hb hl => (oth.live b hb).1 hl) (fun b hb hob => ?_) (fun hoa => ?_), oth⟩
  · exact ⟨oth.kept b hb ((oth.owner hb).1 hob), upd_ne _ _ hb⟩
  · obtain ⟨e1, e2, e3⟩ := ha (own.1 hoa)
    rw [upd_same]
    have ea : (RW.withMem s1 m).mem a = s1.mem a := hlow a hab
    refine ⟨e1, fun hl => ?_, fun g hs h0 => e3 g hs (by rw [← ea]; exact h0)⟩
    rw [ea]; exact e2 ((live_withMem hlow a).1 hl)

/-- Allocation of a loose field followed by the write of its value. -/
theorem alloc_write {σ : Sch} {s s1 : RW} {a tag n : Nat} {g : Genus} {v : Val} (h : WF σ s)
    (post : LoosePost s s1 (lenOf σ s) (fun _ => 0) tag n a) (c1 : Canon s1)
    (hg : tag2genus tag = g) (hf : v.fits g) (hn : needs g v n) (h0 : 0 < n) :
    WF σ (RW.withMem s1 (v.write s1.mem (s1.start a))) ∧ Others σ s (RW.withMem s1 (v.write s1.mem (s1.start a))) a ∧
      (RW.withMem s1 (v.write s1.mem (s1.start a))).live a ∧ ((RW.withMem s1 (v.write s1.mem (s1.start a))).mem a) = s1.mem a := by
  obtain ⟨w1, w2, w3⟩ := write_spec hf hn h0 s1.mem (s1.start a)
  have ol : s1.owner a := Or.inl post.live
  have hin := post.inv.inside (ol.head_le post.inv.hp) ol.lt_base (by rw [ol.clen, upd_same]; exact h0)
  have ea : (v.write s1.mem (s1.start a)) a = s1.mem a := w1 a (Or.inl (by have := ol.lt_base; omega))
  have hlow : ∀ b, b < s1.base → (v.write s1.mem (s1.start a)) b = s1.mem b := fun b hb => w1 b (Or.inl (by omega))
  have hcg : cellGenus (s1.mem a) = g := by rw [cellGenus_tag _ tag post.word, hg]
  have key := wf_of_frame h post.frame post.inv c1 (fun _ => ol) ol.lt_base w1 (fun _ => ⟨?_, ?_, fun _ _ _ => h0⟩)
  · exact ⟨key.1, key.2, (live_withMem hlow a).2 post.live, ea⟩
  · rw [lenOf_index (s := RW.withMem s1 (v.write s1.mem (s1.start a))) post.live.2.1]
    show fieldUnits (v.write s1.mem (s1.start a)) (cellGenus ((v.write s1.mem (s1.start a)) a)) a = n
    rw [ea, hcg]
    unfold fieldUnits
    unfold needs at hn
    cases hfx : g.isFixed with
    | true => rw [if_pos rfl]; rw [hfx, if_pos rfl] at hn; exact hn.symm
    | false =>
      rw [if_neg (by decide), ea]
      rw [if_neg (by have := ol.lt_base; intro h'; have e : s1.start a = a + (s1.mem a).lo := rfl; omega)]
      exact w2 hfx
  · intro _; rw [post.word]; omega

/-- Allocation of a loose field without payload, whose descriptor gets the value `x`. -/
theorem alloc_inline {σ : Sch} {s s1 : RW} {a tag : Nat} {g : Genus} (x : Nat) (h : WF σ s)
    (post : LoosePost s s1 (lenOf σ s) (fun _ => 0) tag 0 a) (c1 : Canon s1)
    (hg : tag2genus tag = g) (hx : (g.isFixed = true ∧ g.looseUnits = 0) ∨ (g.isFixed = false ∧ x = 0)) :
    WF σ (s1.setLo a x) ∧ Others σ s (s1.setLo a x) a ∧ (s1.setLo a x).live a ∧
      (s1.setLo a x).mem a = ⟨x, tag % 65536⟩ := by
  have ol : s1.owner a := Or.inl post.live
  set s2 := s1.setLo a x with hs2
  have hma : s2.mem a = ⟨x, tag % 65536⟩ := by
    rw [← post.word]; exact Memory.set_same _ _ _
  have hmne : ∀ b, b ≠ a → s2.mem b = s1.mem b := fun b hb => Memory.set_ne _ _ hb
  have hhi : (s2.mem a).hi = (s1.mem a).hi := by rw [hma, post.word]
  have hl2 : s2.live a := ⟨post.live.1, post.live.2.1, fun hh => post.live.2.2 (by
    have hh : (s2.mem a).hi / 2048 = 31 := hh
    rw [hhi] at hh; exact hh)⟩
  have i2 : Inv s2 (upd (lenOf σ s) a 0) fun _ => 0 := by
    refine Inv.rewrite post.inv ol rfl rfl rfl rfl rfl rfl rfl hmne (fun _ _ => rfl) hhi ?_ (fun _ => le_rfl)
    intro u; rw [upd_same, ind_zero, ind_zero]
  have c2 : Canon s2 := Canon.same c1 rfl rfl rfl ol hhi hmne
  have fr2 : Frame s s2 fun b => b = a := post.frame.trans (Frame.change a rfl rfl rfl rfl hmne (Or.inl rfl))
  have hcg : cellGenus (s2.mem a) = g := by rw [cellGenus_tag _ tag (by rw [hma]), hg]
  have key := wf_of_frame (m := s2.mem) h fr2 i2 c2 (fun h0 => absurd h0 (by omega)) ol.lt_base (fun _ _ => rfl)
    (fun _ => ⟨?_, ?_, ?_⟩)
  · exact ⟨key.1, key.2, hl2, hma⟩
  · rw [lenOf_index (s := RW.withMem s2 s2.mem) post.live.2.1]
    show fieldUnits s2.mem (cellGenus (s2.mem a)) a = 0
    rw [hcg]
    unfold fieldUnits
    rcases hx with ⟨h1, h2⟩ | ⟨h1, h2⟩
    · rw [h1, if_pos rfl, h2]
    · rw [h1, if_neg (by decide), hma, if_pos h2]
  · intro _; rw [hma]; simp only; omega
  · intro g' hs' h0
    rcases hx with ⟨h1, h2⟩ | ⟨_, h1⟩
    · rcases hs' with ⟨k1, ⟨k2, k3⟩ | ⟨k2, k3, k4⟩⟩
      · have k3 : cellGenus (s2.mem a) = g' := k3
        rw [hcg] at k3; rw [← k3, h1] at k1; cases k1
      · have := post.live.2.1
        have k2 : s1.pivot ≤ a := k2
        omega
    · rw [hma] at h0; exact absurd h1 h0

end Fptu.Rw
