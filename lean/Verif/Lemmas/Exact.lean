import Verif.Lemmas.Image
import Verif.Lemmas.TuplePure
import Verif.Lemmas.TupleMove
/-!
# Every variable-length field holds exactly a stored value: histories
-/
namespace Fptu.Rw
open Fptu.Gear

/-- The `n` units at `p` are what storing `v` leaves. -/
structure Holds (g : Genus) (m : Memory) (p n : Nat) (v : Val) : Prop where
  fits : v.fits g = true
  est : v.estimate = .ok n
  pos : 0 < n
  cells : ∃ m0 q, ∀ i, i < n → m (p + i) = (v.write m0 q) (q + i)

theorem Holds.move {g : Genus} {m m' : Memory} {p p' n : Nat} {v : Val} (h : Holds g m p n v) (hm : ∀ i, i < n → m' (p' + i) = m (p + i)) :
    Holds g m' p' n v := by
  obtain ⟨h1, h2, h0, m0, q, h3⟩ := h
  exact ⟨h1, h2, h0, m0, q, fun i hi => (hm i hi).trans (h3 i hi)⟩

theorem Holds.written {g : Genus} {v : Val} {n : Nat} (hf : v.fits g) (hfx : g.isFixed = false) (hn : needs g v n) (h0 : 0 < n)
    (m : Memory) (p : Nat) : Holds g (v.write m p) p n v := by
  unfold needs at hn
  rw [hfx, if_neg (by decide)] at hn
  exact ⟨hf, hn, h0, m, p, fun _ _ => rfl⟩

theorem Holds.image {g : Genus} {m : Memory} {p n : Nat} {v : Val} (hfx : g.isFixed = false) (h : Holds g m p n v) :
    m.readBytes (4 * p) (4 * n) = image v := by
  obtain ⟨h1, h2, h0, m0, q, h3⟩ := h
  have hn : needs g v n := by unfold needs; rw [hfx, if_neg (by decide)]; exact h2
  rw [← write_image h1 hfx hn h0 m0 q]
  unfold Memory.readBytes
  exact List.map_congr_left fun i hi => Memory.byte_move h3 (List.mem_range.1 hi)

theorem Holds.read {g : Genus} {m : Memory} {p n : Nat} {v : Val} (hfx : g.isFixed = false) (hg : g ≠ .varbin) (h : Holds g m p n v) :
    readPayload g m p = some v := by
  obtain ⟨h1, h2, h0, m0, q, h3⟩ := h
  have hn : needs g v n := by unfold needs; rw [hfx, if_neg (by decide)]; exact h2
  obtain ⟨_, w2, w3⟩ := write_spec h1 hn h0 m0 q
  rw [← w3 hg]
  exact readPayload_move hg h0 (by rw [hfx, if_neg (by decide)]; exact (w2 hfx).symm) h3

/-- Every variable-length field that is not null holds exactly some value. -/
def Exact (σ : Sch) (s : RW) : Prop :=
  ∀ a g, FieldAt σ s a g → g.isFixed = false → (s.mem a).lo ≠ 0 → ∃ v, Holds g s.mem (s.start a) (lenOf σ s a) v

theorem Holds.kept {σ : Sch} {s s' : RW} {a : Nat} {g : Genus} {v : Val} (h : WF σ s) (ho : s.owner a) (hp : s'.pivot = s.pivot) (k : Kept σ s s' a)
    (hh : Holds g s.mem (s.start a) (lenOf σ s a) v) : Holds g s'.mem (s'.start a) (lenOf σ s' a) v := by
  have hst : s'.start a = s.start a := by unfold RW.start; rw [k.cell]
  rw [k.len h ho hp, hst]
  exact hh.move fun i hi => k.payload _ (by omega) (by omega)

theorem Exact.others {σ : Sch} {s s' : RW} {a : Nat} (h : WF σ s) (e : Exact σ s) (o : Others σ s s' a)
    (new : ∀ g, FieldAt σ s' a g → g.isFixed = false → (s'.mem a).lo ≠ 0 → ∃ v, Holds g s'.mem (s'.start a) (lenOf σ s' a) v) : Exact σ s' := by
  intro b g hb hfx h0
  by_cases c : b = a
  · subst c; exact new g hb hfx h0
  have ho := (o.owner c).1 hb.owner
  have k := o.kept b c ho
  have hb' : FieldAt σ s b g := hb.transfer o.pivot.symm o.pre.symm ho (by rw [k.cell])
  rw [k.cell] at h0
  obtain ⟨v, hv⟩ := e b g hb' hfx h0
  exact ⟨v, hv.kept h ho o.pivot k⟩

theorem Exact.gone {σ : Sch} {s s' : RW} {a : Nat} (h : WF σ s) (e : Exact σ s) (o : Others σ s s' a) (hn : ¬ s'.live a)
    (ha : a < s.pivot ∨ s.base ≤ a) : Exact σ s' := by
  refine e.others h o fun g hf _ _ => ?_
  rcases hf with hf | hf
  · exact absurd hf.1 hn
  · have := o.base; have := o.pivot; omega

theorem Exact.loose {σ : Sch} {s s1 : RW} {a tag n : Nat} {g : Genus} {v : Val} (h : WF σ s) (e : Exact σ s)
    (post : LoosePost s s1 (lenOf σ s) (fun _ => 0) tag n a) (c1 : Canon s1)
    (hg : tag2genus tag = g) (hf : v.fits g) (hfx : g.isFixed = false) (hn : needs g v n) (h0 : 0 < n) :
    Exact σ (RW.withMem s1 (v.write s1.mem (s1.start a))) ∧
      Holds g (v.write s1.mem (s1.start a)) ((RW.withMem s1 (v.write s1.mem (s1.start a))).start a) n v := by
  obtain ⟨k1, k2, k3, k4⟩ := alloc_write h post c1 hg hf hn h0
  have hcg : cellGenus ((RW.withMem s1 (v.write s1.mem (s1.start a))).mem a) = g := by rw [k4, cellGenus_tag _ tag post.word, hg]
  have hfa : FieldAt σ (RW.withMem s1 (v.write s1.mem (s1.start a))) a g := Or.inl ⟨k3, hcg⟩
  have hst : (RW.withMem s1 (v.write s1.mem (s1.start a))).start a = s1.start a := by unfold RW.start; rw [k4]
  have hw : Holds g (v.write s1.mem (s1.start a)) ((RW.withMem s1 (v.write s1.mem (s1.start a))).start a) n v := by
    rw [hst]; exact Holds.written hf hfx hn h0 _ _
  refine ⟨e.others h k2 fun g' hg' _ hlo => ⟨v, ?_⟩, hw⟩
  have e1 := hfa.unique hg'
  subst e1
  have hlen : lenOf σ (RW.withMem s1 (v.write s1.mem (s1.start a))) a = n := by
    rw [hfa.len]; unfold fieldUnits
    rw [hfx, if_neg (by decide), if_neg hlo]
    show brutto _ (v.write s1.mem (s1.start a)) ((RW.withMem s1 (v.write s1.mem (s1.start a))).start a) = n
    rw [hst]
    exact (write_spec hf hn h0 s1.mem (s1.start a)).2.1 hfx
  rw [hlen]
  exact hw

theorem Exact.realloc {σ : Sch} {s s1 : RW} {a n p : Nat} {g : Genus} {v : Val} (h : WF σ s) (e : Exact σ s)
    (post : ReallocPost s s1 (lenOf σ s) (fun _ => 0) a n p) (c1 : Canon s1) (hg : FieldAt σ s a g)
    (hf : v.fits g) (hfx : g.isFixed = false) (hn : needs g v n) (h0 : 0 < n) :
    Exact σ (RW.withMem s1 (v.write s1.mem p)) := by
  obtain ⟨k1, k2, k3, k4, k5, k6⟩ := owner_write h post c1 hg hf hn h0
  have hst : (RW.withMem s1 (v.write s1.mem p)).start a = p := by
    have : (RW.withMem s1 (v.write s1.mem p)).start a = s1.start a := by unfold RW.start; rw [k4]
    rw [this]; exact post.start
  refine e.others h k2 fun g' hg' _ hlo => ⟨v, ?_⟩
  have e1 := k3.unique hg'
  subst e1
  have hlen : lenOf σ (RW.withMem s1 (v.write s1.mem p)) a = n := by
    rw [k3.len]; unfold fieldUnits
    rw [hfx, if_neg (by decide), if_neg hlo]
    show brutto _ (v.write s1.mem p) ((RW.withMem s1 (v.write s1.mem p)).start a) = n
    rw [hst]
    exact (write_spec hf hn h0 s1.mem p).2.1 hfx
  rw [hlen, hst]
  exact Holds.written hf hfx hn h0 _ _

theorem setLooseFixed_exact {σ : Sch} {F : Fix} {s t : RW} {g : Genus} {v : Val} {tag : Nat} {r : Option Nat} (h : WF σ s) (e : Exact σ s)
    (hb : Benign F s g v) (hg : tag2genus tag = g) (hf : v.fits g) (hfx : g.isFixed = true)
    (hr : assignLooseFixed F s tag (s.lookup (tag % 65536)) g v = .ok r t) : Exact σ t := by
  have key := setLooseFixed_spec h hb hg hf hfx
  rw [hr] at key
  obtain ⟨_, a, o, ha, _, d1, d2⟩ := (key : SetPost σ s t _ g v _)
  by_cases c : dropped tag g v
  · rcases d1 c with d | d
    · exact e.gone h o d ha
    · rw [hfx] at d; cases d.2.2.1
  · obtain ⟨l1, l2, _⟩ := d2 c
    refine e.others h o fun g' hg' hfx' _ => ?_
    have : g' = g := hg'.unique (Or.inl ⟨l1, word_genus hg l2⟩)
    rw [this, hfx] at hfx'; cases hfx'

theorem setStretchyAt_exact {σ : Sch} {F : Fix} {s t : RW} {g : Genus} {v : Val} {tag a : Nat} {r : Option Nat} (h : WF σ s) (e : Exact σ s)
    (hb : Benign F s g v) (hg : tag2genus tag = g) (hf : v.fits g) (hfx : g.isFixed = false) (ha : FieldAt σ s a g)
    (hlp : if isLoose tag then s.live a else s.pivot ≤ a)
    (hr : assignStretchy F s tag (some a) g v = .ok r t) : Exact σ t := by
  have ho := ha.owner
  unfold assignStretchy at hr
  rw [if_neg (by rw [hg]; exact fun h => h rfl)] at hr
  cases hn : neededUnits tag g v with
  | error e => rw [hn] at hr; cases hr
  | ok n =>
    rw [hn] at hr
    obtain ⟨hn0, hn1⟩ := needed_drop hf hfx hn
    simp only at hr
    rw [if_neg (by
      rintro ⟨k1, k2⟩
      rw [if_pos k1] at hlp
      rcases ha with ha | ha
      · rcases k2 with k2 | k2
        · have := hlp.2.1; omega
        · exact k2 ha.2
      · have := hlp.2.1; have := ha.1; omega)] at hr
    by_cases c0 : (s.mem a).lo ≠ 0
    · rw [if_pos c0] at hr
      have hlen : lenOf σ s a = brutto g s.mem (s.start a) := by
        rw [ha.len]; unfold fieldUnits
        rw [hfx, if_neg (by decide), if_neg c0]
      have hpos : 0 < lenOf σ s a := h.pos a g ⟨hfx, ha⟩ c0
      rw [← hlen] at hr
      by_cases c1 : n ≠ lenOf σ s a
      · rw [if_pos c1] at hr
        by_cases c2 : n = 0
        · rw [if_pos c2] at hr
          by_cases c3 : isLoose tag
          · rw [if_pos c3] at hr hlp
            have key := release_spec h hlp
            cases he : releaseLoose s a (lenOf σ s a) with
            | ub => rw [he] at hr; cases hr
            | exc e s' => rw [he] at hr; cases hr
            | ok u t' =>
              rw [he] at hr key
              injection hr with _ hr
              rw [← hr]
              obtain ⟨_, k2, k3, _⟩ := (key : WF σ t' ∧ _)
              exact e.gone h k2 k3 (Or.inl hlp.2.1)
          · rw [if_neg c3] at hr hlp
            cases he : releaseDataF F s (s.start a) (lenOf σ s a) with
            | ub => rw [he] at hr; cases hr
            | exc e s' => rw [he] at hr; cases hr
            | ok u t' =>
              rw [he] at hr
              injection hr with _ hr
              rw [← hr]
              have key := detach_spec F h ⟨hlp, ho.lt_base⟩ hpos
              rw [he] at key
              refine e.others h key.2.1 fun g' _ _ hlo => ?_
              rw [key.2.2] at hlo
              exact absurd rfl hlo
        · rw [if_neg c2] at hr
          obtain ⟨hneeds, h16⟩ := hn1 c2
          have key := reallocData_spec h.inv h.canon F.swap ho hpos (needed := n) (by omega) h16 (fun hh => c1 hh.symm)
          cases he : reallocDataWith F.swap s a (lenOf σ s a) n with
          | ub => rw [he] at hr; cases hr
          | exc e s' => rw [he] at hr; cases hr
          | ok p s1 =>
            rw [he] at hr key
            injection hr with _ hr
            rw [← hr]
            have hc : Canon s1 := key.2 (by
              rcases hb.swap with k | k | k | k
              · exact Or.inl k
              · exact Or.inr (Or.inl k)
              · exact Or.inr (Or.inr (Or.inr k))
              · rw [hfx] at k; cases k)
            exact e.realloc h key.1 hc ha hf hfx hneeds (by omega)
      · rw [if_neg c1] at hr
        have c1 : n = lenOf σ s a := by omega
        injection hr with _ hr
        rw [← hr]
        exact e.realloc h (same_space h ho c1.symm) h.canon ha hf hfx (hn1 (by omega)).1 (by omega)
    · rw [if_neg c0] at hr
      have c0 : (s.mem a).lo = 0 := by omega
      by_cases c2 : n = 0
      · rw [if_pos c2] at hr
        injection hr with _ hr
        rw [← hr]; exact e
      · rw [if_neg c2] at hr
        obtain ⟨hneeds, h16⟩ := hn1 c2
        have hlen : lenOf σ s a = 0 := by
          rw [ha.len]; unfold fieldUnits
          rw [hfx, if_neg (by decide), if_pos c0]
        have key := attach_spec (n := n) h ho hlen (by omega)
        cases he : allocData s n with
        | ub => rw [he] at hr; cases hr
        | exc e s' => rw [he] at hr; cases hr
        | ok p s1 =>
          rw [he] at key hr
          injection hr with _ hr
          rw [← hr]
          exact e.realloc h key.1 key.2 ha hf hfx hneeds (by omega)

theorem setLooseStretchy_exact {σ : Sch} {F : Fix} {s t : RW} {g : Genus} {v : Val} {tag : Nat} {r : Option Nat} (h : WF σ s) (e : Exact σ s)
    (hb : Benign F s g v) (hg : tag2genus tag = g) (hf : v.fits g) (hfx : g.isFixed = false) (hl : isLoose tag = true)
    (hr : assignStretchy F s tag (s.lookup (tag % 65536)) g v = .ok r t) : Exact σ t := by
  have hw : tag % 65536 / 2048 ≠ 31 := tag_not_hole (by rw [hg]; exact fits_not_hole hf)
  cases hlk : s.lookup (tag % 65536) with
  | none =>
    rw [hlk] at hr
    unfold assignStretchy at hr
    rw [if_neg (by rw [hg]; exact fun h => h rfl)] at hr
    cases hn : neededUnits tag g v with
    | error e => rw [hn] at hr; cases hr
    | ok n =>
      rw [hn] at hr
      obtain ⟨hn0, hn1⟩ := needed_drop hf hfx hn
      simp only at hr
      by_cases c : n = 0
      · rw [if_pos c] at hr
        injection hr with _ hr
        rw [← hr]; exact e
      · rw [if_neg c] at hr
        obtain ⟨hneeds, h16⟩ := hn1 c
        have key := allocLoose_wf h hb hg hf hneeds
        cases he : allocLooseWith F.loose s tag n with
        | ub => rw [he] at hr; cases hr
        | exc e s' => rw [he] at hr; cases hr
        | ok a s1 =>
          rw [he] at key hr
          injection hr with _ hr
          rw [← hr]
          exact (e.loose h key.1 key.2 hg hf hfx hneeds (by omega)).1
  | some a =>
    rw [hlk] at hr
    obtain ⟨⟨hla, hword⟩, _⟩ := (lookup_some hw).1 hlk
    exact setStretchyAt_exact h e hb hg hf hfx (Or.inl ⟨hla, word_genus hg hword⟩) (by rw [if_pos hl]; exact hla) hr

theorem insert_exact {σ : Sch} {F : Fix} {s t : RW} {g : Genus} {v : Val} {tag : Nat} {r : Option Nat} (h : WF σ s) (e : Exact σ s)
    (hb : Benign F s g v) (hg : tag2genus tag = g) (hf : v.fits g) (hr : insertField F s tag g v = .ok r t) : Exact σ t := by
  unfold insertField at hr
  rw [if_neg (by rw [hg]; exact fun h => h rfl)] at hr
  by_cases c0 : ¬ isLooseCollection tag
  · rw [if_pos c0] at hr; cases hr
  rw [if_neg c0] at hr
  by_cases c : ¬ isDiscernible tag ∧ v.isEmpty g
  · rw [if_pos c] at hr
    injection hr with _ hr
    rw [← hr]; exact e
  · rw [if_neg c] at hr
    cases hfx : g.isFixed with
    | true =>
      rw [hfx, if_pos rfl] at hr
      have hneeds : needs g v g.looseUnits := by unfold needs; rw [hfx, if_pos rfl]
      have key := allocLoose_wf h hb hg hf hneeds
      cases he : allocLooseWith F.loose s tag g.looseUnits with
      | ub => rw [he] at hr; cases hr
      | exc e s' => rw [he] at hr; cases hr
      | ok a s1 =>
        rw [he] at key hr
        rcases fixed_value hf hfx with ⟨x, rfl⟩ | ⟨cs, rfl⟩
        · injection hr with _ hr
          rw [← hr]
          obtain ⟨_, _, hu, _⟩ := fits_inline hf
          obtain ⟨key, c1⟩ := key
          rw [hu] at key
          obtain ⟨_, k2, k3, k4⟩ := alloc_inline (inlineStore g x) h key c1 hg (Or.inl ⟨hfx, hu⟩)
          refine e.others h k2 fun g' hg' hfx' _ => ?_
          have : g' = g := hg'.unique (Or.inl ⟨k3, by rw [cellGenus_tag _ tag (by rw [k4]), hg]⟩)
          rw [this, hfx] at hfx'; cases hfx'
        · injection hr with _ hr
          rw [← hr]
          obtain ⟨_, k2, k3, k4⟩ := alloc_write h key.1 key.2 hg hf hneeds (fits_units hf).2.2.2.1
          refine e.others h k2 fun g' hg' hfx' _ => ?_
          have : g' = g := hg'.unique (Or.inl ⟨k3, by rw [k4, cellGenus_tag _ tag key.1.word, hg]⟩)
          rw [this, hfx] at hfx'; cases hfx'
    | false =>
      rw [hfx, if_neg (by decide)] at hr
      cases hest : v.estimate with
      | error e => rw [hest] at hr; cases hr
      | ok n =>
        rw [hest] at hr
        simp only at hr
        have hneeds : needs g v n := by unfold needs; rw [hfx, if_neg (by decide)]; exact hest
        have key := allocLoose_wf h hb hg hf hneeds
        cases he : allocLooseWith F.loose s tag n with
        | ub => rw [he] at hr; cases hr
        | exc e s' => rw [he] at hr; cases hr
        | ok a s1 =>
          rw [he] at key hr
          injection hr with _ hr
          rw [← hr]
          by_cases c0 : n ≠ 0
          · rw [if_pos c0]
            exact (e.loose h key.1 key.2 hg hf hfx hneeds (by omega)).1
          · rw [if_neg c0]
            have c0 : n = 0 := by omega
            subst c0
            have hz := key.1.zero rfl
            obtain ⟨_, k2, _, k4⟩ := alloc_inline 0 h key.1 key.2 hg (Or.inr ⟨hfx, rfl⟩)
            have hs : s1.setLo a 0 = s1 := by
              unfold RW.setLo RW.setCell
              have : s1.mem.set a ⟨0, (s1.mem a).hi⟩ = s1.mem := by
                funext x
                rw [Memory.set_apply]
                split_ifs with hx
                · rw [hx, ← hz]
                · rfl
              rw [this]
            rw [hs] at k2 k4
            refine e.others h k2 fun g' _ _ hlo => absurd hz hlo

theorem PreplacedPost.exact {σ : Sch} {s t : RW} {tag n : Nat} (h : WF σ s) (e : Exact σ s) (p : PreplacedPost σ s t tag n) : Exact σ t := by
  intro b g hb hfx h0
  have ho : s.owner b := by
    rcases hb with hb | hb
    · exact Or.inl ((p.live b).1 hb.1)
    · exact Or.inr ⟨by rw [← p.pivot]; exact hb.1, by show b < s.pivot + s.pre; rw [← p.pivot, ← p.pre]; exact hb.2.1⟩
  have key : ∃ g', FieldAt σ s b g' := by
    rcases hb with hb | hb
    · exact ⟨_, Or.inl ⟨(p.live b).1 hb.1, rfl⟩⟩
    · rw [p.pivot] at hb
      exact ⟨g, Or.inr ⟨hb.1, by show b < s.pivot + s.pre; rw [← p.pivot, ← p.pre]; exact hb.2.1, hb.2.2⟩⟩
  obtain ⟨g', hg'⟩ := key
  obtain ⟨k1, k2⟩ := p.kept b g' hg'
  have := k1.unique hb
  subst this
  rw [k2.cell] at h0
  obtain ⟨v, hv⟩ := e b g' hg' hfx h0
  exact ⟨v, hv.kept h ho p.pivot k2⟩

theorem ErasePost.exact {σ : Sch} {s t : RW} {w n : Nat} (h : WF σ s) (e : Exact σ s) (hw : w / 2048 ≠ 31) (p : ErasePost σ s t w n) : Exact σ t := by
  intro b g hb hfx h0
  have o := p.others
  have hnw : ¬ RW.has s w b := by
    rintro ⟨h1, h2⟩
    rcases hb with hb | hb
    · exact ((o.live b).1 hb.1).2 h2
    · have := h1.2.1; have := o.pivot; omega
  have ho : s.owner b := by
    rcases hb with hb | hb
    · exact Or.inl ((o.live b).1 hb.1).1
    · exact Or.inr ⟨by rw [← o.pivot]; exact hb.1, by show b < s.pivot + s.pre; rw [← o.pivot, ← o.pre]; exact hb.2.1⟩
  have k := o.kept b hnw ho
  have hb' : FieldAt σ s b g := hb.transfer o.pivot.symm o.pre.symm ho (by rw [k.cell])
  rw [k.cell] at h0
  obtain ⟨v, hv⟩ := e b g hb' hfx h0
  exact ⟨v, hv.kept h ho o.pivot k⟩

theorem step_exact {σ : Sch} {F : Fix} {s t : RW} {u : Unit} (h : WF σ s) (e : Exact σ s) (op : Op) (hop : OpOk σ s.pre op)
    (hb : StepBenign F s op) (hr : step F s op = .ok u t) : Exact σ t := by
  cases op with
  | set tag g v =>
    obtain ⟨⟨ht1, ht3⟩, hf⟩ := hop
    have ht2 := preplaced_not_loose tag
    obtain ⟨hb1, -⟩ := hb
    have hr : setField F s tag g v = .ok u t := hr
    unfold setField at hr
    by_cases hg : tag2genus tag = g
    · cases hpr : isPreplaced tag with
      | true =>
        have hnl : isLoose tag = false := by rw [hpr] at ht2; simpa using ht2.symm
        rw [hpr, if_pos rfl] at hr
        have hslot := ht3 hpr
        rw [hg] at hslot
        cases hfx : g.isFixed with
        | true =>
          rw [hfx, if_pos rfl] at hslot hr
          obtain ⟨s', e', post, _⟩ := setPreplacedFixed_spec h hg hf hfx hslot
          rw [e'] at hr
          injection hr with _ hr
          rw [← hr]
          exact PreplacedPost.exact h e post
        | false =>
          rw [hfx, if_neg (by decide)] at hslot hr
          obtain ⟨r, hr⟩ := bind_unit hr
          have hbase : s.base = s.pivot + s.pre := rfl
          have hs1 := hslot.1
          have hfa : FieldAt σ s (s.pivot + tag2offset tag / 4) g :=
            Or.inr ⟨by omega, by omega, by rw [Nat.add_sub_cancel_left]; exact hslot.2⟩
          exact setStretchyAt_exact h e hb1 hg hf hfx hfa (by rw [hnl]; simp) hr
      | false =>
        have hll : isLoose tag = true := by rw [hpr] at ht2; simpa using ht2.symm
        rw [hpr, if_neg (by decide)] at hr
        by_cases hc : isLooseCollection tag = true
        · rw [if_pos hc] at hr; cases hr
        · rw [if_neg hc, gid_eq] at hr
          cases hfx : g.isFixed with
          | true =>
            rw [hfx, if_pos rfl] at hr
            obtain ⟨r, hr⟩ := bind_unit hr
            exact setLooseFixed_exact h e hb1 hg hf hfx hr
          | false =>
            rw [hfx, if_neg (by decide)] at hr
            obtain ⟨r, hr⟩ := bind_unit hr
            exact setLooseStretchy_exact h e hb1 hg hf hfx hll hr
    · have m1 : assignPreplacedFixed s tag g v = .exc .typeMismatch s := by unfold assignPreplacedFixed; rw [if_pos hg]
      have m2 : ∀ f, assignStretchy F s tag f g v = .exc .typeMismatch s := by intro f; unfold assignStretchy; rw [if_pos hg]
      have m3 : ∀ f, assignLooseFixed F s tag f g v = .exc .typeMismatch s := by intro f; unfold assignLooseFixed; rw [if_pos hg]
      rw [m1, m2, m2, m3] at hr
      split_ifs at hr <;> cases hr
  | insert tag g v =>
    obtain ⟨_, hf⟩ := hop
    have hr : (insertField F s tag g v).bind _ = .ok u t := hr
    obtain ⟨r, hr⟩ := bind_unit hr
    by_cases hg : tag2genus tag = g
    · exact insert_exact h e hb hg hf hr
    · unfold insertField at hr
      rw [if_pos hg] at hr; cases hr
  | erase tag =>
    obtain ⟨ht1, ht3⟩ := hop
    have hr : (if isPreplaced tag then _ else _ : Out Unit) = .ok u t := hr
    cases hpr : isPreplaced tag with
    | true =>
      rw [hpr, if_pos rfl] at hr
      obtain ⟨r, hr⟩ := bind_unit hr
      unfold erasePreplaced at hr
      by_cases hex : preplacedExist s tag = true
      · rw [if_pos hex] at hr
        obtain ⟨_, s1, h1, h2⟩ := Out.bind_ok hr
        injection h2 with _ h2
        rw [← h2]
        have hslot := ht3 hpr
        cases hfx : (tag2genus tag).isFixed with
        | true =>
          rw [hfx, if_pos rfl] at hslot
          obtain ⟨s', e', post, _⟩ := erasePreplacedFixed_spec (F := F) h rfl hfx hslot
          rw [e'] at h1
          injection h1 with _ h1
          rw [← h1]
          exact PreplacedPost.exact h e post
        | false =>
          rw [hfx, if_neg (by decide)] at hslot
          have key := erasePreplacedStretchy_spec (F := F) h rfl hslot
          rw [h1] at key
          exact e.others h key.2.1 fun g' _ _ hlo => absurd key.2.2 hlo
      · rw [if_neg hex] at hr
        injection hr with _ hr
        rw [← hr]; exact e
    | false =>
      rw [hpr, if_neg (by decide)] at hr
      obtain ⟨r, hr⟩ := bind_unit hr
      by_cases hc : isLooseCollection tag = true
      · have key := eraseCollection_spec h ht1 hc
        rw [hr] at key
        exact ErasePost.exact h e (tag_not_hole ht1) key
      · have key := eraseSingle_spec h ht1 (by simpa using hc)
        rw [hr] at key
        obtain ⟨_, k | ⟨_, a, k1, k2, k3⟩⟩ := (key : WF σ t ∧ _)
        · rw [k.2.1]; exact e
        · exact e.gone h k2 k3 (Or.inl ((lookup_some (tag_not_hole ht1)).1 k1).1.1.2.1)

theorem create_exact {σ : Sch} {mem : Memory} {items pre lim : Nat} {image : List Cell} (hl : image.length = pre)
    (hz : ∀ k g, σ k = some g → k < pre → (image.getD k .zero).lo = 0) : Exact σ (create mem items pre lim image) := by
  intro a g hf _ h0
  rcases hf with ⟨hf, _⟩ | ⟨h1, h2, h3⟩
  · have k1 : items ≤ a := hf.1
    have k2 : a < items := hf.2.1
    omega
  · have k1 : items ≤ a := h1
    have k2 : a < items + pre := h2
    have k3 : σ (a - items) = some g := h3
    refine absurd ?_ h0
    show (mem.writeCells items image a).lo = 0
    rw [Memory.writeCells_apply, if_pos (by omega)]
    exact hz _ _ k3 (by omega)

theorem Same.holds {g : Genus} {m m' : Memory} {a a' n : Nat} {v : Val} (h : Same g m m' a a') (h0 : (m a).lo ≠ 0) (hn : n = fieldUnits m g a)
    (hh : Holds g m (a + (m a).lo) n v) : Holds g m' (a' + (m' a').lo) (fieldUnits m' g a') v := by
  rw [h.units, ← hn]
  exact hh.move fun i hi => h.payload (Or.inr h0) i (by omega)

theorem Permuted.exact {σ : Sch} {s t : RW} {f : Nat → Nat} (e : Exact σ s) (p : Permuted σ s t f) : Exact σ t := by
  intro b g hb hfx h0
  rw [hb.len]
  rcases hb with ⟨h1, h2⟩ | ⟨h1, h2, h3⟩
  · obtain ⟨k1, k2, k3⟩ := p.live b h1
    have hg : cellGenus (s.mem (f b)) = g := by rw [← h2]; unfold cellGenus; rw [k2]
    rw [hg] at k3
    have hlo : (s.mem (f b)).lo ≠ 0 := fun hh => h0 (k3.null.2 hh)
    have hfa : FieldAt σ s (f b) g := Or.inl ⟨k1, hg⟩
    obtain ⟨v, hv⟩ := e _ g hfa hfx hlo
    exact ⟨v, k3.holds hlo hfa.len hv⟩
  · have hbase : t.base = t.pivot + t.pre := rfl
    have hbase' : s.base = s.pivot + s.pre := rfl
    have hp := p.pre
    obtain ⟨_, k3⟩ := p.stretchy _ g h3 (by omega)
    rw [show t.pivot + (b - t.pivot) = b by omega] at k3
    have hlo : (s.mem (s.pivot + (b - t.pivot))).lo ≠ 0 := fun hh => h0 (k3.null.2 hh)
    have hfa : FieldAt σ s (s.pivot + (b - t.pivot)) g := Or.inr ⟨by omega, by omega, by rw [Nat.add_sub_cancel_left]; exact h3⟩
    obtain ⟨v, hv⟩ := e _ g hfa hfx hlo
    exact ⟨v, k3.holds hlo hfa.len hv⟩

end Fptu.Rw
