import Verif.Lemmas.GearPure
import Verif.Lemmas.TupleHist
/-!
# Empty holes have no payload: histories
-/
namespace Fptu.Rw
open Fptu.Gear

/-- Every empty hole of the index has offset 0. -/
def Pure (s : RW) : Prop := PN (fun _ => False) s

theorem Pure.owner {s : RW} {a : Nat} (h : PN (fun b => b = a) s) (ho : s.owner a) : Pure s := by
  intro b h1 h2 _
  by_cases c : b = a
  · subst c
    rcases ho with ho | ho
    · exact PC.field ho.2.2
    · omega
  · exact h b h1 h2 c

theorem Pure.weak {s : RW} (h : Pure s) (a : Nat) : PN (fun b => b = a) s := PN.mono h fun _ => False.elim

theorem Pure.mem {s : RW} {m : Memory} (h : Pure s) (hm : ∀ b, b < s.pivot → m b = s.mem b) : Pure (RW.withMem s m) := by
  intro b h1 h2 h3
  show PC (m b)
  rw [hm b h2]
  exact h b h1 h2 h3

theorem base_ge (s : RW) : s.pivot ≤ s.base := Nat.le_add_right _ _

theorem Pure.setLo {s : RW} {a x : Nat} (h : Pure s) (ho : s.owner a) : Pure (s.setLo a x) := by
  refine Pure.owner (a := a) ?_ ?_
  · exact (PN.cell (h.weak a) a _).mono (by rintro b (k | k) <;> exact k)
  · rcases ho with ho | ho
    · refine Or.inl ⟨ho.1, ho.2.1, ?_⟩
      show ¬ Cell.isHole ((s.setLo a x).mem a)
      rw [mem_setLo_same]; exact ho.2.2
    · exact Or.inr ho

/-- The value written after `alloc_loose`. -/
theorem Pure.loose {σ : Sch} {s s1 : RW} {a tag n : Nat} {g : Genus} {v : Val} (h : Pure s1)
    (post : LoosePost s s1 (lenOf σ s) (fun _ => 0) tag n a) (hf : v.fits g) (hn : needs g v n) (h0 : 0 < n) :
    Pure (RW.withMem s1 (v.write s1.mem (s1.start a))) := by
  obtain ⟨w1, -, -⟩ := write_spec hf hn h0 s1.mem (s1.start a)
  have ol : s1.owner a := Or.inl post.live
  have hin := post.inv.inside (ol.head_le post.inv.hp) ol.lt_base (by rw [ol.clen, upd_same]; exact h0)
  exact h.mem fun b hb => w1 b (Or.inl (by have := base_ge s1; omega))

theorem Pure.realloc {σ : Sch} {s s1 : RW} {a n p : Nat} {g : Genus} {v : Val} (h : PN (fun b => b = a) s1)
    (post : ReallocPost s s1 (lenOf σ s) (fun _ => 0) a n p) (hf : v.fits g) (hn : needs g v n) (h0 : 0 < n) :
    Pure (RW.withMem s1 (v.write s1.mem p)) := by
  obtain ⟨w1, -, -⟩ := write_spec hf hn h0 s1.mem p
  have ol := post.owner
  have hin := post.inv.inside (ol.head_le post.inv.hp) ol.lt_base (by rw [ol.clen, upd_same]; exact h0)
  rw [post.start] at hin
  exact (Pure.owner h ol).mem fun b hb => w1 b (Or.inl (by have := base_ge s1; omega))

theorem allocLoose_Pure {F : Fix} {s s1 : RW} {g : Genus} {v : Val} {tag n a : Nat} (hp : Pure s)
    (hg : tag2genus tag = g) (hf : v.fits g) (hr : allocLooseWith F.loose s tag n = .ok a s1) : Pure s1 :=
  allocLoose_pure (tag_not_hole (by rw [hg]; exact fits_not_hole hf)) hp hr

theorem fixed_value {g : Genus} {v : Val} (hf : v.fits g) (hfx : g.isFixed = true) : (∃ x, v = .inline x) ∨ ∃ cs, v = .units cs := by
  cases v with
  | inline x => exact Or.inl ⟨x, rfl⟩
  | units cs => exact Or.inr ⟨cs, rfl⟩
  | text v =>
    simp only [Val.fits, Bool.and_eq_true, decide_eq_true_eq] at hf
    rw [hf.1] at hfx; cases hfx
  | varbin v =>
    simp only [Val.fits, Bool.and_eq_true, decide_eq_true_eq] at hf
    rw [hf.1] at hfx; cases hfx
  | property v id =>
    simp only [Val.fits, Bool.and_eq_true, decide_eq_true_eq] at hf
    rw [hf.1.1] at hfx; cases hfx
  | nested v =>
    cases v <;> simp only [Val.fits, Bool.and_eq_true, decide_eq_true_eq] at hf
    · rw [hf] at hfx; cases hfx
    · rw [hf.1.1] at hfx; cases hfx

theorem setLooseFixed_pure {σ : Sch} {F : Fix} {s t : RW} {g : Genus} {v : Val} {tag : Nat} {r : Option Nat} (h : WF σ s) (hp : Pure s)
    (hb : Benign F s g v) (hg : tag2genus tag = g) (hf : v.fits g) (hfx : g.isFixed = true)
    (hr : assignLooseFixed F s tag (s.lookup (tag % 65536)) g v = .ok r t) : Pure t := by
  have hw : tag % 65536 / 2048 ≠ 31 := tag_not_hole (by rw [hg]; exact fits_not_hole hf)
  have hneeds : needs g v g.looseUnits := by unfold needs; rw [hfx, if_pos rfl]
  unfold assignLooseFixed at hr
  rw [if_neg (by rw [hg]; exact fun h => h rfl)] at hr
  cases hlk : s.lookup (tag % 65536) with
  | none =>
    rw [hlk] at hr
    by_cases c : ¬ isDiscernible tag ∧ v.isEmpty g
    · rw [if_pos c] at hr
      injection hr with _ hr; subst hr; exact hp
    · rw [if_neg c] at hr
      have key := allocLoose_wf h hb hg hf hneeds
      cases ha : allocLooseWith F.loose s tag g.looseUnits with
      | ub => rw [ha] at hr; cases hr
      | exc e s' => rw [ha] at hr; cases hr
      | ok a s1 =>
        rw [ha] at key hr
        have hp1 := allocLoose_Pure hp hg hf ha
        rcases fixed_value hf hfx with ⟨x, rfl⟩ | ⟨cs, rfl⟩
        · injection hr with _ hr
          rw [← hr]
          exact hp1.setLo (Or.inl key.1.live)
        · injection hr with _ hr
          rw [← hr]
          exact hp1.loose key.1 hf hneeds (fits_units hf).2.2.2.1
  | some a =>
    rw [hlk] at hr
    obtain ⟨⟨hl, hword⟩, _⟩ := (lookup_some hw).1 hlk
    have hcg := word_genus hg hword
    have hla : lenOf σ s a = g.looseUnits := by
      rw [lenOf_index hl.2.1, hcg]; unfold fieldUnits; rw [hfx, if_pos rfl]
    simp only at hr
    rw [if_neg (by rw [hcg]; rintro (h | h); exact absurd hl.2.1 (by omega); exact h rfl)] at hr
    by_cases c : ¬ isDiscernible tag ∧ v.isEmpty g
    · rw [if_pos c] at hr
      cases ha : releaseLoose s a g.looseUnits with
      | ub => rw [ha] at hr; cases hr
      | exc e s' => rw [ha] at hr; cases hr
      | ok u t' =>
        rw [ha] at hr
        injection hr with _ hr
        rw [← hr]
        exact releaseLoose_pure hp ha
    · rw [if_neg c] at hr
      rcases fixed_value hf hfx with ⟨x, rfl⟩ | ⟨cs, rfl⟩
      · injection hr with _ hr
        rw [← hr]
        exact hp.setLo (Or.inl hl)
      · injection hr with _ hr
        rw [← hr]
        exact Pure.realloc (hp.weak a) (same_space h (Or.inl hl) hla) hf hneeds (fits_units hf).2.2.2.1

theorem releaseDataF_ok {F : Fix} {s t : RW} {p n : Nat} {u : Unit} (h : releaseDataF F s p n = .ok u t) : releaseData s p n = .ok u t := by
  unfold releaseDataF at h
  cases hr : releaseData s p n with
  | ok u' t' => rw [hr] at h; exact h
  | exc => rw [hr] at h; cases h
  | ub => rw [hr] at h; cases h

theorem setStretchyAt_pure {σ : Sch} {F : Fix} {s t : RW} {g : Genus} {v : Val} {tag a : Nat} {r : Option Nat} (h : WF σ s) (hp : Pure s)
    (hg : tag2genus tag = g) (hf : v.fits g) (hfx : g.isFixed = false) (ha : FieldAt σ s a g)
    (hlp : if isLoose tag then s.live a else s.pivot ≤ a)
    (hr : assignStretchy F s tag (some a) g v = .ok r t) : Pure t := by
  have ho := ha.owner
  unfold assignStretchy at hr
  rw [if_neg (by rw [hg]; exact fun h => h rfl)] at hr
  cases hn : neededUnits tag g v with
  | error e => rw [hn] at hr; cases hr
  | ok n =>
    rw [hn] at hr
    obtain ⟨hn0, hn1⟩ := needed_drop hf hfx hn
    simp only at hr
    rw [if_neg (by
      rintro ⟨k1, k2⟩
      rw [if_pos k1] at hlp
      rcases ha with ha | ha
      · rcases k2 with k2 | k2
        · have := hlp.2.1; omega
        · exact k2 ha.2
      · have := hlp.2.1; have := ha.1; omega)] at hr
    by_cases c0 : (s.mem a).lo ≠ 0
    · rw [if_pos c0] at hr
      have hlen : lenOf σ s a = brutto g s.mem (s.start a) := by
        rw [ha.len]; unfold fieldUnits
        rw [hfx, if_neg (by decide), if_neg c0]
      have hpos : 0 < lenOf σ s a := h.pos a g ⟨hfx, ha⟩ c0
      rw [← hlen] at hr
      by_cases c1 : n ≠ lenOf σ s a
      · rw [if_pos c1] at hr
        by_cases c2 : n = 0
        · rw [if_pos c2] at hr
          by_cases c3 : isLoose tag
          · rw [if_pos c3] at hr
            cases he : releaseLoose s a (lenOf σ s a) with
            | ub => rw [he] at hr; cases hr
            | exc e s' => rw [he] at hr; cases hr
            | ok u t' =>
              rw [he] at hr
              injection hr with _ hr
              rw [← hr]
              exact releaseLoose_pure hp he
          · rw [if_neg c3] at hr hlp
            cases he : releaseDataF F s (s.start a) (lenOf σ s a) with
            | ub => rw [he] at hr; cases hr
            | exc e s' => rw [he] at hr; cases hr
            | ok u t' =>
              rw [he] at hr
              injection hr with _ hr
              rw [← hr]
              have key := detach_spec F h ⟨hlp, ho.lt_base⟩ hpos
              rw [he] at key
              have k2 := key.2.1
              have hp1 : Pure t' := releaseData_pure hp (by omega) (releaseDataF_ok he)
              have hb : t'.base = s.base := k2.base
              have hv : t'.pivot = s.pivot := k2.pivot
              exact hp1.setLo (Or.inr ⟨by omega, by have := ho.lt_base; omega⟩)
        · rw [if_neg c2] at hr
          obtain ⟨hneeds, h16⟩ := hn1 c2
          have key := reallocData_spec h.inv h.canon F.swap ho hpos (needed := n) (by omega) h16 (fun hh => c1 hh.symm)
          cases he : reallocDataWith F.swap s a (lenOf σ s a) n with
          | ub => rw [he] at hr; cases hr
          | exc e s' => rw [he] at hr; cases hr
          | ok p s1 =>
            rw [he] at hr key
            injection hr with _ hr
            rw [← hr]
            exact Pure.realloc (realloc_pure (hp.weak a) (by omega) c1 he) key.1 hf hneeds (by omega)
      · rw [if_neg c1] at hr
        have c1 : n = lenOf σ s a := by omega
        injection hr with _ hr
        rw [← hr]
        exact Pure.realloc (hp.weak a) (same_space h ho c1.symm) hf (hn1 (by omega)).1 (by omega)
    · rw [if_neg c0] at hr
      have c0 : (s.mem a).lo = 0 := by omega
      by_cases c2 : n = 0
      · rw [if_pos c2] at hr
        injection hr with _ hr
        rw [← hr]; exact hp
      · rw [if_neg c2] at hr
        obtain ⟨hneeds, h16⟩ := hn1 c2
        have hlen : lenOf σ s a = 0 := by
          rw [ha.len]; unfold fieldUnits
          rw [hfx, if_neg (by decide), if_pos c0]
        have key := attach_spec (n := n) h ho hlen (by omega)
        cases he : allocData s n with
        | ub => rw [he] at hr; cases hr
        | exc e s' => rw [he] at hr; cases hr
        | ok p s1 =>
          rw [he] at key hr
          injection hr with _ hr
          rw [← hr]
          exact Pure.realloc ((allocData_pure (hp.weak a) he).payload p) key.1 hf hneeds (by omega)

theorem setLooseStretchy_pure {σ : Sch} {F : Fix} {s t : RW} {g : Genus} {v : Val} {tag : Nat} {r : Option Nat} (h : WF σ s) (hp : Pure s)
    (hb : Benign F s g v) (hg : tag2genus tag = g) (hf : v.fits g) (hfx : g.isFixed = false) (hl : isLoose tag = true)
    (hr : assignStretchy F s tag (s.lookup (tag % 65536)) g v = .ok r t) : Pure t := by
  have hw : tag % 65536 / 2048 ≠ 31 := tag_not_hole (by rw [hg]; exact fits_not_hole hf)
  cases hlk : s.lookup (tag % 65536) with
  | none =>
    rw [hlk] at hr
    unfold assignStretchy at hr
    rw [if_neg (by rw [hg]; exact fun h => h rfl)] at hr
    cases hn : neededUnits tag g v with
    | error e => rw [hn] at hr; cases hr
    | ok n =>
      rw [hn] at hr
      obtain ⟨hn0, hn1⟩ := needed_drop hf hfx hn
      simp only at hr
      by_cases c : n = 0
      · rw [if_pos c] at hr
        injection hr with _ hr
        rw [← hr]; exact hp
      · rw [if_neg c] at hr
        obtain ⟨hneeds, h16⟩ := hn1 c
        have key := allocLoose_wf h hb hg hf hneeds
        cases he : allocLooseWith F.loose s tag n with
        | ub => rw [he] at hr; cases hr
        | exc e s' => rw [he] at hr; cases hr
        | ok a s1 =>
          rw [he] at key hr
          injection hr with _ hr
          rw [← hr]
          exact (allocLoose_Pure hp hg hf he).loose key.1 hf hneeds (by omega)
  | some a =>
    rw [hlk] at hr
    obtain ⟨⟨hla, hword⟩, _⟩ := (lookup_some hw).1 hlk
    exact setStretchyAt_pure h hp hg hf hfx (Or.inl ⟨hla, word_genus hg hword⟩) (by rw [if_pos hl]; exact hla) hr

theorem insert_pure {σ : Sch} {F : Fix} {s t : RW} {g : Genus} {v : Val} {tag : Nat} {r : Option Nat} (h : WF σ s) (hp : Pure s)
    (hb : Benign F s g v) (hg : tag2genus tag = g) (hf : v.fits g) (hr : insertField F s tag g v = .ok r t) : Pure t := by
  unfold insertField at hr
  rw [if_neg (by rw [hg]; exact fun h => h rfl)] at hr
  by_cases c0 : ¬ isLooseCollection tag
  · rw [if_pos c0] at hr; cases hr
  rw [if_neg c0] at hr
  by_cases c : ¬ isDiscernible tag ∧ v.isEmpty g
  · rw [if_pos c] at hr
    injection hr with _ hr
    rw [← hr]; exact hp
  · rw [if_neg c] at hr
    cases hfx : g.isFixed with
    | true =>
      rw [hfx, if_pos rfl] at hr
      have hneeds : needs g v g.looseUnits := by unfold needs; rw [hfx, if_pos rfl]
      have key := allocLoose_wf h hb hg hf hneeds
      cases he : allocLooseWith F.loose s tag g.looseUnits with
      | ub => rw [he] at hr; cases hr
      | exc e s' => rw [he] at hr; cases hr
      | ok a s1 =>
        rw [he] at key hr
        have hp1 := allocLoose_Pure hp hg hf he
        rcases fixed_value hf hfx with ⟨x, rfl⟩ | ⟨cs, rfl⟩
        · injection hr with _ hr
          rw [← hr]
          exact hp1.setLo (Or.inl key.1.live)
        · injection hr with _ hr
          rw [← hr]
          exact hp1.loose key.1 hf hneeds (fits_units hf).2.2.2.1
    | false =>
      rw [hfx, if_neg (by decide)] at hr
      cases hest : v.estimate with
      | error e => rw [hest] at hr; cases hr
      | ok n =>
        rw [hest] at hr
        simp only at hr
        have hneeds : needs g v n := by unfold needs; rw [hfx, if_neg (by decide)]; exact hest
        have key := allocLoose_wf h hb hg hf hneeds
        cases he : allocLooseWith F.loose s tag n with
        | ub => rw [he] at hr; cases hr
        | exc e s' => rw [he] at hr; cases hr
        | ok a s1 =>
          rw [he] at key hr
          injection hr with _ hr
          rw [← hr]
          have hp1 := allocLoose_Pure hp hg hf he
          by_cases c0 : n ≠ 0
          · rw [if_pos c0]
            exact hp1.loose key.1 hf hneeds (by omega)
          · rw [if_neg c0]; exact hp1

theorem eraseRange_pure {w : Nat} : ∀ (k : Nat) {s t : RW} (field : Option Nat) (count : Nat) {n : Nat}, s.pivot - field.getD 0 = k → Pure s →
    eraseRange s w field count = .ok n t → Pure t := by
  intro k
  induction k using Nat.strong_induction_on with
  | _ k ih =>
    intro s t field count n hk hp hr
    cases field with
    | none =>
      unfold eraseRange at hr
      injection hr with _ hr
      rw [← hr]; exact hp
    | some a =>
      rw [eraseRange] at hr
      by_cases c : a < s.pivot
      · rw [dif_pos c] at hr
        cases he : eraseEntry s a with
        | ub => rw [he] at hr; cases hr
        | exc e s' => rw [he] at hr; cases hr
        | ok u s1 =>
          rw [he] at hr
          have hp1 : Pure s1 := releaseLoose_pure hp he
          simp only at hr
          by_cases c1 : s1.pivot = s.pivot
          · rw [dif_pos c1] at hr
            split at hr
            · injection hr with _ hr
              rw [← hr]; exact hp1
            · rename_i b hn
              by_cases c2 : a < b
              · rw [dif_pos c2] at hr
                obtain ⟨n1, n2, n3, n4⟩ := lookupFrom_some hn
                exact ih (s1.pivot - b) (by simp only [Option.getD_some] at hk; omega) (some b) (count + 1) rfl hp1 hr
              · rw [dif_neg c2] at hr; cases hr
          · rw [dif_neg c1] at hr; cases hr
      · rw [dif_neg c] at hr; cases hr

theorem eraseLoose_pure {s t : RW} {tag n : Nat} (hp : Pure s) (hr : eraseLoose s tag = .ok n t) : Pure t := by
  unfold eraseLoose at hr
  by_cases c : isLooseCollection tag = true
  · rw [if_pos c] at hr
    exact eraseRange_pure _ _ _ rfl hp hr
  · rw [if_neg c] at hr
    cases hl : s.lookup (tag2gid tag) with
    | none =>
      rw [hl] at hr
      injection hr with _ hr
      rw [← hr]; exact hp
    | some a =>
      rw [hl] at hr
      simp only at hr
      by_cases c1 : cellGenus (s.mem a) ≠ tag2genus tag
      · rw [if_pos c1] at hr; cases hr
      · rw [if_neg c1] at hr
        cases he : eraseEntry s a with
        | ub => rw [he] at hr; cases hr
        | exc e s' => rw [he] at hr; cases hr
        | ok u s1 =>
          rw [he] at hr
          injection hr with _ hr
          rw [← hr]; exact releaseLoose_pure hp he

theorem Pure.bytes {s : RW} (h : Pure s) (k : Nat) (bs : List Nat) : Pure (RW.withMem s (s.mem.writeBytes (4 * s.pivot + k) bs)) :=
  h.mem fun b hb => Memory.writeBytes_cell _ _ _ _ (Or.inl (by omega))

theorem erasePreplacedAt_pure {σ : Sch} {F : Fix} {s t : RW} {tag : Nat} {u : Unit} (h : WF σ s) (hp : Pure s)
    (ht : TokenOk σ s.pre tag) (hpr : isPreplaced tag = true) (hr : erasePreplacedAt F s tag = .ok u t) : Pure t := by
  unfold erasePreplacedAt at hr
  simp only at hr
  cases hfx : (tag2genus tag).isFixed with
  | true =>
    rw [hfx, if_pos rfl] at hr
    injection hr with _ hr
    rw [← hr]
    exact hp.bytes _ _
  | false =>
    rw [hfx, if_neg (by decide)] at hr
    have hs := ht.2 hpr
    rw [hfx, if_neg (by decide)] at hs
    generalize hA : s.pivot + tag2offset tag / 4 = a at hr
    by_cases c : (s.mem a).lo ≠ 0
    · rw [if_pos c] at hr
      have hs1 := hs.1
      have hbase : s.base = s.pivot + s.pre := rfl
      have hfa : FieldAt σ s a (tag2genus tag) :=
        Or.inr ⟨by omega, by omega, by rw [show a - s.pivot = tag2offset tag / 4 by omega]; exact hs.2⟩
      have hlen : lenOf σ s a = brutto (tag2genus tag) s.mem (s.start a) := by
        rw [hfa.len]; unfold fieldUnits
        rw [hfx, if_neg (by decide), if_neg c]
      rw [← hlen] at hr
      have hpos := h.pos a _ ⟨hfx, hfa⟩ c
      cases he : releaseDataF F s (s.start a) (lenOf σ s a) with
      | ub => rw [he] at hr; cases hr
      | exc e s' => rw [he] at hr; cases hr
      | ok u t' =>
        rw [he] at hr
        injection hr with _ hr
        rw [← hr]
        have key := detach_spec F h ⟨by omega, by omega⟩ hpos
        rw [he] at key
        have k2 := key.2.1
        have hp1 : Pure t' := releaseData_pure hp (by omega) (releaseDataF_ok he)
        have hb : t'.base = s.base := k2.base
        have hv : t'.pivot = s.pivot := k2.pivot
        exact hp1.setLo (Or.inr ⟨by omega, by omega⟩)
    · rw [if_neg c] at hr
      injection hr with _ hr
      rw [← hr]; exact hp

theorem bind_unit {α : Type} {o : Out α} {u : Unit} {t : RW} (h : (o.bind fun _ s => .ok () s) = .ok u t) : ∃ r, o = .ok r t := by
  cases o with
  | ok a s => injection h with _ h; exact ⟨a, by rw [h]⟩
  | exc => cases h
  | ub => cases h

theorem step_pure {σ : Sch} {F : Fix} {s t : RW} {u : Unit} (h : WF σ s) (hp : Pure s) (op : Op) (hop : OpOk σ s.pre op)
    (hb : StepBenign F s op) (hr : step F s op = .ok u t) : Pure t := by
  cases op with
  | set tag g v =>
    obtain ⟨⟨ht1, ht3⟩, hf⟩ := hop
    have ht2 := preplaced_not_loose tag
    obtain ⟨hb1, -⟩ := hb
    have hr : setField F s tag g v = .ok u t := hr
    unfold setField at hr
    by_cases hg : tag2genus tag = g
    · cases hpr : isPreplaced tag with
      | true =>
        have hnl : isLoose tag = false := by rw [hpr] at ht2; simpa using ht2.symm
        rw [hpr, if_pos rfl] at hr
        have hslot := ht3 hpr
        rw [hg] at hslot
        cases hfx : g.isFixed with
        | true =>
          rw [hfx, if_pos rfl] at hr
          unfold assignPreplacedFixed at hr
          rw [if_neg (by rw [hg]; exact fun h => h rfl)] at hr
          injection hr with _ hr
          rw [← hr]
          exact hp.bytes _ _
        | false =>
          rw [hfx, if_neg (by decide)] at hslot hr
          obtain ⟨r, hr⟩ := bind_unit hr
          have hbase : s.base = s.pivot + s.pre := rfl
          have hs1 := hslot.1
          have hfa : FieldAt σ s (s.pivot + tag2offset tag / 4) g :=
            Or.inr ⟨by omega, by omega, by rw [Nat.add_sub_cancel_left]; exact hslot.2⟩
          exact setStretchyAt_pure h hp hg hf hfx hfa (by rw [hnl]; simp) hr
      | false =>
        have hll : isLoose tag = true := by rw [hpr] at ht2; simpa using ht2.symm
        rw [hpr, if_neg (by decide)] at hr
        by_cases hc : isLooseCollection tag = true
        · rw [if_pos hc] at hr; cases hr
        · rw [if_neg hc, gid_eq] at hr
          cases hfx : g.isFixed with
          | true =>
            rw [hfx, if_pos rfl] at hr
            obtain ⟨r, hr⟩ := bind_unit hr
            exact setLooseFixed_pure h hp hb1 hg hf hfx hr
          | false =>
            rw [hfx, if_neg (by decide)] at hr
            obtain ⟨r, hr⟩ := bind_unit hr
            exact setLooseStretchy_pure h hp hb1 hg hf hfx hll hr
    · have m1 : assignPreplacedFixed s tag g v = .exc .typeMismatch s := by unfold assignPreplacedFixed; rw [if_pos hg]
      have m2 : ∀ f, assignStretchy F s tag f g v = .exc .typeMismatch s := by intro f; unfold assignStretchy; rw [if_pos hg]
      have m3 : ∀ f, assignLooseFixed F s tag f g v = .exc .typeMismatch s := by intro f; unfold assignLooseFixed; rw [if_pos hg]
      rw [m1, m2, m2, m3] at hr
      split_ifs at hr <;> cases hr
  | insert tag g v =>
    obtain ⟨_, hf⟩ := hop
    have hr : (insertField F s tag g v).bind _ = .ok u t := hr
    obtain ⟨r, hr⟩ := bind_unit hr
    by_cases hg : tag2genus tag = g
    · exact insert_pure h hp hb hg hf hr
    · unfold insertField at hr
      rw [if_pos hg] at hr; cases hr
  | erase tag =>
    have hr : (if isPreplaced tag then _ else _ : Out Unit) = .ok u t := hr
    cases hpr : isPreplaced tag with
    | true =>
      rw [hpr, if_pos rfl] at hr
      obtain ⟨r, hr⟩ := bind_unit hr
      unfold erasePreplaced at hr
      by_cases hex : preplacedExist s tag = true
      · rw [if_pos hex] at hr
        obtain ⟨_, s1, h1, h2⟩ := Out.bind_ok hr
        injection h2 with _ h2
        rw [← h2]
        exact erasePreplacedAt_pure h hp hop hpr h1
      · rw [if_neg hex] at hr
        injection hr with _ hr
        rw [← hr]; exact hp
    | false =>
      rw [hpr, if_neg (by decide)] at hr
      obtain ⟨r, hr⟩ := bind_unit hr
      exact eraseLoose_pure hp hr

theorem run_pure {σ : Sch} {F : Fix} (ops : List Op) {s t : RW} (h : WF σ s) (hp : Pure s) (hops : ∀ op ∈ ops, OpOk σ s.pre op)
    (hb : RunBenign F s ops) (hr : run F s ops = some t) : Pure t := by
  induction ops generalizing s with
  | nil =>
    injection hr with hr
    rw [← hr]; exact hp
  | cons op ops ih =>
    obtain ⟨hb1, hb2⟩ := hb
    have key := step_spec h op (hops op (by simp)) hb1
    rw [run] at hr
    have hrest : ∀ o ∈ ops, OpOk σ s.pre o := fun o ho => hops o (by simp [ho])
    cases he : step F s op with
    | ub => rw [he] at hr; cases hr
    | exc e s1 =>
      rw [he] at key hb2 hr
      have key : s1 = s := key
      subst key
      exact ih h hp hrest hb2 hr
    | ok u s1 =>
      rw [he] at key hb2 hr
      have key : Keep σ s s1 := key
      exact ih key.wf (step_pure h hp op (hops op (by simp)) hb1 he) (by rw [key.pre]; exact hrest) hb2 hr

theorem create_pure (mem : Memory) (items pre lim : Nat) (image : List Cell) : Pure (create mem items pre lim image) := by
  intro a h1 h2
  have h1 : items ≤ a := h1
  have h2 : a < items := h2
  omega

end Fptu.Rw
