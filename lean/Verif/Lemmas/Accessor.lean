import Verif.Lemmas.TupleHist
import Verif.Lemmas.GearPure
import Verif.Model.Accessor
/-!
# Accessors: what an assignment through a pointer does
-/
namespace Fptu.Rw
open Fptu.Gear

/-- What an assignment through a pointer at the field `a` achieves; `r` is the new pointer. -/
structure AtPost (σ : Sch) (s s' : RW) (a w : Nat) (g : Genus) (v : Val) (drop : Prop) (r : Option Nat) : Prop where
  wf : WF σ s'
  others : Others σ s s' a
  gone : drop → (¬ s'.live a ∧ r = none) ∨ (s' = s ∧ r = some a ∧ g.isFixed = false ∧ (s.mem a).lo = 0)
  stored : ¬ drop → r = some a ∧ s'.live a ∧ (s'.mem a).hi = w ∧ valueAt g s'.mem a = some v

/-- The pointer returned by `assign_field_value` of a present stretchy field. -/
theorem stretchy_ret {F : Fix} {s t : RW} {tag a : Nat} {g : Genus} {v : Val} {r : Option Nat}
    (hr : assignStretchy F s tag (some a) g v = .ok r t) (hf : v.fits g = true) (hfx : g.isFixed = false) (hl : isLoose tag = true) :
    (r = none ∧ dropped tag g v ∧ (s.mem a).lo ≠ 0) ∨ (r = some a ∧ (dropped tag g v → (s.mem a).lo = 0 ∧ t = s ∨ (s.mem a).lo ≠ 0 ∧ brutto g s.mem (s.start a) = 0)) := by
  unfold assignStretchy at hr
  split_ifs at hr with hg
  cases hn : neededUnits tag g v with
  | error e => rw [hn] at hr; cases hr
  | ok n =>
    obtain ⟨hn0, _⟩ := needed_drop hf hfx hn
    rw [hn] at hr
    simp only at hr
    split_ifs at hr with c1 c2 c3 c4
    · obtain ⟨_, s1, _, h2⟩ := Out.bind_ok hr
      injection h2 with h2 _
      exact Or.inl ⟨h2.symm, hn0.1 c4, c2⟩
    · obtain ⟨_, s1, _, h2⟩ := Out.bind_ok hr
      injection h2 with h2 _
      exact Or.inr ⟨h2.symm, fun hd => absurd (hn0.2 hd) c4⟩
    · injection hr with h2 _
      refine Or.inr ⟨h2.symm, fun hd => Or.inr ⟨c2, ?_⟩⟩
      have := hn0.2 hd
      omega
    · injection hr with h2 h3
      exact Or.inr ⟨h2.symm, fun _ => Or.inl ⟨by omega, h3.symm⟩⟩
    · obtain ⟨_, s1, _, h2⟩ := Out.bind_ok hr
      injection h2 with h2 _
      exact Or.inr ⟨h2.symm, fun hd => absurd (hn0.2 hd) (by assumption)⟩

/-- Assignment through a pointer at a present loose field. -/
theorem assignAt_spec {σ : Sch} {F : Fix} {s : RW} {g : Genus} {v : Val} {tag a : Nat} (h : WF σ s) (hb : g.isFixed = true ∨ Benign F s g v)
    (hg : tag2genus tag = g) (hf : v.fits g = true) (hlo : isLoose tag = true) (ha : RW.has s (tag % 65536) a) :
    (assignLoose F s tag (some a) g v).Sat (2047 < s.jv + lenOf σ s a)
      (fun e s' => s' = s ∧ Failure s g v true e)
      (fun r s' => AtPost σ s s' a (tag % 65536) g v (dropped tag g v) r) := by
  obtain ⟨hl, hword⟩ := ha
  have hlt' := hl.2.1
  have hcg := word_genus hg hword
  have hfa : FieldAt σ s a g := Or.inl ⟨hl, hcg⟩
  unfold assignLoose
  cases hfx : g.isFixed with
  | false =>
    rw [if_neg (by decide)]
    have key := setStretchyAt_spec h (hb.resolve_left (by rw [hfx]; decide)) hg hf hfx hfa (by rw [if_pos hlo]; exact hl)
    cases hr : assignStretchy F s tag (some a) g v with
    | ub => rw [hr] at key; exact key
    | exc e s' =>
      rw [hr] at key
      rcases key with k | k
      · exact ⟨k.1, k.2.1⟩
      · exact absurd hlo k.1
    | ok r t =>
      rw [hr] at key
      obtain ⟨k1, k2, k3, k4⟩ := key
      have hret := stretchy_ret hr hf hfx hlo
      refine ⟨k1, k2, fun hd => ?_, fun hd => ?_⟩
      · rcases hret with ⟨e1, _, e3⟩ | ⟨e1, e2⟩
        · rcases k3 hd with (k | k) | k
          · exact Or.inl ⟨fun hh => k (Or.inl hh), e1⟩
          · have := k.2.1; omega
          · exact absurd k.2 e3
        · rcases e2 hd with ⟨e3, e4⟩ | ⟨e3, e4⟩
          · exact Or.inr ⟨e4, e1, hfx, e3⟩
          · have hpos := h.pos a g ⟨hfx, hfa⟩ e3
            rw [hfa.len] at hpos
            unfold fieldUnits at hpos
            rw [hfx, if_neg (by decide), if_neg e3] at hpos
            have e4 : brutto g s.mem (a + (s.mem a).lo) = 0 := e4
            omega
      · obtain ⟨h1, h2, h3⟩ := k4 hd
        refine ⟨?_, ?_, by rw [h2, hword], h3⟩
        · rcases hret with ⟨_, e2, _⟩ | ⟨e1, _⟩
          · exact absurd e2 hd
          · exact e1
        · rcases h1 with h1 | h1
          · exact h1.1
          · have := h1.1; have := k2.pivot; omega
  | true =>
    rw [if_pos rfl]
    have hnn : v ≠ .nested none := by
      rintro rfl
      simp only [Val.fits, decide_eq_true_eq] at hf
      subst hf; cases hfx
    have hdrop : dropped tag g v ↔ (¬ isDiscernible tag ∧ v.isEmpty g) := by
      unfold dropped
      exact ⟨fun h => h.resolve_right hnn, Or.inl⟩
    have hneeds : needs g v g.looseUnits := by unfold needs; rw [hfx, if_pos rfl]
    unfold assignLooseFixed
    rw [if_neg (by rw [hg]; exact fun h => h rfl)]
    have hla : lenOf σ s a = g.looseUnits := by
      rw [lenOf_index hl.2.1, hcg]; unfold fieldUnits; rw [hfx, if_pos rfl]
    show (Out.bind (if a ≥ s.pivot ∨ cellGenus (s.mem a) ≠ g then _ else _) _).Sat _ _ _
    rw [if_neg (by rw [hcg]; rintro (h | h); exact absurd hl.2.1 (by omega); exact h rfl)]
    by_cases c : ¬ isDiscernible tag ∧ v.isEmpty g
    · rw [if_pos c]
      have key := release_spec h hl
      rw [hla] at key
      cases hr : releaseLoose s a g.looseUnits with
      | ub => rw [hr] at key; show 2047 < s.jv + lenOf σ s a; rw [hla]; exact key
      | exc e s' => rw [hr] at key; exact key.elim
      | ok u t =>
        rw [hr] at key
        obtain ⟨k1, k2, k3, _⟩ := key
        exact ⟨k1, k2, fun _ => Or.inl ⟨k3, rfl⟩, fun hd => absurd (hdrop.2 c) hd⟩
    · rw [if_neg c]
      have hnd : ¬ dropped tag g v := fun hd => c (hdrop.1 hd)
      have pay : 0 < g.looseUnits → AtPost σ s (RW.withMem s (v.write s.mem (s.start a))) a (tag % 65536) g v (dropped tag g v) (some a) := by
        intro h0
        obtain ⟨k1, k2, k3, k4, k5, k6⟩ := owner_write h (same_space h (Or.inl hl) hla) h.canon hfa hf hneeds h0
        have hge := h.payload_ge (Or.inl hl) (by omega)
        have hlt := RW.owner.lt_base (Or.inl hl : s.owner a)
        have k4' : (v.write s.mem (s.start a)) a = s.mem a := k4
        have hlive : (RW.withMem s (v.write s.mem (s.start a))).live a := by
          rcases k3 with k3 | k3
          · exact k3.1
          · have := k3.1; have := hl.2.1; exact absurd k3.1 (by show ¬ s.pivot ≤ a; omega)
        refine ⟨k1, k2, fun hd => absurd hd hnd, fun _ => ⟨rfl, hlive, by rw [k4]; exact hword, ?_⟩⟩
        exact valueAt_written hf hneeds h0 (by rw [k4']) (by omega)
      cases v with
      | inline x =>
        obtain ⟨k1, k2, k3, k4⟩ := inline_write (inlineStore g x) h hl hcg (fits_inline hf).1
        exact ⟨k1, k2, fun hd => absurd hd hnd, fun _ => ⟨rfl, k3, by rw [k4]; exact hword, valueAt_inline hf (by rw [k4])⟩⟩
      | units cs => exact pay (fits_units hf).2.2.2.1
      | text v =>
        simp only [Val.fits, Bool.and_eq_true, decide_eq_true_eq] at hf
        rw [hf.1] at hfx; cases hfx
      | varbin v =>
        simp only [Val.fits, Bool.and_eq_true, decide_eq_true_eq] at hf
        rw [hf.1] at hfx; cases hfx
      | property v id =>
        simp only [Val.fits, Bool.and_eq_true, decide_eq_true_eq] at hf
        rw [hf.1.1] at hfx; cases hfx
      | nested v =>
        cases v <;> simp only [Val.fits, Bool.and_eq_true, decide_eq_true_eq] at hf
        · rw [hf] at hfx; cases hfx
        · rw [hf.1.1] at hfx; cases hfx

/-- An assignment of a fixed-size value that is stored always succeeds. -/
theorem assignAt_fixed {F : Fix} {s : RW} {g : Genus} {v : Val} {tag a : Nat}
    (hg : tag2genus tag = g) (hfx : g.isFixed = true) (ha : RW.has s (tag % 65536) a) (hd : ¬ dropped tag g v) :
    ∃ t, assignLoose F s tag (some a) g v = .ok (some a) t := by
  obtain ⟨hl, hword⟩ := ha
  have hcg := word_genus hg hword
  unfold assignLoose
  rw [if_pos hfx]
  unfold assignLooseFixed
  rw [if_neg (by rw [hg]; exact fun h => h rfl)]
  simp only
  rw [if_neg (by rw [hcg]; rintro (h | h); exact absurd hl.2.1 (by omega); exact h rfl), if_neg (fun c => hd (Or.inl c))]
  exact ⟨_, rfl⟩

/-- What an assignment through a null pointer achieves. -/
structure NewPost (σ : Sch) (s s' : RW) (w : Nat) (g : Genus) (v : Val) (drop : Prop) (r : Option Nat) : Prop where
  wf : WF σ s'
  gone : drop → s' = s ∧ r = none
  stored : ¬ drop → ∃ a, r = some a ∧ Others σ s s' a ∧ ¬ s.live a ∧ s'.live a ∧ (s'.mem a).hi = w ∧ valueAt g s'.mem a = some v

/-- Assignment through a null pointer. -/
theorem assignNew_spec {σ : Sch} {F : Fix} {s : RW} {g : Genus} {v : Val} {tag : Nat} (h : WF σ s) (hb : Benign F s g v)
    (hg : tag2genus tag = g) (hf : v.fits g = true) :
    (assignLoose F s tag none g v).Sat False
      (fun e s' => s' = s ∧ Failure s g v false e)
      (fun r s' => NewPost σ s s' (tag % 65536) g v (dropped tag g v) r) := by
  unfold assignLoose
  cases hfx : g.isFixed with
  | false =>
    rw [if_neg (by decide)]
    unfold assignStretchy
    rw [if_neg (by rw [hg]; exact fun h => h rfl)]
    cases hn : neededUnits tag g v with
    | error e => exact ⟨rfl, Failure.tooLong hfx (estimate_error hn)⟩
    | ok n =>
      obtain ⟨hn0, hn1⟩ := needed_drop hf hfx hn
      show (if n = 0 then _ else _ : Out _).Sat _ _ _
      by_cases c : n = 0
      · rw [if_pos c]
        exact ⟨h, fun _ => ⟨rfl, rfl⟩, fun hd => absurd (hn0.1 c) hd⟩
      · rw [if_neg c]
        obtain ⟨hneeds, h16⟩ := hn1 c
        have hnd : ¬ dropped tag g v := fun hd => c (hn0.2 hd)
        have key := allocLoose_wf h hb hg hf hneeds
        cases hr : allocLooseWith F.loose s tag n with
        | ub => rw [hr] at key; exact key.elim
        | exc e s' => rw [hr] at key; exact ⟨key.1, Failure.loose _ rfl hneeds key.2⟩
        | ok a s1 =>
          rw [hr] at key
          obtain ⟨k1, k2, k3, k4, k5, k6⟩ := new_payload h hg hf hneeds (by omega) key.1 key.2
          exact ⟨k1, fun hd => absurd hd hnd, fun _ => ⟨a, rfl, k2, k3, k4, k5, k6⟩⟩
  | true =>
    rw [if_pos rfl]
    have hnn : v ≠ .nested none := by
      rintro rfl
      simp only [Val.fits, decide_eq_true_eq] at hf
      subst hf; cases hfx
    have hdrop : dropped tag g v ↔ (¬ isDiscernible tag ∧ v.isEmpty g) := by
      unfold dropped
      exact ⟨fun h => h.resolve_right hnn, Or.inl⟩
    have hneeds : needs g v g.looseUnits := by unfold needs; rw [hfx, if_pos rfl]
    unfold assignLooseFixed
    rw [if_neg (by rw [hg]; exact fun h => h rfl)]
    show (Out.bind (if ¬ isDiscernible tag = true ∧ v.isEmpty g = true then _ else _) _).Sat _ _ _
    by_cases c : ¬ isDiscernible tag ∧ v.isEmpty g
    · rw [if_pos c]
      exact ⟨h, fun _ => ⟨rfl, rfl⟩, fun hd => absurd (hdrop.2 c) hd⟩
    · rw [if_neg c]
      have hnd : ¬ dropped tag g v := fun hd => c (hdrop.1 hd)
      have key := allocLoose_wf h hb hg hf hneeds
      cases hr : allocLooseWith F.loose s tag g.looseUnits with
      | ub => rw [hr] at key; exact key.elim
      | exc e s' => rw [hr] at key; exact ⟨key.1, Failure.loose _ rfl hneeds key.2⟩
      | ok a s1 =>
        rw [hr] at key
        obtain ⟨post, c1⟩ := key
        cases v with
        | inline x =>
          obtain ⟨k1, k2, k3, k4, k5, k6⟩ := new_inline h hg hf post c1
          exact ⟨k1, fun hd => absurd hd hnd, fun _ => ⟨a, rfl, k2, k3, k4, k5, k6⟩⟩
        | units cs =>
          obtain ⟨k1, k2, k3, k4, k5, k6⟩ := new_payload h hg hf hneeds (fits_units hf).2.2.2.1 post c1
          exact ⟨k1, fun hd => absurd hd hnd, fun _ => ⟨a, rfl, k2, k3, k4, k5, k6⟩⟩
        | text v =>
          simp only [Val.fits, Bool.and_eq_true, decide_eq_true_eq] at hf
          rw [hf.1] at hfx; cases hfx
        | varbin v =>
          simp only [Val.fits, Bool.and_eq_true, decide_eq_true_eq] at hf
          rw [hf.1] at hfx; cases hfx
        | property v id =>
          simp only [Val.fits, Bool.and_eq_true, decide_eq_true_eq] at hf
          rw [hf.1.1] at hfx; cases hfx
        | nested v =>
          cases v <;> simp only [Val.fits, Bool.and_eq_true, decide_eq_true_eq] at hf
          · rw [hf] at hfx; cases hfx
          · rw [hf.1.1] at hfx; cases hfx

/-! ## Fields that a step does not touch -/

/-- The fields with the word `w` stay where they are, with their contents. -/
def Stay (σ : Sch) (s t : RW) (w : Nat) : Prop :=
  (∀ b, RW.has t w b ↔ RW.has s w b) ∧ ∀ b, RW.has s w b → Kept σ s t b

theorem Stay.refl (σ : Sch) (s : RW) (w : Nat) : Stay σ s s w := ⟨fun _ => Iff.rfl, fun b _ => Kept.refl σ s b⟩

theorem Others.stay {σ : Sch} {s t : RW} {a w : Nat} (o : Others σ s t a) (h1 : ¬ RW.has s w a) (h2 : ¬ RW.has t w a) : Stay σ s t w := by
  refine ⟨fun b => ?_, fun b hb => ?_⟩
  · by_cases hba : b = a
    · subst hba; exact ⟨fun k => absurd k h2, fun k => absurd k h1⟩
    · exact o.has hba
  · exact o.kept b (fun hba => h1 (hba ▸ hb)) (Or.inl hb.1)

theorem PreplacedPost.stay {σ : Sch} {s t : RW} {tag n : Nat} (p : PreplacedPost σ s t tag n) (w : Nat) : Stay σ s t w := by
  have hk : ∀ b, s.live b → Kept σ s t b := fun b hb => (p.kept b _ (Or.inl ⟨hb, rfl⟩)).2
  refine ⟨fun b => ?_, fun b hb => hk b hb.1⟩
  constructor
  · rintro ⟨k1, k2⟩
    have hl := (p.live b).1 k1
    exact ⟨hl, by rw [← (hk b hl).cell]; exact k2⟩
  · rintro ⟨k1, k2⟩
    exact ⟨(p.live b).2 k1, by rw [(hk b k1).cell]; exact k2⟩

theorem OthersW.stay {σ : Sch} {s t : RW} {w x : Nat} (o : OthersW σ s t x) (hx : x ≠ w) : Stay σ s t w := by
  have hk : ∀ b, s.live b → (s.mem b).hi ≠ x → Kept σ s t b := fun b hb hne => o.kept b (fun hh => hne hh.2) (Or.inl hb)
  refine ⟨fun b => ?_, fun b hb => hk b hb.1 (by rw [hb.2]; exact hx.symm)⟩
  constructor
  · rintro ⟨k1, k2⟩
    obtain ⟨hl, hne⟩ := (o.live b).1 k1
    exact ⟨hl, by rw [← (hk b hl hne).cell]; exact k2⟩
  · rintro ⟨k1, k2⟩
    have hne : (s.mem b).hi ≠ x := by rw [k2]; exact hx.symm
    exact ⟨(o.live b).2 ⟨k1, hne⟩, by rw [(hk b k1 hne).cell]; exact k2⟩

/-- The tag of a modification. -/
def Op.tag : Op → Nat
  | .set tag _ _ => tag
  | .insert tag _ _ => tag
  | .erase tag => tag

theorem preplaced_no_has {s : RW} {w a : Nat} (h : s.pivot ≤ a) : ¬ RW.has s w a := fun k => by have := k.1.2.1; omega

/-- A modification by a token with another word leaves the fields with the word `w` alone. -/
theorem step_stay {σ : Sch} {F : Fix} {s t : RW} {u : Unit} {w : Nat} (h : WF σ s) (op : Op) (hop : OpOk σ s.pre op)
    (hb : StepBenign F s op) (hr : step F s op = .ok u t) (hw : isPreplaced op.tag = true ∨ op.tag % 65536 ≠ w) : Stay σ s t w := by
  cases op with
  | set tag g v =>
    obtain ⟨⟨ht1, ht3⟩, hf⟩ := hop
    have ht2 := preplaced_not_loose tag
    obtain ⟨hb1, -⟩ := hb
    have hr : setField F s tag g v = .ok u t := hr
    unfold setField at hr
    by_cases hg : tag2genus tag = g
    · cases hpr : isPreplaced tag with
      | true =>
        have hnl : isLoose tag = false := by rw [hpr] at ht2; simpa using ht2.symm
        rw [hpr, if_pos rfl] at hr
        have hslot := ht3 hpr
        rw [hg] at hslot
        cases hfx : g.isFixed with
        | true =>
          rw [hfx, if_pos rfl] at hslot hr
          obtain ⟨s', e', post, _⟩ := setPreplacedFixed_spec h hg hf hfx hslot
          rw [e'] at hr
          injection hr with _ hr
          rw [← hr]
          exact post.stay w
        | false =>
          rw [hfx, if_neg (by decide)] at hslot hr
          obtain ⟨r, s1, hr1, h2⟩ := Out.bind_ok hr
          injection h2 with _ h2
          rw [← h2]
          have hbase : s.base = s.pivot + s.pre := rfl
          have hs1 := hslot.1
          have hfa : FieldAt σ s (s.pivot + tag2offset tag / 4) g :=
            Or.inr ⟨by omega, by omega, by rw [Nat.add_sub_cancel_left]; exact hslot.2⟩
          have key := setStretchyAt_spec h hb1 hg hf hfx hfa (by rw [hnl]; simp)
          rw [hr1] at key
          have key : StretchyPost _ _ _ _ _ _ _ := key
          exact key.others.stay (preplaced_no_has (by omega)) (preplaced_no_has (by have := key.others.pivot; omega))
      | false =>
        have hll : isLoose tag = true := by rw [hpr] at ht2; simpa using ht2.symm
        have hne : tag % 65536 ≠ w := hw.resolve_left (by show ¬ isPreplaced tag = true; rw [hpr]; decide)
        rw [hpr, if_neg (by decide)] at hr
        have fin : ∀ t, SetPost σ s t (tag % 65536) g v (dropped tag g v) → Stay σ s t w := by
          rintro t ⟨wf', a, o, hap, hlk, hdr, hst⟩
          have hwn := tag_not_hole ht1
          have h1 : ¬ RW.has s w a := by
            rintro ⟨k1, k2⟩
            rcases hlk with k | k
            · exact k.2 k1
            · exact hne (((lookup_some hwn).1 k).1.2.symm.trans k2)
          refine o.stay h1 ?_
          rintro ⟨k1, k2⟩
          by_cases hd : dropped tag g v
          · rcases hdr hd with k | ⟨k, _⟩
            · exact k k1
            · rw [k] at k1 k2; exact h1 ⟨k1, k2⟩
          · exact hne ((hst hd).2.1.symm.trans k2)
        by_cases hc : isLooseCollection tag = true
        · rw [if_pos hc] at hr; cases hr
        · rw [if_neg hc, gid_eq] at hr
          cases hfx : g.isFixed with
          | true =>
            rw [hfx, if_pos rfl] at hr
            obtain ⟨r, s1, hr, h2⟩ := Out.bind_ok hr
            injection h2 with _ h2
            have key := setLooseFixed_spec h hb1 hg hf hfx
            rw [hr] at key
            rw [← h2]; exact fin _ key
          | false =>
            rw [hfx, if_neg (by decide)] at hr
            obtain ⟨r, s1, hr, h2⟩ := Out.bind_ok hr
            injection h2 with _ h2
            have key := setLooseStretchy_spec h hb1 hg hf hfx hll
            rw [hr] at key
            rw [← h2]; exact fin _ key
    · have m1 : assignPreplacedFixed s tag g v = .exc .typeMismatch s := by unfold assignPreplacedFixed; rw [if_pos hg]
      have m2 : ∀ f, assignStretchy F s tag f g v = .exc .typeMismatch s := by intro f; unfold assignStretchy; rw [if_pos hg]
      have m3 : ∀ f, assignLooseFixed F s tag f g v = .exc .typeMismatch s := by intro f; unfold assignLooseFixed; rw [if_pos hg]
      rw [m1, m2, m2, m3] at hr
      split_ifs at hr <;> cases hr
  | insert tag g v =>
    obtain ⟨ht, hf⟩ := hop
    have hr : (insertField F s tag g v).bind _ = .ok u t := hr
    obtain ⟨r, s1, hr, h2⟩ := Out.bind_ok hr
    injection h2 with _ h2
    rw [← h2]
    by_cases hg : tag2genus tag = g
    · by_cases hc : isLooseCollection tag = true
      · have key := insert_spec h hb hg hf hc
        rw [hr] at key
        rcases key with ⟨_, k, _⟩ | ⟨a, _, _, p⟩
        · rw [k]; exact Stay.refl σ s w
        · have hnp : isPreplaced tag = false := by
            have hc' : tag ≥ collectionThreshold := by simpa [isLooseCollection] using hc
            have e : collectionThreshold ≥ looseThreshold := by decide
            have : ¬ tag < looseThreshold := by omega
            simpa [isPreplaced] using this
          have hne : tag % 65536 ≠ w := hw.resolve_left (by show ¬ isPreplaced tag = true; rw [hnp]; decide)
          exact p.others.stay (fun k => p.fresh k.1) (fun k => hne (p.word.symm.trans k.2))
      · unfold insertField at hr
        rw [if_neg (by rw [hg]; exact fun h => h rfl), if_pos hc] at hr; cases hr
    · unfold insertField at hr
      rw [if_pos hg] at hr; cases hr
  | erase tag =>
    obtain ⟨ht1, ht3⟩ := hop
    have hr : (if isPreplaced tag then _ else _ : Out Unit) = .ok u t := hr
    cases hpr : isPreplaced tag with
    | true =>
      rw [hpr, if_pos rfl] at hr
      obtain ⟨r, s2, hr, h3⟩ := Out.bind_ok hr
      injection h3 with _ h3
      rw [← h3]
      unfold erasePreplaced at hr
      by_cases hex : preplacedExist s tag = true
      · rw [if_pos hex] at hr
        obtain ⟨_, s1, h1, h2⟩ := Out.bind_ok hr
        injection h2 with _ h2
        rw [← h2]
        have hslot := ht3 hpr
        cases hfx : (tag2genus tag).isFixed with
        | true =>
          rw [hfx, if_pos rfl] at hslot
          obtain ⟨s', e', post, _⟩ := erasePreplacedFixed_spec (F := F) h rfl hfx hslot
          rw [e'] at h1
          injection h1 with _ h1
          rw [← h1]
          exact post.stay w
        | false =>
          rw [hfx, if_neg (by decide)] at hslot
          have key := erasePreplacedStretchy_spec (F := F) h rfl hslot
          rw [h1] at key
          exact key.2.1.stay (preplaced_no_has (by omega)) (preplaced_no_has (by have := key.2.1.pivot; omega))
      · rw [if_neg hex] at hr
        injection hr with _ hr
        rw [← hr]; exact Stay.refl σ s w
    | false =>
      have hne : tag % 65536 ≠ w := hw.resolve_left (by show ¬ isPreplaced tag = true; rw [hpr]; decide)
      rw [hpr, if_neg (by decide)] at hr
      obtain ⟨r, s2, hr, h3⟩ := Out.bind_ok hr
      injection h3 with _ h3
      rw [← h3]
      by_cases hc : isLooseCollection tag = true
      · have key := eraseCollection_spec h ht1 hc
        rw [hr] at key
        exact OthersW.stay (ErasePost.others key) hne
      · have key := eraseSingle_spec h ht1 (by simpa using hc)
        rw [hr] at key
        obtain ⟨_, k | ⟨_, a, k1, k2, k3⟩⟩ := key
        · rw [k.2.1]; exact Stay.refl σ s w
        · refine k2.stay ?_ (fun k => k3 k.1)
          intro k
          exact hne (((lookup_some (tag_not_hole ht1)).1 k1).1.2.symm.trans k.2)

/-! ## The loop over a collection -/

/-- What the loop achieves for the values at `a` and after it. -/
structure UpdatePost (σ : Sch) (s t : RW) (w a : Nat) (g : Genus) (f : Option Val → Val) : Prop where
  wf : WF σ t
  pivot : t.pivot = s.pivot
  pre : t.pre = s.pre
  live : ∀ b, t.live b ↔ s.live b
  kept : ∀ b, s.owner b → ¬ (RW.has s w b ∧ a ≤ b) → Kept σ s t b
  word : ∀ b, RW.has s w b → (t.mem b).hi = w
  value : ∀ b, RW.has s w b → a ≤ b → valueAt g t.mem b = some (f (valueAt g s.mem b))

/-- The getter and the stored value. -/
theorem getEntry_old {s : RW} {tag a : Nat} {g : Genus} {old : Option Val} {f : Option Val → Val} (hv : g ≠ .varbin)
    (hfe : g.isFixed = true ∨ f none = f (some (Val.empty g))) (h : getEntry s tag g (some a) = .ok old) :
    f old = f (valueAt g s.mem a) := by
  unfold getEntry at h
  by_cases c0 : tag2genus tag ≠ g
  · rw [if_pos c0] at h; cases h
  rw [if_neg c0] at h
  simp only at h
  unfold valueAt
  by_cases c1 : g.isInplaced = true
  · rw [if_pos c1] at h ⊢
    rw [← Except.ok.inj h]
  · rw [if_neg c1] at h ⊢
    by_cases c2 : g.isFixed ∨ (s.mem a).lo ≠ 0
    · rw [if_pos c2] at h ⊢
      rw [← Except.ok.inj h, decode_eq hv]
    · rw [if_neg c2] at h ⊢
      split_ifs at h with c3
      rw [← Except.ok.inj h]
      exact (hfe.resolve_left fun k => c2 (Or.inl k)).symm

theorem getEntry_fixed {s : RW} {tag a : Nat} {g : Genus} (hg : tag2genus tag = g) (hfx : g.isFixed = true) :
    ∃ old, getEntry s tag g (some a) = .ok old := by
  unfold getEntry
  rw [if_neg (fun h => h hg)]
  simp only
  split_ifs with c1 c2 c3
  · exact ⟨_, rfl⟩
  · exact ⟨_, rfl⟩
  · exact absurd (Or.inl hfx) c2
  · exact ⟨_, rfl⟩

theorem Kept.trans {σ : Sch} {s t u : RW} {b : Nat} (k1 : Kept σ s t b) (h : WF σ s) (ho : s.owner b) (hp : t.pivot = s.pivot)
    (k2 : Kept σ t u b) : Kept σ s u b := by
  have hlen := k1.len h ho hp
  have hst : t.start b = s.start b := by show b + (t.mem b).lo = _; rw [k1.cell]
  refine ⟨k2.cell.trans k1.cell, fun x h1 h2 => ?_⟩
  rw [k2.payload x (by rw [hst]; exact h1) (by rw [hst, hlen]; exact h2), k1.payload x h1 h2]

theorem updateAll_spec {σ : Sch} {F : Fix} {tag : Nat} {g : Genus} {f : Option Val → Val}
    (hg : tag2genus tag = g) (hlo : isLoose tag = true) (hv : g ≠ .varbin) (hF : g.isFixed = true ∨ F = .repaired)
    (hfe : g.isFixed = true ∨ f none = f (some (Val.empty g))) (hf : ∀ x, (f x).fits g = true ∧ ¬ dropped tag g (f x))
    (s : RW) (a : Nat) (h : WF σ s) (ha : RW.has s (tag % 65536) a) :
    (updateAll F s tag (some a) g f).Sat (g.isFixed = false) (fun _ _ => g.isFixed = false)
      (fun _ t => UpdatePost σ s t (tag % 65536) a g f) := by
  have hw : tag % 65536 / 2048 ≠ 31 := tag_not_hole (by rw [hg]; exact fits_not_hole (hf none).1)
  induction hm : s.pivot - a using Nat.strong_induction_on generalizing s a with
  | _ m ih =>
    have hap := ha.1.2.1
    rw [updateAll]
    unfold updateOne
    rw [if_pos hap]
    cases hge : getEntry s tag g (some a) with
    | error e =>
      cases hfx : g.isFixed with
      | false => exact rfl
      | true =>
        obtain ⟨old, ho⟩ := getEntry_fixed (s := s) (a := a) hg hfx
        rw [ho] at hge; cases hge
    | ok old =>
      simp only
      have hold := getEntry_old (f := f) hv hfe hge
      obtain ⟨hf1, hf2⟩ := hf old
      have key := assignAt_spec (F := F) h (hF.imp id (fun k => k ▸ Benign.repaired s g (f old))) hg hf1 hlo ha
      cases hr : assignLoose F s tag (some a) g (f old) with
      | ub =>
        cases hfx : g.isFixed with
        | false => exact rfl
        | true =>
          obtain ⟨t, ht⟩ := assignAt_fixed (F := F) hg hfx ha hf2
          rw [ht] at hr; cases hr
      | exc e s' =>
        cases hfx : g.isFixed with
        | false => exact rfl
        | true =>
          obtain ⟨t, ht⟩ := assignAt_fixed (F := F) hg hfx ha hf2
          rw [ht] at hr; cases hr
      | ok r s1 =>
        rw [hr] at key
        obtain ⟨k1, o, _, hst⟩ := key
        obtain ⟨rfl, hl1, hw1, hv1⟩ := hst hf2
        rw [hold] at hv1
        have hlive : ∀ b, s1.live b ↔ s.live b := by
          intro b
          by_cases hba : b = a
          · subst hba; exact ⟨fun _ => ha.1, fun _ => hl1⟩
          · exact o.live b hba
        have hhas : ∀ b, RW.has s1 (tag % 65536) b ↔ RW.has s (tag % 65536) b := by
          intro b
          by_cases hba : b = a
          · subst hba; exact ⟨fun _ => ha, fun _ => ⟨hl1, hw1⟩⟩
          · exact o.has hba
        have last : (∀ b, RW.has s (tag % 65536) b → b ≤ a) → UpdatePost σ s s1 (tag % 65536) a g f := by
          intro hle
          refine ⟨k1, o.pivot, o.pre, hlive, fun b hb hn => ?_, fun b hb => ((hhas b).2 hb).2, fun b hb hab => ?_⟩
          · refine o.kept b (fun hba => hn ?_) hb
            subst hba; exact ⟨ha, le_rfl⟩
          · have : b = a := le_antisymm (hle b hb) hab
            subst this; exact hv1
        show (match (Out.ok (nextEntry s1 (tag2gid tag) a) s1 : Out (Option Nat)) with
          | .ub => Out.ub | .exc e s' => .exc e s' | .ok none s' => .ok () s'
          | .ok (some c) s' => if h : s'.pivot - c < s.pivot - a then updateAll F s' tag (some c) g f else .ub).Sat _ _ _
        rw [gid_eq]
        cases hn : nextEntry s1 (tag % 65536) a with
        | none =>
          refine last fun b hb => ?_
          by_contra hlt
          have hb1 := (hhas b).2 hb
          exact lookupFrom_none hn b (by omega) hb1.1.2.1 hb1.2
        | some c =>
          obtain ⟨n1, n2, n3, n4⟩ := lookupFrom_some hn
          have hpv := o.pivot
          simp only
          rw [dif_pos (by omega)]
          have hc1 : RW.has s1 (tag % 65536) c := by
            refine ⟨⟨?_, n2, fun hh => ?_⟩, n3⟩
            · have := hl1.1; omega
            · have hh : (s1.mem c).hi / 2048 = 31 := hh
              rw [n3] at hh; exact hw hh
          refine (ih (s1.pivot - c) (by omega) s1 c k1 hc1 rfl).mono id (fun _ _ => id) ?_
          rintro _ t ⟨p1, p2, p3, p4, p5, p6, p7⟩
          refine ⟨p1, p2.trans hpv, p3.trans o.pre, fun b => (p4 b).trans (hlive b), fun b hb hnb => ?_, fun b hb => p6 b ((hhas b).2 hb), fun b hb hab => ?_⟩
          · have hba : b ≠ a := by
              rintro rfl; exact hnb ⟨ha, le_rfl⟩
            have kk := o.kept b hba hb
            have ho1 : s1.owner b := by
              rcases hb with hb | hb
              · exact Or.inl ((hlive b).2 hb)
              · exact Or.inr ⟨by rw [o.pivot]; exact hb.1, by rw [o.base]; exact hb.2⟩
            refine kk.trans h hb hpv (p5 b ho1 ?_)
            rintro ⟨q1, q2⟩
            exact hnb ⟨(hhas b).1 q1, by omega⟩
          · by_cases hba : b = a
            · subst hba
              have ho1 : s1.owner b := Or.inl hl1
              have kk := p5 b ho1 (by rintro ⟨_, q⟩; omega)
              rw [kk.value k1 (Or.inl ⟨hl1, word_genus hg hw1⟩) (fits_not_hole hf1)]
              exact hv1
            · have hbc : c ≤ b := by
                by_contra hlt
                have hb1 := (hhas b).2 hb
                exact n4 b (by omega) (by omega) hb1.2
              rw [p7 b ((hhas b).2 hb) hbc, (o.kept b hba (Or.inl hb.1)).value h (Or.inl ⟨hb.1, word_genus hg hb.2⟩) (fits_not_hole hf1)]

end Fptu.Rw
