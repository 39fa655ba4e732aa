import Verif.Lemmas.TupleView
/-!
# Tuple operations: setting a loose field
-/
namespace Fptu.Rw
open Fptu.Gear

theorem gid_eq (tag : Nat) : tag2gid tag = tag % 65536 := by
  unfold tag2gid
  first | rfl | (rw [Nat.and_two_pow_sub_one_eq_mod (n := 16)])

/-- The value is not stored: an empty value of a field without NULLs, or the absent nested tuple. -/
def dropped (tag : Nat) (g : Genus) (v : Val) : Prop := (¬ isDiscernible tag ∧ v.isEmpty g) ∨ v = .nested none

theorem estimate_lt {g : Genus} {v : Val} {n : Nat} (hf : v.fits g) (h : v.estimate = .ok n) (hg : g.isFixed = false) :
    n < 65536 ∧ (n = 0 ↔ v = .nested none) := by
  cases v with
  | inline x => exact absurd (hg.symm.trans (fits_inline hf).2.1) (by decide)
  | units cs => exact absurd (hg.symm.trans (fits_units hf).2.1) (by decide)
  | text v =>
    have h : Str.estimate v.length = .ok n := h
    obtain ⟨k1, k2⟩ := Props.C04_estimate v.length
    have hl : v.length ≤ 131325 := by
      by_contra c
      rw [k1.1 (by omega)] at h
      cases h
    obtain ⟨u, e1, e2, e3⟩ := k2 hl
    rw [h] at e1
    injection e1 with e1
    subst e1
    simp only at e3
    refine ⟨by split_ifs at e3 <;> omega, ⟨by omega, fun h => by cases h⟩⟩
  | varbin v =>
    have h : Varbin.estimate v.length = .ok n := h
    obtain ⟨k1, k2⟩ := Props.C05_estimate v.length
    have hl : v.length ≤ 262136 := by
      by_contra c
      rw [k1.1 (by omega)] at h
      cases h
    rw [k2 hl] at h
    injection h with h
    exact ⟨by omega, ⟨by omega, fun h => by cases h⟩⟩
  | property v id =>
    have h : Property.estimate v.length = .ok n := h
    unfold Property.estimate bytes2units at h
    rw [Nat.shiftRight_eq_div_pow] at h
    split_ifs at h
    injection h with h
    exact ⟨by omega, ⟨by omega, fun h => by cases h⟩⟩
  | nested v =>
    have h : (Except.ok (Nested.estimate v) : Except Exc Nat) = .ok n := h
    injection h with h
    cases v with
    | none =>
      have h : (0 : Nat) = n := h
      exact ⟨by omega, fun _ => rfl, fun _ => h.symm⟩
    | some v =>
      simp only [Val.fits, Bool.and_eq_true, decide_eq_true_eq, List.all_eq_true] at hf
      obtain ⟨⟨rfl, hne, hl⟩, hok⟩ := hf
      cases v with
      | nil => exact absurd rfl hne
      | cons c t =>
        have h : c.lo = n := h
        have hc := hok c (by simp)
        simp only [Cell.ok, Bool.and_eq_true, decide_eq_true_eq] at hc
        have hl : c.lo = t.length + 1 := hl
        exact ⟨by omega, ⟨by omega, fun h => by cases h⟩⟩

/-- Circumstances in which the two defects of `src/gear.cxx` at lines 300 and 591 do not show (always, once repaired). -/
structure Benign (F : Fix) (s : RW) (g : Genus) (v : Val) : Prop where
  loose : F.loose = true ∨ ∀ n, needs g v n → 0 < n → ∀ x, lookupBest s n = some (some x) → s.units x = n ∨ s.units x = 2 * n
  swap : F.swap = true ∨ 0 < s.head ∨ s.jv = 0 ∨ g.isFixed = true

theorem Benign.repaired (s : RW) (g : Genus) (v : Val) : Benign .repaired s g v := ⟨Or.inl rfl, Or.inl rfl⟩

/-- Why a modification throws. -/
inductive Failure (s : RW) (g : Genus) (v : Val) (found : Bool) (e : Exc) : Prop where
  | tooLong : g.isFixed = false → v.estimate = .error e → Failure s g v found e
  | loose (n : Nat) : found = false → needs g v n → LooseDeficit s n e → Failure s g v found e
  | realloc (n : Nat) : found = true → needs g v n → 0 < n → ReallocDeficit s n e → Failure s g v found e

/-- What a set achieves. -/
structure SetPost (σ : Sch) (s s' : RW) (w : Nat) (g : Genus) (v : Val) (drop : Prop) : Prop where
  wf : WF σ s'
  field : ∃ a, Others σ s s' a ∧ (a < s.pivot ∨ s.base ≤ a) ∧ ((s.lookup w = none ∧ ¬ s.live a) ∨ s.lookup w = some a) ∧
    (drop → ¬ s'.live a ∨ (s' = s ∧ s.live a ∧ g.isFixed = false ∧ (s.mem a).lo = 0)) ∧
    (¬ drop → s'.live a ∧ (s'.mem a).hi = w ∧ valueAt g s'.mem a = some v)

theorem inlineRead_store {g : Genus} {x : Nat} (h : (Val.inline x).fits g) : inlineRead g (inlineStore g x) = x := by
  simp only [Val.fits, Bool.and_eq_true, decide_eq_true_eq] at h
  obtain ⟨h1, h2⟩ := h
  unfold inlineRead inlineStore
  cases g <;> simp only [is8] at * <;> simp at * <;> (try split_ifs) <;> omega

theorem valueAt_inline {g : Genus} {x : Nat} (h : (Val.inline x).fits g) {m : Memory} {a : Nat} (hm : (m a).lo = inlineStore g x) :
    valueAt g m a = some (.inline x) := by
  unfold valueAt
  rw [if_pos (fits_inline h).1, hm, inlineRead_store h]

theorem needs_pos {g : Genus} {v : Val} {n : Nat} (hf : v.fits g) (hn : needs g v n) (h0 : 0 < n) : g.isInplaced = false := by
  cases hi : g.isInplaced with
  | false => rfl
  | true =>
    obtain ⟨h1, h2⟩ := inplaced_facts g hi
    unfold needs at hn
    rw [h1, if_pos rfl] at hn
    omega

theorem valueAt_written {g : Genus} {v : Val} {n : Nat} (hf : v.fits g) (hn : needs g v n) (h0 : 0 < n) {m : Memory} {a p : Nat}
    (hp : a + ((v.write m p) a).lo = p) (hap : a < p) : valueAt g (v.write m p) a = some v := by
  unfold valueAt
  rw [if_neg (by rw [needs_pos hf hn h0]; decide), if_pos (Or.inr (by omega)), hp]
  exact write_decode hf hn h0 m p

/-- `alloc_loose` of a new field, in a valid tuple. -/
theorem allocLoose_wf {σ : Sch} {F : Fix} {s : RW} {g : Genus} {v : Val} {tag n : Nat} (h : WF σ s) (hb : Benign F s g v)
    (hg : tag2genus tag = g) (hf : v.fits g) (hn : needs g v n) :
    (allocLooseWith F.loose s tag n).Sat False (fun e s' => s' = s ∧ LooseDeficit s n e)
      (fun a s1 => LoosePost s s1 (lenOf σ s) (fun _ => 0) tag n a ∧ Canon s1) := by
  have ht : tag % 65536 / 2048 ≠ 31 := tag_not_hole (by rw [hg]; exact fits_not_hole hf)
  have hfix : F.loose = true ∨ (0 < n → ∀ x, lookupBest s n = some (some x) → s.units x = n ∨ s.units x = 2 * n) := by
    rcases hb.loose with h | h
    · exact Or.inl h
    · exact Or.inr (h n hn)
  exact ((allocLoose_spec h.inv F.loose tag n ht hfix).and (allocLoose_canon h.inv h.canon F.loose tag n ht hfix)).mono
    (fun h => h.1) (fun _ _ h => h.1) (fun _ _ h => h)

theorem new_inline {σ : Sch} {s s1 : RW} {g : Genus} {x a tag : Nat} (h : WF σ s)
    (hg : tag2genus tag = g) (hf : (Val.inline x).fits g)
    (post : LoosePost s s1 (lenOf σ s) (fun _ => 0) tag g.looseUnits a) (c1 : Canon s1) :
    WF σ (s1.setLo a (inlineStore g x)) ∧ Others σ s (s1.setLo a (inlineStore g x)) a ∧ ¬ s.live a ∧ (s1.setLo a (inlineStore g x)).live a ∧
      ((s1.setLo a (inlineStore g x)).mem a).hi = tag % 65536 ∧
      valueAt g (s1.setLo a (inlineStore g x)).mem a = some (.inline x) := by
  obtain ⟨h1, h2, h3, h4⟩ := fits_inline hf
  rw [h3] at post
  obtain ⟨k1, k2, k3, k4⟩ := alloc_inline (inlineStore g x) h post c1 hg (Or.inl ⟨h2, h3⟩)
  exact ⟨k1, k2, post.fresh, k3, by rw [k4], valueAt_inline hf (by rw [k4])⟩

theorem new_payload {σ : Sch} {s s1 : RW} {g : Genus} {v : Val} {a tag n : Nat} (h : WF σ s)
    (hg : tag2genus tag = g) (hf : v.fits g) (hn : needs g v n) (h0 : 0 < n)
    (post : LoosePost s s1 (lenOf σ s) (fun _ => 0) tag n a) (c1 : Canon s1) :
    WF σ (RW.withMem s1 (v.write s1.mem (s1.start a))) ∧ Others σ s (RW.withMem s1 (v.write s1.mem (s1.start a))) a ∧ ¬ s.live a ∧
      (RW.withMem s1 (v.write s1.mem (s1.start a))).live a ∧
      ((RW.withMem s1 (v.write s1.mem (s1.start a))).mem a).hi = tag % 65536 ∧
      valueAt g (RW.withMem s1 (v.write s1.mem (s1.start a))).mem a = some v := by
  obtain ⟨k1, k2, k3, k4⟩ := alloc_write h post c1 hg hf hn h0
  refine ⟨k1, k2, post.fresh, k3, by rw [k4]; exact post.word, ?_⟩
  have ol : s1.owner a := Or.inl post.live
  have hin := post.inv.inside (ol.head_le post.inv.hp) ol.lt_base (by rw [ol.clen, upd_same]; exact h0)
  have hlt := ol.lt_base
  refine valueAt_written hf hn h0 ?_ (by omega)
  have k4 : (v.write s1.mem (s1.start a)) a = s1.mem a := k4
  rw [k4]

theorem word_genus {s : RW} {a tag : Nat} {g : Genus} (hg : tag2genus tag = g) (h : (s.mem a).hi = tag % 65536) : cellGenus (s.mem a) = g := by
  rw [cellGenus_tag _ tag h, hg]

/-- Same space, new value. -/
theorem same_space {σ : Sch} {s : RW} {a n : Nat} (h : WF σ s) (ho : s.owner a) (hl : lenOf σ s a = n) :
    ReallocPost s s (lenOf σ s) (fun _ => 0) a n (s.start a) := by
  refine ⟨?_, Frame.refl s _, ho, rfl, rfl⟩
  rw [← hl, upd_self]; exact h.inv

/-- Setting a loose field of fixed size. -/
theorem setLooseFixed_spec {σ : Sch} {F : Fix} {s : RW} {g : Genus} {v : Val} {tag : Nat} (h : WF σ s) (hb : Benign F s g v)
    (hg : tag2genus tag = g) (hf : v.fits g) (hfx : g.isFixed = true) :
    (assignLooseFixed F s tag (s.lookup (tag % 65536)) g v).Sat (2047 < s.jv + (s.lookup (tag % 65536)).elim 0 (lenOf σ s))
      (fun e s' => s' = s ∧ Failure s g v (s.lookup (tag % 65536)).isSome e)
      (fun _ s' => SetPost σ s s' (tag % 65536) g v (dropped tag g v)) := by
  have hw : tag % 65536 / 2048 ≠ 31 := tag_not_hole (by rw [hg]; exact fits_not_hole hf)
  have hnn : v ≠ .nested none := by
    rintro rfl
    simp only [Val.fits, decide_eq_true_eq] at hf
    subst hf; cases hfx
  have hdrop : dropped tag g v ↔ (¬ isDiscernible tag ∧ v.isEmpty g) := by
    unfold dropped
    exact ⟨fun h => h.resolve_right hnn, Or.inl⟩
  have hneeds : needs g v g.looseUnits := by unfold needs; rw [hfx, if_pos rfl]
  unfold assignLooseFixed
  rw [if_neg (by rw [hg]; exact fun h => h rfl)]
  cases hlk : s.lookup (tag % 65536) with
  | none =>
    by_cases c : ¬ isDiscernible tag ∧ v.isEmpty g
    · rw [if_pos c]
      have hnl : ¬ s.live s.base := fun hl => by have := hl.2.1; have : s.base = s.pivot + s.pre := rfl; omega
      exact ⟨h, s.base, Others.refl σ s _, Or.inr le_rfl, Or.inl ⟨hlk, hnl⟩, fun _ => Or.inl hnl, fun hd => absurd (hdrop.2 c) hd⟩
    · rw [if_neg c]
      have hnd : ¬ dropped tag g v := fun hd => c (hdrop.1 hd)
      have key := allocLoose_wf h hb hg hf hneeds
      cases hr : allocLooseWith F.loose s tag g.looseUnits with
      | ub => rw [hr] at key; exact key.elim
      | exc e s' =>
        rw [hr] at key
        exact ⟨key.1, Failure.loose _ rfl hneeds key.2⟩
      | ok a s1 =>
        rw [hr] at key
        obtain ⟨post, c1⟩ := key
        cases v with
        | inline x =>
          obtain ⟨k1, k2, k3, k4, k5, k6⟩ := new_inline h hg hf post c1
          exact ⟨k1, a, k2, Or.inl (k2.pivot ▸ k4.2.1), Or.inl ⟨hlk, k3⟩, fun hd => absurd hd hnd, fun _ => ⟨k4, k5, k6⟩⟩
        | units cs =>
          obtain ⟨k1, k2, k3, k4, k5, k6⟩ := new_payload h hg hf hneeds (fits_units hf).2.2.2.1 post c1
          exact ⟨k1, a, k2, Or.inl (k2.pivot ▸ k4.2.1), Or.inl ⟨hlk, k3⟩, fun hd => absurd hd hnd, fun _ => ⟨k4, k5, k6⟩⟩
        | text v =>
          simp only [Val.fits, Bool.and_eq_true, decide_eq_true_eq] at hf
          rw [hf.1] at hfx; cases hfx
        | varbin v =>
          simp only [Val.fits, Bool.and_eq_true, decide_eq_true_eq] at hf
          rw [hf.1] at hfx; cases hfx
        | property v id =>
          simp only [Val.fits, Bool.and_eq_true, decide_eq_true_eq] at hf
          rw [hf.1.1] at hfx; cases hfx
        | nested v =>
          cases v <;> simp only [Val.fits, Bool.and_eq_true, decide_eq_true_eq] at hf
          · rw [hf] at hfx; cases hfx
          · rw [hf.1.1] at hfx; cases hfx
  | some a =>
    obtain ⟨⟨hl, hword⟩, _⟩ := (lookup_some hw).1 hlk
    have hlt' := hl.2.1
    have hcg := word_genus hg hword
    have hla : lenOf σ s a = g.looseUnits := by
      rw [lenOf_index hl.2.1, hcg]; unfold fieldUnits; rw [hfx, if_pos rfl]
    show (Out.bind (if a ≥ s.pivot ∨ cellGenus (s.mem a) ≠ g then _ else _) _).Sat _ _ _
    rw [if_neg (by rw [hcg]; rintro (h | h); exact absurd hl.2.1 (by omega); exact h rfl)]
    by_cases c : ¬ isDiscernible tag ∧ v.isEmpty g
    · rw [if_pos c]
      have key := release_spec h hl
      rw [hla] at key
      cases hr : releaseLoose s a g.looseUnits with
      | ub => rw [hr] at key; show 2047 < s.jv + lenOf σ s a; rw [hla]; exact key
      | exc e s' => rw [hr] at key; exact key.elim
      | ok u t =>
        rw [hr] at key
        obtain ⟨k1, k2, k3, _⟩ := key
        exact ⟨k1, a, k2, Or.inl hlt', Or.inr hlk, fun _ => Or.inl k3, fun hd => absurd (hdrop.2 c) hd⟩
    · rw [if_neg c]
      have hnd : ¬ dropped tag g v := fun hd => c (hdrop.1 hd)
      have pay : 0 < g.looseUnits → SetPost σ s (RW.withMem s (v.write s.mem (s.start a))) (tag % 65536) g v (dropped tag g v) := by
        intro h0
        have hfa : FieldAt σ s a g := Or.inl ⟨hl, hcg⟩
        obtain ⟨k1, k2, k3, k4, k5, k6⟩ := owner_write h (same_space h (Or.inl hl) hla) h.canon hfa hf hneeds h0
        have hge := h.payload_ge (Or.inl hl) (by omega)
        have hlt := RW.owner.lt_base (Or.inl hl : s.owner a)
        have k4' : (v.write s.mem (s.start a)) a = s.mem a := k4
        have hlive : (RW.withMem s (v.write s.mem (s.start a))).live a := by
          rcases k3 with k3 | k3
          · exact k3.1
          · have := k3.1; have := hl.2.1; exact absurd k3.1 (by show ¬ s.pivot ≤ a; omega)
        refine ⟨k1, a, k2, Or.inl hlt', Or.inr hlk, fun hd => absurd hd hnd, fun _ => ⟨hlive, by rw [k4]; exact hword, ?_⟩⟩
        exact valueAt_written hf hneeds h0 (by rw [k4']) (by omega)
      cases v with
      | inline x =>
        obtain ⟨k1, k2, k3, k4⟩ := inline_write (inlineStore g x) h hl hcg (fits_inline hf).1
        exact ⟨k1, a, k2, Or.inl hlt', Or.inr hlk, fun hd => absurd hd hnd, fun _ => ⟨k3, by rw [k4]; exact hword, valueAt_inline hf (by rw [k4])⟩⟩
      | units cs => exact pay (fits_units hf).2.2.2.1
      | text v =>
        simp only [Val.fits, Bool.and_eq_true, decide_eq_true_eq] at hf
        rw [hf.1] at hfx; cases hfx
      | varbin v =>
        simp only [Val.fits, Bool.and_eq_true, decide_eq_true_eq] at hf
        rw [hf.1] at hfx; cases hfx
      | property v id =>
        simp only [Val.fits, Bool.and_eq_true, decide_eq_true_eq] at hf
        rw [hf.1.1] at hfx; cases hfx
      | nested v =>
        cases v <;> simp only [Val.fits, Bool.and_eq_true, decide_eq_true_eq] at hf
        · rw [hf] at hfx; cases hfx
        · rw [hf.1.1] at hfx; cases hfx

/-- Result for an existing stretchy field at `a`. -/
structure StretchyPost (σ : Sch) (s s' : RW) (a : Nat) (g : Genus) (v : Val) (drop : Prop) : Prop where
  wf : WF σ s'
  others : Others σ s s' a
  gone : drop → (¬ s'.owner a ∨ (s'.owner a ∧ s.pivot ≤ a ∧ (s'.mem a).lo = 0)) ∨ (s' = s ∧ (s.mem a).lo = 0)
  stored : ¬ drop → FieldAt σ s' a g ∧ (s'.mem a).hi = (s.mem a).hi ∧ valueAt g s'.mem a = some v

theorem needed_drop {tag n : Nat} {g : Genus} {v : Val} (hf : v.fits g) (hfx : g.isFixed = false) (h : neededUnits tag g v = .ok n) :
    (n = 0 ↔ dropped tag g v) ∧ (n ≠ 0 → needs g v n ∧ n < 65536) := by
  unfold neededUnits at h
  by_cases c : isDiscernible tag ∨ ¬ v.isEmpty g
  · rw [if_pos c] at h
    obtain ⟨h1, h2⟩ := estimate_lt hf h hfx
    refine ⟨?_, fun _ => ⟨by unfold needs; rw [hfx, if_neg (by decide)]; exact h, h1⟩⟩
    rw [h2]; unfold dropped
    constructor
    · exact Or.inr
    · rintro (⟨k1, k2⟩ | k)
      · rcases c with c | c
        · exact absurd c k1
        · exact absurd k2 c
      · exact k
  · rw [if_neg c] at h
    injection h with h
    refine ⟨⟨fun _ => Or.inl ?_, fun _ => h.symm⟩, fun hn => absurd h.symm hn⟩
    exact ⟨fun hh => c (Or.inl hh), by_contra fun hh => c (Or.inr hh)⟩

theorem neededUnits_dropped {tag : Nat} {g : Genus} {v : Val} (h : dropped tag g v) : neededUnits tag g v = .ok 0 := by
  unfold neededUnits
  rcases h with ⟨h1, h2⟩ | rfl
  · rw [if_neg (by rintro (k | k); exacts [h1 k, k h2])]
  · split_ifs <;> rfl

theorem nested_none_genus {g : Genus} (hf : (Val.nested none).fits g) : g = .nested := by
  simpa [Val.fits] using hf

theorem estimate_error {tag : Nat} {g : Genus} {v : Val} {e : Exc} (h : neededUnits tag g v = .error e) : v.estimate = .error e := by
  unfold neededUnits at h
  split_ifs at h
  exact h

/-- Setting a stretchy field that is present in the index or preplaced. -/
theorem setStretchyAt_spec {σ : Sch} {F : Fix} {s : RW} {g : Genus} {v : Val} {tag a : Nat} (h : WF σ s) (hb : Benign F s g v)
    (hg : tag2genus tag = g) (hf : v.fits g) (hfx : g.isFixed = false) (ha : FieldAt σ s a g)
    (hlp : if isLoose tag then s.live a else s.pivot ≤ a) :
    (assignStretchy F s tag (some a) g v).Sat (2047 < s.jv + lenOf σ s a)
      (fun e s' => (s' = s ∧ Failure s g v true e ∧ ¬ dropped tag g v) ∨
        (¬ isLoose tag ∧ dropped tag g v ∧ e = .insufficientSpace 1 0 ∧ s.head = 0 ∧ (∀ x, s.hole x → s.units x ≠ 0) ∧
          s' = if F.rel then s else { s with jv := s.jv + lenOf σ s a }))
      (fun _ s' => StretchyPost σ s s' a g v (dropped tag g v)) := by
  unfold assignStretchy
  rw [if_neg (by rw [hg]; exact fun h => h rfl)]
  cases hn : neededUnits tag g v with
  | error e => exact Or.inl ⟨rfl, Failure.tooLong hfx (estimate_error hn), fun hd => by rw [neededUnits_dropped hd] at hn; cases hn⟩
  | ok n =>
    obtain ⟨hn0, hn1⟩ := needed_drop hf hfx hn
    have ho := ha.owner
    have hlt := ho.lt_base
    show (if isLoose tag ∧ (a ≥ s.pivot ∨ cellGenus (s.mem a) ≠ g) then _ else _ : Out _).Sat _ _ _
    rw [if_neg (by
      rintro ⟨k1, k2⟩
      rw [if_pos k1] at hlp
      rcases ha with ha | ha
      · rcases k2 with k2 | k2
        · have := hlp.2.1; omega
        · exact k2 ha.2
      · have := hlp.2.1; have := ha.1; omega)]
    have written : ∀ (s1 : RW) p, n ≠ 0 → ReallocPost s s1 (lenOf σ s) (fun _ => 0) a n p → Canon s1 →
        StretchyPost σ s (RW.withMem s1 (v.write s1.mem p)) a g v (dropped tag g v) := by
      intro s1 p h0 post c1
      have hnd : ¬ dropped tag g v := fun hd => h0 (hn0.2 hd)
      obtain ⟨hneeds, _⟩ := hn1 h0
      have hpos : 0 < n := by omega
      obtain ⟨k1, k2, k3, k4, k5, k6⟩ := owner_write h post c1 ha hf hneeds hpos
      refine ⟨k1, k2, fun hd => absurd hd hnd, fun _ => ⟨k3, by rw [k4, k5], ?_⟩⟩
      have k4' : (v.write s1.mem p) a = s1.mem a := k4
      have hst := post.start
      refine valueAt_written hf hneeds hpos (by rw [k4']; exact hst) ?_
      have e : s1.start a = a + (s1.mem a).lo := rfl
      omega
    by_cases c0 : (s.mem a).lo ≠ 0
    · rw [if_pos c0]
      have hlen : lenOf σ s a = brutto g s.mem (s.start a) := by
        rw [ha.len]; unfold fieldUnits
        rw [hfx, if_neg (by decide), if_neg c0]
      have hpos : 0 < lenOf σ s a := h.pos a g ⟨hfx, ha⟩ c0
      show (if n ≠ brutto g s.mem (s.start a) then _ else _ : Out _).Sat _ _ _
      rw [← hlen]
      by_cases c1 : n ≠ lenOf σ s a
      · rw [if_pos c1]
        by_cases c2 : n = 0
        · rw [if_pos c2]
          have hd := hn0.1 c2
          by_cases c3 : isLoose tag
          · rw [if_pos c3]
            rw [if_pos c3] at hlp
            have key := release_spec h hlp
            cases hr : releaseLoose s a (lenOf σ s a) with
            | ub => rw [hr] at key; exact key
            | exc e s' => rw [hr] at key; exact key.elim
            | ok u t =>
              rw [hr] at key
              obtain ⟨k1, k2, k3, _⟩ := key
              refine ⟨k1, k2, fun _ => Or.inl (Or.inl ?_), fun hd' => absurd hd hd'⟩
              rintro (k | k)
              · exact k3 k
              · have := k2.pivot; have := hlp.2.1; omega
          · rw [if_neg c3]
            rw [if_neg c3] at hlp
            have key := detach_spec F h ⟨hlp, hlt⟩ hpos
            cases hr : releaseDataF F s (s.start a) (lenOf σ s a) with
            | ub => rw [hr] at key; exact key
            | exc e s' => rw [hr] at key; exact Or.inr ⟨c3, hd, key⟩
            | ok u t =>
              rw [hr] at key
              obtain ⟨k1, k2, k3⟩ := key
              refine ⟨k1, k2, fun _ => Or.inl (Or.inr ⟨Or.inr ⟨?_, ?_⟩, hlp, ?_⟩), fun hd' => absurd hd hd'⟩
              · rw [k2.pivot]; exact hlp
              · rw [k2.base]; exact hlt
              · rw [k3]
        · rw [if_neg c2]
          obtain ⟨hneeds, h16⟩ := hn1 c2
          have key := reallocData_spec h.inv h.canon F.swap ho hpos (needed := n) (by omega) h16 (fun hh => c1 hh.symm)
          cases hr : reallocDataWith F.swap s a (lenOf σ s a) n with
          | ub => rw [hr] at key; exact key
          | exc e s' =>
            rw [hr] at key
            exact Or.inl ⟨key.1, Failure.realloc n rfl hneeds (by omega) key.2, fun hd => c2 (hn0.2 hd)⟩
          | ok p s1 =>
            rw [hr] at key
            have hc : Canon s1 := key.2 (by
              rcases hb.swap with k | k | k | k
              · exact Or.inl k
              · exact Or.inr (Or.inl k)
              · exact Or.inr (Or.inr (Or.inr k))
              · rw [hfx] at k; cases k)
            exact written s1 p c2 key.1 hc
      · rw [if_neg c1]
        have c1 : n = lenOf σ s a := by omega
        exact written s (s.start a) (by omega) (same_space h ho c1.symm) h.canon
    · rw [if_neg c0]
      have c0 : (s.mem a).lo = 0 := by omega
      by_cases c2 : n = 0
      · rw [if_pos c2]
        have hd := hn0.1 c2
        exact ⟨h, Others.refl σ s a, fun _ => Or.inr ⟨rfl, c0⟩, fun hd' => absurd hd hd'⟩
      · rw [if_neg c2]
        obtain ⟨hneeds, h16⟩ := hn1 c2
        have hlen : lenOf σ s a = 0 := by
          rw [ha.len]; unfold fieldUnits
          rw [hfx, if_neg (by decide), if_pos c0]
        have key := attach_spec (n := n) h ho hlen (by omega)
        cases hr : allocData s n with
        | ub => rw [hr] at key; exact key.elim
        | exc e s' =>
          rw [hr] at key
          obtain ⟨k1, k2, k3⟩ := key
          exact Or.inl ⟨k1, Failure.realloc n rfl hneeds (by omega) ⟨⟨0, k2, by omega, fun _ => k3.1⟩, Or.inl k3⟩, fun hd => c2 (hn0.2 hd)⟩
        | ok p s1 =>
          rw [hr] at key
          exact written (s1.setPayload a p) p c2 key.1 key.2

/-- Setting a loose stretchy field. -/
theorem setLooseStretchy_spec {σ : Sch} {F : Fix} {s : RW} {g : Genus} {v : Val} {tag : Nat} (h : WF σ s) (hb : Benign F s g v)
    (hg : tag2genus tag = g) (hf : v.fits g) (hfx : g.isFixed = false) (hl : isLoose tag = true) :
    (assignStretchy F s tag (s.lookup (tag % 65536)) g v).Sat (2047 < s.jv + (s.lookup (tag % 65536)).elim 0 (lenOf σ s))
      (fun e s' => s' = s ∧ Failure s g v (s.lookup (tag % 65536)).isSome e)
      (fun _ s' => SetPost σ s s' (tag % 65536) g v (dropped tag g v)) := by
  have hw : tag % 65536 / 2048 ≠ 31 := tag_not_hole (by rw [hg]; exact fits_not_hole hf)
  cases hlk : s.lookup (tag % 65536) with
  | none =>
    unfold assignStretchy
    rw [if_neg (by rw [hg]; exact fun h => h rfl)]
    cases hn : neededUnits tag g v with
    | error e => exact ⟨rfl, Failure.tooLong hfx (estimate_error hn)⟩
    | ok n =>
      obtain ⟨hn0, hn1⟩ := needed_drop hf hfx hn
      show (if n = 0 then _ else _ : Out _).Sat _ _ _
      by_cases c : n = 0
      · rw [if_pos c]
        have hnl : ¬ s.live s.base := fun hl => by have := hl.2.1; have : s.base = s.pivot + s.pre := rfl; omega
        exact ⟨h, s.base, Others.refl σ s _, Or.inr le_rfl, Or.inl ⟨hlk, hnl⟩, fun _ => Or.inl hnl, fun hd => absurd (hn0.1 c) hd⟩
      · rw [if_neg c]
        obtain ⟨hneeds, h16⟩ := hn1 c
        have hnd : ¬ dropped tag g v := fun hd => c (hn0.2 hd)
        have key := allocLoose_wf h hb hg hf hneeds
        cases hr : allocLooseWith F.loose s tag n with
        | ub => rw [hr] at key; exact key.elim
        | exc e s' => rw [hr] at key; exact ⟨key.1, Failure.loose _ rfl hneeds key.2⟩
        | ok a s1 =>
          rw [hr] at key
          obtain ⟨k1, k2, k3, k4, k5, k6⟩ := new_payload h hg hf hneeds (by omega) key.1 key.2
          exact ⟨k1, a, k2, Or.inl (k2.pivot ▸ k4.2.1), Or.inl ⟨hlk, k3⟩, fun hd => absurd hd hnd, fun _ => ⟨k4, k5, k6⟩⟩
  | some a =>
    obtain ⟨⟨hla, hword⟩, _⟩ := (lookup_some hw).1 hlk
    have hlt' := hla.2.1
    have hcg := word_genus hg hword
    refine (setStretchyAt_spec h hb hg hf hfx (Or.inl ⟨hla, hcg⟩) (by rw [if_pos hl]; exact hla)).mono id ?_ ?_
    · rintro e s' (k | k)
      · exact ⟨k.1, k.2.1⟩
      · exact absurd hl k.1
    · rintro _ s' ⟨k1, k2, k3, k4⟩
      refine ⟨k1, a, k2, Or.inl hlt', Or.inr hlk, fun hd => ?_, fun hd => ?_⟩
      · rcases k3 hd with (k | k) | k
        · exact Or.inl fun hh => k (Or.inl hh)
        · have := hla.2.1; have := k.2.1; omega
        · exact Or.inr ⟨k.1, hla, hfx, k.2⟩
      · obtain ⟨h1, h2, h3⟩ := k4 hd
        refine ⟨?_, by rw [h2, hword], h3⟩
        rcases h1 with h1 | h1
        · exact h1.1
        · have := k2.pivot; have := h1.1; have := hla.2.1; omega

end Fptu.Rw
