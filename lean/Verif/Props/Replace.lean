import Verif.Lemmas.Replace
import Verif.Props.Exact
import Verif.Props.TupleDefects
/-!
# C79: assigning a field again — the last value wins byte for byte, a value of the same size is replaced in place, a shorter one needs no data space
-/
namespace Fptu.Props
open Fptu Fptu.Gear Fptu.Rw

private theorem needs_iff {g : Genus} {v : Val} {n : Nat} : unitsFor g v = some n ↔ needs g v n := by
  unfold unitsFor needs
  cases g.isFixed with
  | true => simp only [if_true]; exact ⟨fun h => (Option.some.inj h).symm, fun h => by rw [h]⟩
  | false =>
    rw [if_neg (by decide), if_neg (by decide)]
    cases v.estimate with
    | ok k => exact ⟨fun h => by rw [Option.some.inj h], fun h => by rw [Except.ok.inj h]⟩
    | error e => exact ⟨fun h => (by cases h), fun h => (by cases h)⟩

private theorem benign_same {F : Fix} {s : RW} {g : Genus} {v w : Val} {tag : Nat} (hu : unitsFor g v = unitsFor g w)
    (hb : StepBenign F s (.set tag g v)) : StepBenign F s (.set tag g w) := by
  refine ⟨⟨?_, hb.1.swap⟩, hb.2⟩
  rcases hb.1.loose with k | k
  · exact Or.inl k
  · exact Or.inr fun n hn => k n (needs_iff.1 (hu.trans (needs_iff.2 hn)))

private theorem bind_ok {o : Out (Option Nat)} {t : RW} (e : (o.bind fun _ s => Out.ok () s) = .ok () t) : ∃ r, o = .ok r t := by
  cases o with
  | ok r u => injection e with _ e; exact ⟨r, by rw [e]⟩
  | exc x u => cases e
  | ub => cases e

private theorem slot_field {σ : Sch} {s : RW} {tag : Nat} {g : Genus} (hs : StretchySlot σ s.pre tag g) : FieldAt σ s (s.pivot + tag2offset tag / 4) g := by
  have h1 := hs.1
  have hbase : s.base = s.pivot + s.pre := rfl
  exact Or.inr ⟨by omega, by omega, by rw [show s.pivot + tag2offset tag / 4 - s.pivot = tag2offset tag / 4 by omega]; exact hs.2⟩

/-- **C79 (partial: the last value wins).** Assigning `v` to a field (loose or preplaced, of any type) and then `w`, which takes as much
space, gives exactly the tuple, byte for byte, that assigning `w` alone gives, and both succeed: nothing of `v` remains and no space is
lost. For the values that are stored (an empty value assigned to a field without NULLs erases the field, C11). Missing for the code as it is:
states in which a defect of `src/gear.cxx` shows (see C12). -/
theorem C79_last_partial {F : Fix} {σ : Sch} {s t : RW} {tag : Nat} {g : Genus} {v w : Val} (h : Reachable F σ s) (hf : v.fits g = true)
    (hf' : w.fits g = true) (hg : tag2genus tag = g) (ht : TokenOk σ s.pre tag)
    (hb : StepBenign F s (.set tag g v)) (hd : ¬ dropped tag g v) (hd' : ¬ dropped tag g w) (hu : unitsFor g v = unitsFor g w)
    (e : setField F s tag g v = .ok () t) :
    setField F t tag g w = setField F s tag g w ∧ ∃ u, setField F s tag g w = .ok () u := by
  have ht2 := preplaced_not_loose tag
  unfold setField at e ⊢
  cases hp : isPreplaced tag with
  | true =>
    have hnl : isLoose tag = false := by rw [hp] at ht2; simpa using ht2.symm
    have hslot := ht.2 hp
    rw [hg] at hslot
    rw [hp, if_pos rfl] at e
    rw [if_pos rfl, if_pos rfl]
    cases hfx : g.isFixed with
    | true =>
      rw [hfx, if_pos rfl] at e
      unfold assignPreplacedFixed at e ⊢
      rw [if_neg (fun k => k hg)] at e
      rw [if_pos rfl, if_pos rfl, if_neg (fun k => k hg), if_neg (fun k => k hg)]
      refine ⟨?_, _, rfl⟩
      injection e with _ e
      rw [← e]
      show Out.ok () (RW.withMem s ((s.mem.writeBytes (4 * s.pivot + tag2offset tag) (v.bytes g)).writeBytes (4 * s.pivot + tag2offset tag) (w.bytes g))) = _
      rw [Memory.writeBytes_over _ ((bytes_length hf hfx).trans (bytes_length hf' hfx).symm) (bytes_ok hf) (bytes_ok hf')]
    | false =>
      rw [hfx, if_neg (by decide)] at e hslot
      rw [if_neg (by decide), if_neg (by decide)]
      obtain ⟨r, e⟩ := bind_ok e
      have hlp : if isLoose tag then s.live (s.pivot + tag2offset tag / 4) else s.pivot ≤ s.pivot + tag2offset tag / 4 := by
        rw [hnl, if_neg (by decide)]; omega
      have hu' : ∃ n, needs g v n := by
        cases hn : neededUnits tag g v with
        | error x =>
          unfold assignStretchy at e
          rw [if_neg (fun k => k hg), hn] at e; cases e
        | ok n =>
          obtain ⟨q1, q2⟩ := needed_drop hf hfx hn
          exact ⟨n, (q2 fun k => hd (q1.1 k)).1⟩
      obtain ⟨n, hn⟩ := hu'
      have hn' : needs g w n := needs_iff.1 (hu ▸ needs_iff.2 hn)
      have kp : t.pivot = s.pivot := (stretchyAt_place h.wf hb.1 hg hf hfx (slot_field hslot) hlp hd hn e).choose_spec.choose_spec.2.2.2.2.1.pivot
      obtain ⟨q1, r', u, q2⟩ := stretchyAt_over h.wf hb.1 hg hf hf' hfx (slot_field hslot) hlp hd hd' hn hn' e
      rw [kp, q1, q2]
      exact ⟨rfl, u, rfl⟩
  | false =>
    have hl : isLoose tag = true := by rw [hp] at ht2; simpa using ht2.symm
    rw [hp] at e
    simp only [Bool.false_eq_true, if_false] at e ⊢
    cases hc : isLooseCollection tag with
    | true => rw [hc, if_pos rfl] at e; cases e
    | false =>
      rw [hc] at e
      simp only [Bool.false_eq_true, if_false, gid_eq] at e ⊢
      cases hfx : g.isFixed with
      | true =>
        rw [hfx] at e
        simp only [if_true] at e ⊢
        obtain ⟨r, e⟩ := bind_ok e
        obtain ⟨q1, r', u, q2⟩ := looseFixed_over h.wf hb.1 hg hf hf' hfx hd hd' e
        rw [q1, q2]
        exact ⟨rfl, u, rfl⟩
      | false =>
        rw [hfx] at e
        simp only [Bool.false_eq_true, if_false] at e ⊢
        obtain ⟨r, e⟩ := bind_ok e
        have hu' : ∃ n, needs g v n := by
          cases hn : neededUnits tag g v with
          | error x =>
            unfold assignStretchy at e
            rw [if_neg (fun k => k hg), hn] at e; cases e
          | ok n =>
            obtain ⟨q1, q2⟩ := needed_drop hf hfx hn
            exact ⟨n, (q2 fun k => hd (q1.1 k)).1⟩
        obtain ⟨n, hn⟩ := hu'
        obtain ⟨q1, r', u, q2⟩ := looseStretchy_over h.wf hb.1 hg hf hf' hfx hl hd hd' hn (needs_iff.1 (hu ▸ needs_iff.2 hn)) e
        rw [q1, q2]
        exact ⟨rfl, u, rfl⟩

/-- **C79 (partial: assigning twice is assigning once).** The second assignment of the same value succeeds and changes not a byte. -/
theorem C79_again_partial {F : Fix} {σ : Sch} {s t : RW} {tag : Nat} {g : Genus} {v : Val} (h : Reachable F σ s) (hf : v.fits g = true)
    (hg : tag2genus tag = g) (ht : TokenOk σ s.pre tag) (hb : StepBenign F s (.set tag g v)) (hd : ¬ dropped tag g v)
    (e : setField F s tag g v = .ok () t) : setField F t tag g v = .ok () t := by
  rw [(C79_last_partial h hf hf hg ht hb hd hd rfl e).1, e]

/-- **C79 (partial: restoring a value).** Replacing `v` by `w`, which takes as much space, and `w` by `v` again restores the tuple byte for byte; the two
assignments cannot fail. -/
theorem C79_undo_partial {F : Fix} {σ : Sch} {s t : RW} {tag : Nat} {g : Genus} {v w : Val} (h : Reachable F σ s) (hf : v.fits g = true)
    (hf' : w.fits g = true) (hg : tag2genus tag = g) (ht : TokenOk σ s.pre tag)
    (hb : StepBenign F s (.set tag g v)) (hd : ¬ dropped tag g v) (hd' : ¬ dropped tag g w) (hu : unitsFor g v = unitsFor g w)
    (e : setField F s tag g v = .ok () t) : ∃ u, setField F t tag g w = .ok () u ∧ setField F u tag g v = .ok () t := by
  obtain ⟨q1, u, q2⟩ := C79_last_partial h hf hf' hg ht hb hd hd' hu e
  exact ⟨u, q1.trans q2, by rw [(C79_last_partial h hf' hf hg ht (benign_same hu hb) hd' hd hu.symm q2).1, e]⟩

/-- The field of the token is present and `a` is its entry: of a loose field in the index, of a preplaced field of variable length the
unit with the reference. -/
def HeldAt (s : RW) (tag : Nat) (g : Genus) (a : Nat) : Prop :=
  (isLoose tag = true ∧ isLooseCollection tag = false ∧ s.lookup (tag2gid tag) = some a ∧ (g.isFixed = false → (s.mem a).lo ≠ 0)) ∨
  (isPreplaced tag = true ∧ g.isFixed = false ∧ a = s.pivot + tag2offset tag / 4 ∧ (s.mem a).lo ≠ 0)

private theorem held_field {σ : Sch} {s : RW} {tag a : Nat} {g : Genus} (hg : tag2genus tag = g) (ht : TokenOk σ s.pre tag) (hp : HeldAt s tag g a) :
    FieldAt σ s a g ∧ ¬ (isLoose tag ∧ (a ≥ s.pivot ∨ cellGenus (s.mem a) ≠ g)) := by
  have ht2 := preplaced_not_loose tag
  rcases hp with ⟨h1, h2, h3, h4⟩ | ⟨h1, h2, h3, h4⟩
  · rw [gid_eq] at h3
    obtain ⟨⟨hl, hword⟩, _⟩ := (lookup_some (tag_not_hole (by rw [hg]; rw [← hg]; exact ht.1))).1 h3
    have hcg := word_genus hg hword
    refine ⟨Or.inl ⟨hl, hcg⟩, ?_⟩
    rintro ⟨_, k | k⟩
    · have := hl.2.1; omega
    · exact k hcg
  · have hslot := ht.2 h1
    rw [hg, h2, if_neg (by decide)] at hslot
    refine ⟨h3 ▸ slot_field hslot, ?_⟩
    rintro ⟨k, _⟩
    rw [h1, k] at ht2
    cases ht2

private theorem held_set {F : Fix} {s : RW} {tag a : Nat} {g : Genus} {w : Val} (hp : HeldAt s tag g a) (hfx : g.isFixed = false) :
    setField F s tag g w = (assignStretchy F s tag (some a) g w).bind fun _ s => .ok () s := by
  have ht2 := preplaced_not_loose tag
  unfold setField
  rcases hp with ⟨h1, h2, h3, h4⟩ | ⟨h1, h2, h3, h4⟩
  · rw [h1] at ht2
    rw [ht2, h2, hfx, h3]
    rfl
  · rw [h1, hfx, h3]
    rfl

/-- **C79 (replacing in place).** A present field is assigned a value that takes as much space as the present one: this always succeeds, in every
tuple that any history produces; nothing is allocated or released, and only the cells of the value itself change (of a value of at most 16 bits,
the index entry that holds it). -/
theorem C79_inplace {F : Fix} {σ : Sch} {s : RW} {tag a : Nat} {g : Genus} {w : Val} (h : Reachable F σ s) (hf : w.fits g = true)
    (hg : tag2genus tag = g) (ht : TokenOk σ s.pre tag) (hp : HeldAt s tag g a) (hd : ¬ dropped tag g w)
    (hu : unitsFor g w = some (fieldUnits s.mem g a)) :
    ∃ m, setField F s tag g w = .ok () { s with mem := m } ∧
      (∀ u, (u < a + (s.mem a).lo ∨ a + (s.mem a).lo + fieldUnits s.mem g a ≤ u) → (g.isInplaced = true → u ≠ a) → m u = s.mem u) ∧
      (g.isInplaced = true → (m a).hi = (s.mem a).hi) := by
  obtain ⟨hfa, hlp⟩ := held_field hg ht hp
  cases hfx : g.isFixed with
  | true =>
    rcases hp with ⟨h1, h2, h3, h4⟩ | ⟨h1, h2, h3, h4⟩
    · have ht2 := preplaced_not_loose tag
      rw [h1] at ht2
      have hr : fieldUnits s.mem g a = g.looseUnits := by unfold fieldUnits; rw [hfx, if_pos rfl]
      obtain hl | hl := hfa
      · have e : setField F s tag g w = .ok () (fixedPut s a g w) := by
          unfold setField
          rw [ht2, h2, hfx, h3]
          show Out.bind (assignLooseFixed F s tag (some a) g w) _ = _
          rw [assignFixed_found hg hl.1.2.1 hl.2 (fun k => hd (Or.inl k))]
          rfl
        rcases fixed_cases hf hfx with ⟨x, rfl⟩ | ⟨cs, rfl⟩
        · refine ⟨_, e, fun u _ hne => ?_, fun _ => ?_⟩
          · show (s.setLo a (inlineStore g x)).mem u = _
            exact Memory.set_ne _ _ (hne (fits_inline hf).1)
          · show ((s.setLo a (inlineStore g x)).mem a).hi = _
            exact (congrArg Cell.hi (Memory.set_same s.mem a ⟨inlineStore g x, (s.mem a).hi⟩) : _)
        · have hn : needs g (.units cs) g.looseUnits := by unfold needs; rw [hfx, if_pos rfl]
          refine ⟨_, e, fun u hu' _ => ?_, fun hi => ?_⟩
          · rw [hr] at hu'
            exact (write_spec hf hn (fits_units hf).2.2.2.1 s.mem (s.start a)).1 u hu'
          · have := (fits_units hf).2.2.2.1; have := (inplaced_facts g hi).2; omega
      · unfold isLoose at hlp
        exact absurd ⟨h1, Or.inl hl.1⟩ hlp
    · rw [h2] at hfx; cases hfx
  | false =>
    have h0 : (s.mem a).lo ≠ 0 := by
      rcases hp with ⟨_, _, _, h4⟩ | ⟨_, _, _, h4⟩
      · exact h4 hfx
      · exact h4
    have hn := needs_iff.1 hu
    have hpos := needed_pos hf hfx hd hn
    have hbr : brutto g s.mem (s.start a) = fieldUnits s.mem g a := by unfold fieldUnits; rw [hfx, if_neg (by decide), if_neg h0]
    refine ⟨w.write s.mem (s.start a), ?_, fun u hu' _ => (write_spec hf hn hpos s.mem (s.start a)).1 u hu', fun hi => ?_⟩
    · rw [held_set hp hfx, stretchy_inplace hg hfx hd hn hlp h0 hbr]
      rfl
    · have := (inplaced_facts g hi).1; rw [hfx] at this; cases this

/-- **C79 (partial: shortening).** Assigning a shorter value (a text, a byte string, a property, a nested tuple) to a present field of variable length
succeeds however full the data area is. The only failure is `insufficient_space` in a tuple whose index has no entry left, neither unused nor vacant, for a
value that is not the last one in the data area, and it leaves the tuple as it was. In full, that shortening always succeeds, it is false
(`C79_shorter_refuted`); missing are tuples where the junk and the old value have more than 2047 units, since for them an assertion may fail (C12). -/
theorem C79_shorter_partial {F : Fix} {σ : Sch} {s : RW} {tag a n : Nat} {g : Genus} {w : Val} (h : Reachable F σ s) (hf : w.fits g = true)
    (hg : tag2genus tag = g) (ht : TokenOk σ s.pre tag) (hp : HeldAt s tag g a) (hd : ¬ dropped tag g w)
    (hn : unitsFor g w = some n) (hl : n < fieldUnits s.mem g a) (hsmall : s.jv + fieldUnits s.mem g a ≤ 2047) :
    (∃ t, setField F s tag g w = .ok () t) ∨
    (setField F s tag g w = .exc (.insufficientSpace 1 n) s ∧ s.head = 0 ∧
      (∀ b < s.pivot, (s.mem b).hi / 2048 = 31 → (s.mem b).hi % 2048 ≠ 0) ∧ a + (s.mem a).lo + fieldUnits s.mem g a ≠ s.tail) := by
  obtain ⟨hfa, hlp⟩ := held_field hg ht hp
  have hn := needs_iff.1 hn
  cases hfx : g.isFixed with
  | true =>
    unfold needs at hn
    unfold fieldUnits at hl
    rw [hfx, if_pos rfl] at hn hl
    omega
  | false =>
    have h0 : (s.mem a).lo ≠ 0 := by
      rcases hp with ⟨_, _, _, h4⟩ | ⟨_, _, _, h4⟩
      · exact h4 hfx
      · exact h4
    have hpos := needed_pos hf hfx hd hn
    have hbr : brutto g s.mem (s.start a) = fieldUnits s.mem g a := by unfold fieldUnits; rw [hfx, if_neg (by decide), if_neg h0]
    have hlen : lenOf σ s a = fieldUnits s.mem g a := hfa.len
    have key := reallocShrink h.wf.inv h.wf.canon F.swap hfa.owner hpos (by rw [hlen]; exact hl)
    rw [hlen] at key
    have path : assignStretchy F s tag (some a) g w =
        (reallocDataWith F.swap s a (fieldUnits s.mem g a) n).bind fun p s => .ok (some a) (RW.withMem s (w.write s.mem p)) := by
      unfold assignStretchy
      rw [if_neg (fun h => h hg), needed_of hfx hd hn]
      show (if isLoose tag ∧ (a ≥ s.pivot ∨ cellGenus (s.mem a) ≠ g) then _ else _ : Out _) = _
      rw [if_neg hlp, if_pos h0]
      show (if n ≠ brutto g s.mem (s.start a) then _ else _ : Out _) = _
      rw [hbr, if_pos (by omega), if_neg (by omega)]
    rw [held_set hp hfx, path]
    cases hr : reallocDataWith F.swap s a (fieldUnits s.mem g a) n with
    | ub =>
      rw [hr] at key
      have key : 2047 < s.jv + fieldUnits s.mem g a := key
      omega
    | ok p t => exact Or.inl ⟨_, rfl⟩
    | exc e s' =>
      rw [hr] at key
      obtain ⟨k1, k2, k3, k4, k5⟩ := key
      exact Or.inr ⟨by rw [k1, k2]; rfl, k3, fun b hb hh => k4 b ⟨by omega, hb, hh⟩, k5⟩

/-! ## Cases that meet the hypotheses -/

/-- Two nested tuples in an index for two fields. -/
def twoN : List Op := [setN 1 5, setN 2 3]

/-- The tuple of `goodOps` (fields of several types, vacant entries and holes) with the nested tuple `2` of 5 units assigned. -/
theorem replace_case : ∃ s t, Reachable .code noPre s ∧ setField .code s (nst 2) .nested (nstVal 5 9) = .ok () t ∧ s.jv ≠ 0 ∧
    (∃ u, setField .code t (nst 2) .nested (nstVal 5 4) = .ok () u ∧ setField .code u (nst 2) .nested (nstVal 5 9) = .ok () t) ∧
    setField .code t (nst 2) .nested (nstVal 5 9) = .ok () t := by
  obtain ⟨s, hr, hs⟩ := run_decide (F := .code) (s := fresh 8 60) (ops := goodOps)
    (fun s => decide (s.jv ≠ 0) && stepBenignB .code s (.set (nst 2) .nested (nstVal 5 9)) &&
      (match setField .code s (nst 2) .nested (nstVal 5 9) with | .ok _ _ => true | _ => false)) (by decide +kernel)
  simp only [Bool.and_eq_true, decide_eq_true_eq] at hs
  obtain ⟨⟨h1, h2⟩, h3⟩ := hs
  have hre : Reachable .code noPre s := (fresh_ok (by decide) (by decide)).reachable (opOk_of (by decide +kernel)) (runBenign_of (by decide +kernel)) hr
  have hb := stepBenign_of h2
  have ht : TokenOk noPre s.pre (nst 2) := ⟨by decide, fun k => absurd k (by decide)⟩
  cases hx : setField .code s (nst 2) .nested (nstVal 5 9) with
  | ub => rw [hx] at h3; cases h3
  | exc e t => rw [hx] at h3; cases h3
  | ok r t =>
    refine ⟨s, t, hre, hx, h1, ?_, ?_⟩
    · exact C79_undo_partial hre (by decide) (by decide) (by decide) ht hb (by unfold dropped; decide) (by unfold dropped; decide) (by decide) hx
    · exact C79_again_partial hre (by decide) (by decide) ht hb (by unfold dropped; decide) hx

/-- **C79 (refuted in full).** Replacing a value by a shorter one may fail, although it needs no space: in a tuple created for two fields, with two
nested tuples of 5 and 3 units and 50 units free, the first one cannot be replaced by one of 3 units. -/
theorem C79_shorter_refuted : ∃ (s : RW) (w : Val), Reachable .code noPre s ∧ s.lim - s.tail = 50 ∧ w.fits .nested = true ∧
    unitsFor .nested w = some 3 ∧ (∃ a, HeldAt s (nst 1) .nested a ∧ fieldUnits s.mem .nested a = 5) ∧
    setField .code s (nst 1) .nested w = .exc (.insufficientSpace 1 3) s := by
  obtain ⟨s, hr, hs⟩ := run_decide (F := .code) (s := fresh 2 60) (ops := twoN)
    (fun s => decide (s.lim - s.tail = 50) && decide (s.lookup (tag2gid (nst 1)) = some 1) && decide ((s.mem 1).lo ≠ 0) && decide (s.lim = 60) && decide (s.jv = 0) &&
      decide (fieldUnits s.mem .nested 1 = 5) &&
      (match setField .code s (nst 1) .nested (nstVal 3 7) with | .exc (.insufficientSpace 1 3) _ => true | _ => false)) (by decide +kernel)
  simp only [Bool.and_eq_true, decide_eq_true_eq] at hs
  obtain ⟨⟨⟨⟨⟨⟨h1, h2⟩, h3⟩, h4⟩, h5⟩, h6⟩, h7⟩ := hs
  have hre : Reachable .code noPre s := (fresh_ok (by decide) (by decide)).reachable (opOk_of (by decide +kernel)) (runBenign_of (by decide +kernel)) hr
  have hh : HeldAt s (nst 1) .nested 1 := Or.inl ⟨by decide, by decide, h2, fun _ => h3⟩
  refine ⟨s, nstVal 3 7, hre, h1, by decide, by decide, ⟨1, hh, h6⟩, ?_⟩
  have key := C79_shorter_partial (F := .code) (w := nstVal 3 7) (n := 3) hre (by decide) (by decide)
    ⟨by decide, fun k => absurd k (by decide)⟩ hh (by unfold dropped; decide) (by decide) (by rw [h6]; decide) (by
      have := hre.wf.inv.tl
      omega)
  rcases key with ⟨t, k⟩ | k
  · rw [k] at h7; cases h7
  · exact k.1

/-- In the same tuple the last value can be shortened, and both can be replaced in place. -/
example : ∃ s, Reachable .code noPre s ∧ s.head = 0 ∧ (∃ t, setField .code s (nst 2) .nested (nstVal 2 7) = .ok () t) ∧
    (∃ m, setField .code s (nst 1) .nested (nstVal 5 7) = .ok () { s with mem := m } ∧ ∀ u < 2, m u = s.mem u) := by
  obtain ⟨s, hr, hs⟩ := run_decide (F := .code) (s := fresh 2 60) (ops := twoN)
    (fun s => decide (s.lookup (tag2gid (nst 1)) = some 1) && decide (s.lookup (tag2gid (nst 2)) = some 0) && decide ((s.mem 1).lo ≠ 0) &&
      decide ((s.mem 0).lo ≠ 0) && decide (s.head = 0) && decide (s.lim = 60) && decide (1 < 1 + (s.mem 1).lo) &&
      decide (fieldUnits s.mem .nested 1 = 5) && decide (fieldUnits s.mem .nested 0 = 3) && decide (0 + (s.mem 0).lo + 3 = s.tail) && decide (s.jv = 0)) (by decide +kernel)
  simp only [Bool.and_eq_true, decide_eq_true_eq] at hs
  obtain ⟨⟨⟨⟨⟨⟨⟨⟨⟨⟨h1, h2⟩, h3⟩, h4⟩, h5⟩, h6⟩, h7⟩, h8⟩, h9⟩, h10⟩, h11⟩ := hs
  have hre : Reachable .code noPre s := (fresh_ok (by decide) (by decide)).reachable (opOk_of (by decide +kernel)) (runBenign_of (by decide +kernel)) hr
  have ht : ∀ k < 3, TokenOk noPre s.pre (nst k) := fun k hk =>
    ⟨by have : ∀ k < 3, tag2genus (nst k) ≠ .hole := by decide
        exact this k hk, fun q => absurd q (by have : ∀ k < 3, ¬ isPreplaced (nst k) = true := by decide
                                               exact this k hk)⟩
  refine ⟨s, hre, h5, ?_, ?_⟩
  · rcases C79_shorter_partial (F := .code) (w := nstVal 2 7) (n := 2) hre (by decide) (by decide) (ht 2 (by decide))
      (Or.inl ⟨by decide, by decide, h2, fun _ => h4⟩ : HeldAt s (nst 2) .nested 0) (by unfold dropped; decide) (by decide) (by rw [h9]; decide)
      (by rw [h9]; omega) with k | k
    · exact k
    · exact absurd h10 (by rw [h9] at k; exact k.2.2.2)
  · obtain ⟨m, k1, k2, _⟩ := C79_inplace (F := .code) (w := nstVal 5 7) hre (by decide) (by decide) (ht 1 (by decide))
      (Or.inl ⟨by decide, by decide, h1, fun _ => h3⟩ : HeldAt s (nst 1) .nested 1) (by unfold dropped; decide) (by rw [h8]; decide)
    exact ⟨m, k1, fun u hu => k2 u (Or.inl (by omega)) (fun k => absurd k (by decide))⟩

end Fptu.Props
