import Verif.Props.TupleObs
/-!
# C09, C10, C11: setting, inserting and erasing fields of a modifiable tuple
-/
namespace Fptu.Props
open Fptu Fptu.Gear Fptu.Rw

/-- What a getter returns for an absent field. -/
def absent (tag : Nat) (g : Genus) : Except Exc (Option Val) :=
  if isDiscernible tag then .error .fieldAbsent else .ok (some (.empty g))

/-! ## Outcome of a set -/

private theorem not_preplaced {tag : Nat} (h : isLoose tag = true) : isPreplaced tag = false := by
  rw [preplaced_not_loose, h]; rfl

private theorem bind_ok {α : Type} {o : Out α} {s' : RW} (h : (o.bind fun _ s => Out.ok () s) = .ok () s') : ∃ a, o = .ok a s' := by
  cases o with
  | ok a s => injection h with _ h; subst h; exact ⟨a, rfl⟩
  | exc e s => cases h
  | ub => cases h

theorem set_loose_genus {F : Fix} {s s' : RW} {tag : Nat} {g : Genus} {v : Val} (hl : isLoose tag = true)
    (hs : setField F s tag g v = .ok () s') : isLooseCollection tag = false ∧ tag2genus tag = g := by
  unfold setField at hs
  rw [if_neg (by rw [not_preplaced hl]; decide)] at hs
  by_cases hc : isLooseCollection tag = true
  · rw [if_pos hc] at hs; cases hs
  · refine ⟨by simpa using hc, ?_⟩
    by_contra hg
    have m2 : ∀ f, assignStretchy F s tag f g v = .exc .typeMismatch s := by intro f; unfold assignStretchy; rw [if_pos hg]
    have m3 : ∀ f, assignLooseFixed F s tag f g v = .exc .typeMismatch s := by intro f; unfold assignLooseFixed; rw [if_pos hg]
    rw [if_neg hc, m2, m3] at hs
    split_ifs at hs <;> cases hs

theorem set_loose_post {F : Fix} {σ : Sch} {s s' : RW} {tag : Nat} {g : Genus} {v : Val} (h : WF σ s) (hb : Benign F s g v)
    (hl : isLoose tag = true) (hf : v.fits g = true) (hs : setField F s tag g v = .ok () s') :
    SetPost σ s s' (tag % 65536) g v (dropped tag g v) := by
  obtain ⟨hc, hg⟩ := set_loose_genus hl hs
  unfold setField at hs
  rw [if_neg (by rw [not_preplaced hl]; decide), if_neg (by rw [hc]; decide), gid_eq] at hs
  cases hfx : g.isFixed with
  | true =>
    rw [hfx, if_pos rfl] at hs
    obtain ⟨a, e⟩ := bind_ok hs
    have key := setLooseFixed_spec h hb hg hf hfx
    rw [e] at key; exact key
  | false =>
    rw [hfx, if_neg (by decide)] at hs
    obtain ⟨a, e⟩ := bind_ok hs
    have key := setLooseStretchy_spec h hb hg hf hfx hl
    rw [e] at key; exact key

/-! ## C09 -/

/-- **C09 (partial), loose fields.** In every reachable tuple, a successful `set` of a loose field with a value that is
stored makes the getter return that value (for binary blobs: bytes beginning with it, see C05), exactly one stored value of
this field is new or replaced, every other loose field reads as before, and the preplaced fields are untouched.
Missing for the code as it is: steps in which a defect of `src/gear.cxx` shows (`C09_set_refuted`). For the repaired code
the hypothesis on the step is always true (`C09_set_repaired`). -/
theorem C09_set_partial {F : Fix} {σ : Sch} {s s' : RW} {tag : Nat} {g : Genus} {v : Val} (h : Reachable F σ s)
    (hl : isLoose tag = true) (hf : v.fits g = true) (hb : StepBenign F s (.set tag g v))
    (hs : setField F s tag g v = .ok () s') (hd : ¬ dropped tag g v) :
    (g ≠ .varbin → getLoose s' tag g = .ok (some v)) ∧
    (∀ b, v = .varbin b → ∃ r, getLoose s' tag .varbin = .ok (some (.varbin r)) ∧ r.take b.length = b) ∧
    (∃ rest, fieldsOf s' = (tag % 65536, some v) ::ₘ rest ∧
      (fieldsOf s = rest ∧ (∀ f ∈ fieldsOf s, f.1 ≠ tag % 65536) ∨ ∃ old, fieldsOf s = (tag % 65536, old) ::ₘ rest)) ∧
    LooseKept s s' (fun w => w ≠ tag % 65536) ∧ PreplacedKept σ s s' 0 0 := by
  obtain ⟨hc, hg⟩ := set_loose_genus hl hs
  have hnh : tag2genus tag ≠ .hole := by rw [hg]; exact fits_not_hole hf
  have hw := tag_not_hole hnh
  obtain ⟨wf', a, o, hap, hlk, _, hst⟩ := set_loose_post h.wf hb.1 hl hf hs
  obtain ⟨hla, hhi, hval⟩ := hst hd
  have hold : s.live a → (s.mem a).hi = tag % 65536 := by
    intro hh
    rcases hlk with hlk | hlk
    · exact absurd hh hlk.2
    · exact ((lookup_some hw).1 hlk).1.2
  have hlk' : s'.lookup (tag % 65536) = some a := by
    rw [lookup_some hw]
    refine ⟨⟨hla, hhi⟩, fun b hb' => ?_⟩
    by_cases hba : b = a
    · omega
    · have hb2 := (o.has hba).1 hb'
      rcases hlk with hlk | hlk
      · exact absurd hb2 ((lookup_none hw).1 hlk.1 b)
      · exact ((lookup_some hw).1 hlk).2 b hb2
  have hent : entryAt s' a = (tag % 65536, some v) := by
    unfold entryAt
    rw [word_genus hg hhi, hval, hhi]
  refine ⟨fun hv => getLoose_value hg hc hlk' hval hv, fun b hbv => ?_, ?_, LooseKept.of_others h.wf o hold fun _ => hhi,
    PreplacedKept.of_others h.wf o hap⟩
  · subst hbv
    have hgv : g = .varbin := by
      simp only [Val.fits, Bool.and_eq_true, decide_eq_true_eq] at hf
      exact hf.1
    subst hgv
    exact getLoose_varbin hg hc hlk' hval
  · by_cases hla0 : s.live a
    · obtain ⟨r, e1, e2⟩ := fields_replace h.wf o hla0 hla
      refine ⟨r, by rw [e2, hent], Or.inr ⟨(entryAt s a).2, ?_⟩⟩
      rw [e1]
      congr 1
      exact Prod.ext (hold hla0) rfl
    · refine ⟨_, by rw [fields_add h.wf o hla0 hla, hent], Or.inl ⟨rfl, ?_⟩⟩
      rcases hlk with hlk | hlk
      · exact fields_none ((lookup_none hw).1 hlk.1)
      · exact absurd ((lookup_some hw).1 hlk).1.1 hla0

/-- **C09, loose fields, dropped values (partial as above).** Setting an empty value of a field without NULLs, or an
absent nested tuple, removes the first value of the field; when it was the only one, the field reads as absent. -/
theorem C09_unset_partial {F : Fix} {σ : Sch} {s s' : RW} {tag : Nat} {g : Genus} {v : Val} (h : Reachable F σ s)
    (hl : isLoose tag = true) (hf : v.fits g = true) (hb : StepBenign F s (.set tag g v))
    (hs : setField F s tag g v = .ok () s') (hd : dropped tag g v) :
    ((fieldsOf s).countP (fun f => f.1 = tag % 65536) ≤ 1 → getLoose s' tag g = absent tag g) ∧
    (fieldsOf s' = fieldsOf s ∨ ∃ old, fieldsOf s = (tag % 65536, old) ::ₘ fieldsOf s') ∧
    LooseKept s s' (fun w => w ≠ tag % 65536) ∧ PreplacedKept σ s s' 0 0 := by
  obtain ⟨hc, hg⟩ := set_loose_genus hl hs
  have hnh : tag2genus tag ≠ .hole := by rw [hg]; exact fits_not_hole hf
  have hw := tag_not_hole hnh
  obtain ⟨wf', a, o, hap, hlk, hdr, _⟩ := set_loose_post h.wf hb.1 hl hf hs
  have hold : s.live a → (s.mem a).hi = tag % 65536 := by
    intro hh
    rcases hlk with hlk | hlk
    · exact absurd hh hlk.2
    · exact ((lookup_some hw).1 hlk).1.2
  have hnew : s'.live a → (s'.mem a).hi = tag % 65536 := by
    intro hh
    rcases hdr hd with k | k
    · exact absurd hh k
    · rw [k.1]; exact hold k.2.1
  have habs : s'.lookup (tag % 65536) = none → getLoose s' tag g = absent tag g := by
    intro e
    unfold getLoose getEntry absent
    rw [if_neg (by rw [hc]; decide), gid_eq, e, if_neg (fun h => h hg)]
  refine ⟨fun hone => ?_, ?_, LooseKept.of_others h.wf o hold hnew, PreplacedKept.of_others h.wf o hap⟩
  · rcases hdr hd with k | ⟨k1, k2, k3, k4⟩
    · apply habs
      rw [lookup_none hw]
      intro b hb'
      have hba : b ≠ a := by rintro rfl; exact k hb'.1
      have hb2 := (o.has hba).1 hb'
      rcases hlk with hlk | hlk
      · exact (lookup_none hw).1 hlk.1 b hb2
      · have ha := ((lookup_some hw).1 hlk).1
        rw [has_filter] at hone
        have := Finset.card_le_one.1 hone a (Finset.mem_filter.2 ⟨mem_liveSet.2 ha.1, ha.2⟩) b
          (Finset.mem_filter.2 ⟨mem_liveSet.2 hb2.1, hb2.2⟩)
        exact hba this.symm
    · rw [k1]
      have hlk2 : s.lookup (tag % 65536) = some a := by
        rcases hlk with hlk | hlk
        · exact absurd k2 hlk.2
        · exact hlk
      unfold getLoose
      rw [if_neg (by rw [hc]; decide), gid_eq, hlk2]
      unfold getEntry absent
      rw [if_neg (fun h => h hg : ¬ tag2genus tag ≠ g)]
      simp only
      have hni : ¬ g.isInplaced = true := by
        intro hh; have := (inplaced_facts g hh).1; rw [k3] at this; cases this
      rw [if_neg hni, if_neg (by rw [k3]; rintro (h | h); cases h; exact h k4)]
  · rcases hdr hd with k | k
    · by_cases hla : s.live a
      · right
        refine ⟨(entryAt s a).2, ?_⟩
        rw [fields_remove h.wf o hla k]
        congr 1
        exact Prod.ext (hold hla) rfl
      · exact Or.inl (fields_same h.wf o hla k)
    · rw [k.1]; exact Or.inl rfl

/-- No value is kept for a value that is not stored. -/
theorem unset_gone {F : Fix} {σ : Sch} {s s' : RW} {tag : Nat} {g : Genus} {v : Val} (h : Reachable F σ s)
    (hl : isLoose tag = true) (hf : v.fits g = true) (hb : StepBenign F s (.set tag g v))
    (hs : setField F s tag g v = .ok () s') (hd : dropped tag g v)
    (hone : (fieldsOf s).countP (fun f => f.1 = tag % 65536) ≤ 1) : ∀ f ∈ fieldsOf s', f.1 = tag % 65536 → f.2 = none := by
  obtain ⟨hc, hg⟩ := set_loose_genus hl hs
  have hnh : tag2genus tag ≠ .hole := by rw [hg]; exact fits_not_hole hf
  have hw := tag_not_hole hnh
  obtain ⟨wf', a, o, hap, hlk, hdr, _⟩ := set_loose_post h.wf hb.1 hl hf hs
  intro f hf' hfw
  unfold fieldsOf at hf'
  obtain ⟨b, hb', rfl⟩ := Multiset.mem_map.1 hf'
  have hbh : RW.has s' (tag % 65536) b := ⟨mem_liveSet.1 hb', hfw⟩
  have key : ∀ b, RW.has s (tag % 65536) b → s.lookup (tag % 65536) = some a → b = a := by
    intro b hb2 hlk
    have ha := ((lookup_some hw).1 hlk).1
    rw [has_filter] at hone
    exact Finset.card_le_one.1 hone b (Finset.mem_filter.2 ⟨mem_liveSet.2 hb2.1, hb2.2⟩) a
      (Finset.mem_filter.2 ⟨mem_liveSet.2 ha.1, ha.2⟩)
  rcases hdr hd with k | ⟨k1, k2, k3, k4⟩
  · exfalso
    have hba : b ≠ a := by rintro rfl; exact k hbh.1
    have hb2 := (o.has hba).1 hbh
    rcases hlk with hlk | hlk
    · exact (lookup_none hw).1 hlk.1 b hb2
    · exact hba (key b hb2 hlk)
  · have hlk2 : s.lookup (tag % 65536) = some a := by
      rcases hlk with hlk | hlk
      · exact absurd k2 hlk.2
      · exact hlk
    have hba : b = a := key b (by rw [k1] at hbh; exact hbh) hlk2
    rw [hba] at hfw ⊢
    show valueAt (cellGenus (s'.mem a)) s'.mem a = none
    have hfw : (s'.mem a).hi = tag % 65536 := hfw
    rw [word_genus hg hfw, k1]
    unfold valueAt
    have hni : ¬ g.isInplaced = true := by
      intro hh; have := (inplaced_facts g hh).1; rw [k3] at this; cases this
    rw [if_neg hni, if_neg (by rw [k3]; rintro (h | h); cases h; exact h k4)]

/-- **C09 for the repaired allocator**: no restriction on the history nor on the step. -/
theorem C09_set_repaired {σ : Sch} {s s' : RW} {tag : Nat} {g : Genus} {v : Val} (h : Reachable .repaired σ s)
    (hl : isLoose tag = true) (hf : v.fits g = true) (hs : setField .repaired s tag g v = .ok () s') (hd : ¬ dropped tag g v) :
    (g ≠ .varbin → getLoose s' tag g = .ok (some v)) ∧
    LooseKept s s' (fun w => w ≠ tag % 65536) ∧ PreplacedKept σ s s' 0 0 := by
  have k := C09_set_partial h hl hf (stepBenign_repaired _ _) hs hd
  exact ⟨k.1, k.2.2.2⟩

/-- **C09, preplaced fields of fixed size.** The bytes of the value are stored and read back (the designated "no value"
pattern reads as absent when NULLs are distinguished); nothing else changes. -/
theorem C09_set_preplaced_fixed {F : Fix} {σ : Sch} {s s' : RW} {tag : Nat} {g : Genus} {v : Val} (h : Reachable F σ s)
    (hp : isPreplaced tag = true) (ht : TokenOk σ s.pre tag) (hfx : g.isFixed = true) (hf : v.fits g = true)
    (hs : setField F s tag g v = .ok () s') :
    getPreplacedFixed s' tag g =
      (if isDiscernible tag ∧ v.bytes g = denilBytes g then .error .fieldAbsent else .ok (v.bytes g)) ∧
    LooseKept s s' (fun _ => True) ∧ fieldsOf s' = fieldsOf s ∧ PreplacedKept σ s s' (tag2offset tag) g.preplacedBytes := by
  unfold setField at hs
  rw [if_pos hp, if_pos hfx] at hs
  have hg : tag2genus tag = g := by
    by_contra hg
    unfold assignPreplacedFixed at hs
    rw [if_pos hg] at hs; cases hs
  have hslot := ht.2 hp
  rw [hg, hfx, if_pos rfl] at hslot
  obtain ⟨t, e, post, hrd⟩ := setPreplacedFixed_spec h.wf hg hf hfx hslot
  rw [e] at hs
  injection hs with _ hs
  subst hs
  refine ⟨?_, ?_⟩
  · unfold getPreplacedFixed
    rw [if_neg (fun h => h hg)]
    simp only
    rw [post.pivot, hrd]
  · obtain ⟨k1, k2⟩ := LooseKept.of_all h.wf post.live fun b hb => (post.kept b _ (Or.inl ⟨hb, rfl⟩)).2
    refine ⟨k1, k2, post.pre, fun k hk hn => ?_, fun k g' hσ hk _ => ?_⟩
    · rw [post.pivot]; exact post.bytes _ (by omega)
    · rw [post.pivot]
      have hbase : s.base = s.pivot + s.pre := rfl
      have hfa : FieldAt σ s (s.pivot + k) g' := Or.inr ⟨by omega, by omega, by rw [Nat.add_sub_cancel_left]; exact hσ⟩
      exact (post.kept _ _ hfa).2.value h.wf hfa (stretchy_not_hole (h.wf.sch _ _ hσ))

/-- Reading a stretchy preplaced field. -/
private theorem preplaced_read {s : RW} {tag : Nat} {g : Genus} (hg : tag2genus tag = g) (hfx : g.isFixed = false) {v : Val}
    (hv : valueAt g s.mem (s.pivot + tag2offset tag / 4) = some v) (hne : g ≠ .varbin) : getPreplacedStretchy s tag g = .ok (some v) := by
  unfold getPreplacedStretchy
  rw [if_neg (fun h => h hg)]
  simp only
  unfold valueAt at hv
  have hni : ¬ g.isInplaced = true := by
    intro hh; have := (inplaced_facts g hh).1; rw [hfx] at this; cases this
  rw [if_neg hni] at hv
  by_cases c : (s.mem (s.pivot + tag2offset tag / 4)).lo ≠ 0
  · rw [if_pos c]
    rw [if_pos (Or.inr c), decode_eq hne] at hv
    unfold RW.start
    rw [hv]
  · rw [if_neg (by rw [hfx]; rintro (h | h); cases h; exact c h)] at hv; cases hv

/-- **C09 (partial), stretchy preplaced fields.** Missing: steps in which a defect of `src/gear.cxx` shows. -/
theorem C09_set_preplaced_stretchy_partial {F : Fix} {σ : Sch} {s s' : RW} {tag : Nat} {g : Genus} {v : Val} (h : Reachable F σ s)
    (hp : isPreplaced tag = true) (ht : TokenOk σ s.pre tag) (hfx : g.isFixed = false) (hf : v.fits g = true)
    (hb : StepBenign F s (.set tag g v)) (hs : setField F s tag g v = .ok () s') :
    (¬ dropped tag g v → g ≠ .varbin → getPreplacedStretchy s' tag g = .ok (some v)) ∧
    (¬ dropped tag g v → valueAt g s'.mem (s'.pivot + tag2offset tag / 4) = some v) ∧
    (dropped tag g v → getPreplacedStretchy s' tag g = absent tag g) ∧
    LooseKept s s' (fun _ => True) ∧ fieldsOf s' = fieldsOf s ∧ PreplacedKept σ s s' (4 * (tag2offset tag / 4)) 4 := by
  unfold setField at hs
  rw [if_pos hp, if_neg (by rw [hfx]; decide)] at hs
  obtain ⟨r, hs⟩ := bind_ok hs
  have hg : tag2genus tag = g := by
    by_contra hg
    unfold assignStretchy at hs
    rw [if_pos hg] at hs; cases hs
  have hnl : isLoose tag = false := by
    have := preplaced_not_loose tag
    rw [hp] at this; simpa using this.symm
  have hslot := ht.2 hp
  rw [hg, hfx, if_neg (by decide)] at hslot
  have hbase : s.base = s.pivot + s.pre := rfl
  have hs1 := hslot.1
  have hfa : FieldAt σ s (s.pivot + tag2offset tag / 4) g :=
    Or.inr ⟨by omega, by omega, by rw [Nat.add_sub_cancel_left]; exact hslot.2⟩
  have key := setStretchyAt_spec h.wf hb.1 hg hf hfx hfa (by rw [hnl]; simp)
  rw [hs] at key
  obtain ⟨wf', o, hgone, hstored⟩ := key
  have hpv : s'.pivot = s.pivot := o.pivot
  obtain ⟨k1, k2⟩ := LooseKept.of_all h.wf (s' := s')
    (fun b => by
      by_cases hba : b = s.pivot + tag2offset tag / 4
      · subst hba
        exact ⟨fun hh => absurd hh.2.1 (by omega), fun hh => absurd hh.2.1 (by omega)⟩
      · exact o.live b hba)
    (fun b hb' => o.kept b (by have := hb'.2.1; omega) (Or.inl hb'))
  refine ⟨fun hd hv => preplaced_read hg hfx (by rw [hpv]; exact (hstored hd).2.2) hv, fun hd => by rw [hpv]; exact (hstored hd).2.2,
    fun hd => ?_, k1, k2, ?_⟩
  · have hz : (s'.mem (s'.pivot + tag2offset tag / 4)).lo = 0 := by
      rw [hpv]
      rcases hgone hd with (k | k) | k
      · refine absurd (Or.inr ⟨by omega, ?_⟩ : s'.owner (s.pivot + tag2offset tag / 4)) k
        rw [o.base]; omega
      · exact k.2.2
      · rw [k.1]; exact k.2
    unfold getPreplacedStretchy absent
    rw [if_neg (fun h => h hg)]
    simp only
    rw [if_neg (fun h => h hz)]
  · refine PreplacedKept.of_kept h.wf o.pivot o.pre (fun b h1 h2 h3 => o.kept b ?_ (Or.inr ⟨h1, h2⟩)) ⟨by omega, by omega⟩
    rintro rfl
    exact h3 ⟨by omega, by omega⟩

/-! ## C10 -/

/-- **C10 (partial).** In every reachable tuple, a successful `insert` adds exactly the pair of the field and the value to
the stored pairs (nothing for an empty value of a field without NULLs; an entry without value for an absent nested tuple).
Missing for the code as it is: steps in which the defect of gear.cxx:300 shows (`C10_insert_refuted`). -/
theorem C10_insert_partial {F : Fix} {σ : Sch} {s s' : RW} {tag : Nat} {g : Genus} {v : Val} {r : Option Nat} (h : Reachable F σ s)
    (hf : v.fits g = true) (hb : StepBenign F s (.insert tag g v)) (hs : insertField F s tag g v = .ok r s') :
    (¬ isDiscernible tag ∧ v.isEmpty g → s' = s ∧ r = none) ∧
    (¬ (¬ isDiscernible tag ∧ v.isEmpty g) → r.isSome ∧
      fieldsOf s' = (tag % 65536, if v = .nested none then none else some v) ::ₘ fieldsOf s) ∧
    LooseKept s s' (fun w => w ≠ tag % 65536) ∧ PreplacedKept σ s s' 0 0 := by
  have hg : tag2genus tag = g := by
    by_contra hg
    unfold insertField at hs
    rw [if_pos hg] at hs; cases hs
  have hc : isLooseCollection tag = true := by
    by_contra hc
    unfold insertField at hs
    rw [if_neg (fun h => h hg), if_pos hc] at hs; cases hs
  have key := insert_spec h.wf hb hg hf hc
  rw [hs] at key
  rcases key with ⟨k1, k2, k3, k4⟩ | ⟨a, k1, k2, k3⟩
  · rw [k2]
    exact ⟨fun _ => ⟨rfl, k1⟩, fun hn => absurd ⟨k3, k4⟩ hn, LooseKept.refl s _, PreplacedKept.refl σ s⟩
  · refine ⟨fun hn => absurd hn k2, fun _ => ⟨by rw [k1]; rfl, ?_⟩,
      LooseKept.of_others h.wf k3.others (fun hh => absurd hh k3.fresh) fun _ => k3.word,
      PreplacedKept.of_others h.wf k3.others (Or.inl (k3.others.pivot ▸ k3.live.2.1))⟩
    rw [fields_add h.wf k3.others k3.fresh k3.live]
    unfold entryAt
    rw [word_genus hg k3.word, k3.value, k3.word]

/-- **C10 for the repaired allocator.** -/
theorem C10_insert_repaired {σ : Sch} {s s' : RW} {tag : Nat} {g : Genus} {v : Val} {r : Option Nat} (h : Reachable .repaired σ s)
    (hf : v.fits g = true) (hs : insertField .repaired s tag g v = .ok r s') (hne : isDiscernible tag ∨ ¬ v.isEmpty g) :
    fieldsOf s' = (tag % 65536, if v = .nested none then none else some v) ::ₘ fieldsOf s :=
  ((C10_insert_partial h hf (stepBenign_repaired _ (.insert tag g v)) hs).2.1 (by
    rintro ⟨h1, h2⟩
    rcases hne with h3 | h3
    · exact h1 h3
    · exact h3 h2)).2

/-! ## C11 -/

private theorem lookup_after {s s' : RW} {w : Nat} (hw : w / 2048 ≠ 31) (hf : fieldsOf s' = (fieldsOf s).filter fun f => f.1 ≠ w) :
    s'.lookup w = none := by
  rw [lookup_none hw]
  intro b hb
  have hm : entryAt s' b ∈ fieldsOf s' := Multiset.mem_map_of_mem _ (mem_liveSet.2 hb.1)
  rw [hf, Multiset.mem_filter] at hm
  exact hm.2 hb.2

/-- **C11 (collections).** Erasing a collection removes all its values and nothing else; the number returned is the number
of values it had. It never throws, and is defined whenever the junk and these values have at most 2047 units. -/
theorem C11_erase_collection {F : Fix} {σ : Sch} {s : RW} {tag : Nat} (h : Reachable F σ s) (hg : tag2genus tag ≠ .hole)
    (hc : isLooseCollection tag = true) :
    (∀ e s', eraseLoose s tag ≠ .exc e s') ∧ (s.jv + unitsWhere s (· = tag % 65536) ≤ 2047 → eraseLoose s tag ≠ .ub) ∧
    ∀ n s', eraseLoose s tag = .ok n s' →
      n = (fieldsOf s).countP (fun f => f.1 = tag % 65536) ∧ fieldsOf s' = (fieldsOf s).filter (fun f => f.1 ≠ tag % 65536) ∧
      LooseKept s s' (fun w => w ≠ tag % 65536) ∧ PreplacedKept σ s s' 0 0 := by
  have key := eraseCollection_spec h.wf hg hc
  refine ⟨fun e s' he => by rw [he] at key; exact key, fun hl he => ?_, fun n s' he => ?_⟩
  · rw [he] at key
    rw [unitsWhere_eq (σ := σ)] at hl
    exact absurd key (not_lt.2 hl)
  · rw [he] at key
    obtain ⟨k1, k2, k3, k4, k5⟩ := key
    refine ⟨k4, k3, ⟨fun w hw => ?_, fun tag' g hg' hv hne => ?_⟩, ?_⟩
    · rw [k3, Multiset.filter_filter]
      refine Multiset.filter_congr fun f _ => ?_
      constructor
      · exact fun k => k.1
      · exact fun k => ⟨k, by rw [k]; exact hw⟩
    · unfold getLoose
      by_cases hc' : isLooseCollection tag' = true
      · rw [if_pos hc', if_pos hc']
      · rw [if_neg hc', if_neg hc', gid_eq]
        have hw := tag_not_hole hg'
        have hhas : ∀ b, RW.has s (tag' % 65536) b → ¬ RW.has s (tag % 65536) b := fun b hb1 hb2 => hne (hb1.2.symm.trans hb2.2)
        have e : s'.lookup (tag' % 65536) = s.lookup (tag' % 65536) := lookup_congr hw fun b => by
          unfold RW.has
          rw [k2.live b]
          constructor
          · rintro ⟨⟨h1, h2⟩, h3⟩
            refine ⟨h1, ?_⟩
            rw [← (k2.kept b (fun hh => h2 hh.2) (Or.inl h1)).cell]; exact h3
          · rintro ⟨h1, h3⟩
            have h2 := hhas b ⟨h1, h3⟩
            exact ⟨⟨h1, fun hh => h2 ⟨h1, hh⟩⟩, by rw [(k2.kept b h2 (Or.inl h1)).cell]; exact h3⟩
        rw [e]
        cases hlk : s.lookup (tag' % 65536) with
        | none => rfl
        | some b =>
          have hb := ((lookup_some hw).1 hlk).1
          exact getEntry_kept h.wf hv hb.1 hb.2 (k2.kept b (hhas b hb) (Or.inl hb.1))
    · exact PreplacedKept.of_kept h.wf k2.pivot k2.pre
        (fun b h1 h2 _ => k2.kept b (fun hh => by have := hh.1.2.1; omega) (Or.inr ⟨h1, h2⟩)) ⟨rfl, rfl⟩

/-- **C11 (single fields).** Erasing a loose field removes its first value and nothing else; `n` (returned as "something
was erased") is 1 exactly when there was one; when there was at most one value the field is absent afterwards. -/
theorem C11_erase_single {F : Fix} {σ : Sch} {s : RW} {tag : Nat} (h : Reachable F σ s) (hg : tag2genus tag ≠ .hole)
    (hc : isLooseCollection tag = false) :
    (∀ e s', eraseLoose s tag ≠ .exc e s') ∧ (s.jv + unitsWhere s (· = tag % 65536) ≤ 2047 → eraseLoose s tag ≠ .ub) ∧
    ∀ n s', eraseLoose s tag = .ok n s' →
      n = min 1 ((fieldsOf s).countP fun f => f.1 = tag % 65536) ∧
      ((fieldsOf s).countP (fun f => f.1 = tag % 65536) ≤ 1 →
        fieldsOf s' = (fieldsOf s).filter (fun f => f.1 ≠ tag % 65536) ∧ ∀ g, tag2genus tag = g → getLoose s' tag g = absent tag g) ∧
      (n = 1 → ∃ old, fieldsOf s = (tag % 65536, old) ::ₘ fieldsOf s') ∧
      LooseKept s s' (fun w => w ≠ tag % 65536) ∧ PreplacedKept σ s s' 0 0 := by
  have key := eraseSingle_spec h.wf hg hc
  have hw := tag_not_hole hg
  refine ⟨fun e s' he => by rw [he] at key; exact key, fun hl he => ?_, fun n s' he => ?_⟩
  · rw [he] at key
    have key : 2047 < s.jv + (s.lookup (tag % 65536)).elim 0 (lenOf σ s) := key
    rw [unitsWhere_eq (σ := σ)] at hl
    cases hlk : s.lookup (tag % 65536) with
    | none => rw [hlk] at key; change 2047 < s.jv + 0 at key; omega
    | some a =>
      rw [hlk] at key
      have ha := ((lookup_some hw).1 hlk).1
      have := le_sumOf (σ := σ) (· = tag % 65536) ha.1 ha.2
      change 2047 < s.jv + lenOf σ s a at key
      omega
  · rw [he] at key
    have hread : fieldsOf s' = (fieldsOf s).filter (fun f => f.1 ≠ tag % 65536) → ∀ g, tag2genus tag = g → getLoose s' tag g = absent tag g := by
      intro e g hgg
      unfold getLoose getEntry absent
      rw [if_neg (by rw [hc]; decide), gid_eq, lookup_after hw e, if_neg (fun h => h hgg)]
    obtain ⟨k1, ⟨k2, k3, k4⟩ | ⟨k2, a, k3, k4, k5⟩⟩ := key
    · subst k3
      have hn := fields_none ((lookup_none hw).1 k4)
      have e0 : (fieldsOf s').countP (fun f => f.1 = tag % 65536) = 0 := Multiset.countP_eq_zero.2 hn
      have ef : fieldsOf s' = (fieldsOf s').filter (fun f => f.1 ≠ tag % 65536) := (Multiset.filter_eq_self.2 hn).symm
      exact ⟨by rw [e0, k2]; rfl, fun _ => ⟨ef, hread ef⟩, fun h1 => by omega, LooseKept.refl _ _, PreplacedKept.refl σ _⟩
    · have ha := ((lookup_some hw).1 k3).1
      have e1 : fieldsOf s = (tag % 65536, (entryAt s a).2) ::ₘ fieldsOf s' := by
        rw [fields_remove h.wf k4 ha.1 k5]
        congr 1
        exact Prod.ext ha.2 rfl
      have ec : (fieldsOf s).countP (fun f => f.1 = tag % 65536) = (fieldsOf s').countP (fun f => f.1 = tag % 65536) + 1 := by
        rw [e1, Multiset.countP_cons_of_pos (p := fun f : Nat × Option Val => f.1 = tag % 65536) _ rfl]
      refine ⟨by rw [ec, k2]; omega, fun hone => ?_, fun _ => ⟨_, e1⟩, LooseKept.of_others h.wf k4 (fun _ => ha.2) (fun hh => absurd hh k5),
        PreplacedKept.of_others h.wf k4 (Or.inl ha.1.2.1)⟩
      have hz : (fieldsOf s').countP (fun f => f.1 = tag % 65536) = 0 := by omega
      have ef : fieldsOf s' = (fieldsOf s).filter (fun f => f.1 ≠ tag % 65536) := by
        rw [e1, Multiset.filter_cons_of_neg _ (by simp)]
        exact (Multiset.filter_eq_self.2 (Multiset.countP_eq_zero.1 hz)).symm
      exact ⟨ef, hread ef⟩

end Fptu.Props
