import Verif.Model.IterField
import Verif.Props.Iterate
/-!
# C84 (what an iterator over fields tells about its field)
-/
namespace Fptu.Props
open Fptu Fptu.Gear Fptu.Schemas Fptu.Iter Fptu.Rw

/-- The position of an iterator at the unit `a` of the index. -/
def spot (s : RW) (a : Nat) : Int := 4 * ((a : Int) - s.pivot)

theorem unitAt_spot (s : RW) (a : Nat) : unitAt s (spot s a) = a := by
  unfold unitAt spot
  omega

theorem spot_neg {s : RW} {a : Nat} (h : a < s.pivot) : ¬ spot s a ≥ 0 := by
  unfold spot
  omega

theorem descriptor_eq {d : Nat} (h : d < 65536) : makeTagFromDescriptor d false false false = 4294443008 + d := by
  unfold makeTagFromDescriptor
  rw [looseThreshold_eq]
  simp only [Bool.false_eq_true, if_false]
  omega

theorem looseType_ne {σ : Sch} {s : RW} {a : Nat} (h : WF σ s) (ha : s.live a) : looseType s a ≠ .hole :=
  live_genus ha (h.word a ha)

theorem genus_of_gid {t d : Nat} (h : tag2gid t = d) : tag2genus t = Genus.ofCode (d / 2048) := by
  unfold tag2genus
  rw [tag2genusCode_eq, ← h]
  rfl

/-- **C84**, loose fields: at every field of a reachable tuple the iterator gives an accessor with a token of the type and the
identifier of the field. Whatever a token of this field, with any flags, reads from it, the accessor reads as well; only where
the token insists on a value that is not there, the accessor gives the empty value instead of `field_absent`. -/
theorem C84_loose {F : Fix} {σ : Sch} {s : RW} {a : Nat} (hr : Reachable F σ s) (ha : s.live a) (sch : Option Sc) :
    ∃ t, deref s sch (spot s a) = some (.ok (spot s a, t)) ∧ isLoose t = true ∧ isLooseCollection t = false ∧
      isDiscernible t = false ∧ tag2gid t = (s.mem a).hi ∧
      (∀ tag, looseIs s a tag = true ↔ isLoose tag = true ∧ tag2gid tag = (s.mem a).hi) ∧
      ∀ tag g, tag2gid tag = (s.mem a).hi →
        fieldType s sch (spot s a) = .ok (tag2genus tag) ∧ looseType s a = tag2genus tag ∧ looseId s a = tag2id tag ∧
        readLoose s (spot s a, t) g = (match getEntry s tag g (some a) with
          | .error .fieldAbsent => .ok (some (.empty g))
          | r => r) := by
  have hw := hr.wf_pure.1
  have hlt := hw.word a ha
  have hn := looseType_ne hw ha
  have e := descriptor_eq hlt
  have hd : isDiscernible (4294443008 + (s.mem a).hi) = false := by
    rw [isDiscernible_iff]
    exact decide_eq_false (by omega)
  refine ⟨makeTagFromDescriptor (s.mem a).hi false false false, ?_, ?_, ?_, ?_, ?_, fun tag => ?_, fun tag g ht => ⟨?_, ?_, ?_, ?_⟩⟩
  · unfold deref
    rw [if_neg (spot_neg ha.2.1), unitAt_spot]
    unfold looseToken
    rw [if_neg hn]
    rfl
  · rw [e]
    exact isLoose_true.2 (by omega)
  · rw [e, isLooseCollection_eq]
    exact decide_eq_false (by omega)
  · rw [e, hd]
  · rw [e]
    unfold tag2gid
    omega
  · unfold looseIs tag2gid
    rw [Bool.and_eq_true, beq_iff_eq]
    constructor <;> rintro ⟨h1, h2⟩ <;> exact ⟨h1, by omega⟩
  · unfold fieldType
    rw [if_neg (spot_neg ha.2.1), unitAt_spot, genus_of_gid ht]
    rfl
  · rw [genus_of_gid ht]
    rfl
  · rw [tag2id_eq]
    have h2 : looseId s a = (s.mem a).hi % 2048 := tag2id_eq _
    rw [h2, ← ht]
    unfold tag2gid
    omega
  · have hg : tag2genus (4294443008 + (s.mem a).hi) = tag2genus tag := by
      rw [genus_of_gid ht]
      exact genus_of_gid (by unfold tag2gid; omega)
    unfold readLoose getEntry
    rw [unitAt_spot, e, hg, hd]
    by_cases c1 : tag2genus tag ≠ g
    · rw [if_pos c1, if_pos c1]
    · rw [if_neg c1, if_neg c1]
      dsimp only
      by_cases c2 : g.isInplaced = true
      · rw [if_pos c2, if_pos c2]
      · rw [if_neg c2, if_neg c2]
        by_cases c3 : g.isFixed = true ∨ (s.mem a).lo ≠ 0
        · rw [if_pos c3, if_pos c3]
        · rw [if_neg c3, if_neg c3]
          cases isDiscernible tag <;> rfl

/-- **C84**, preplaced fields: for every schema the iterator at the place of a preplaced field gives an accessor with the token
that the definition returned, and it reads what a getter reads with that token; the type is the one of the token. -/
theorem C84_preplaced {cs : List Cmd} {c : Sc} {log : List (Name × Nat)} (hc : ∀ x ∈ cs, x.Ok) (hn : ∀ x ∈ cs, x.NoOpacity)
    (e : define cs = some (c, log)) {n : Name} {t : Nat} (ht : (n, t) ∈ log) (hp : isPreplaced t = true) (s : RW) (g : Genus) :
    deref s (some c) (tag2offset t) = some (.ok ((tag2offset t : Int), t)) ∧
    fieldType s (some c) (tag2offset t) = .ok (tag2genus t) ∧
    readFixed s (tag2offset t, t) g = getPreplacedFixed s t g ∧
    readStretchy s (tag2offset t, t) g = getPreplacedStretchy s t g := by
  have hb := (C30_by_offset_partial hc hn e).1 n t ht hp
  have h0 : t ≠ 0 := by
    have h := define_inv hc e
    have hpl := define_place hc hn e
    have hm := h.mem_tokens.2 ⟨n, ht⟩
    have hw := h.well t hm
    have hsz := size_pos (hpl.typed t hm)
    rw [← hw.size hp] at hsz
    rintro rfl
    revert hsz
    decide
  have hk : preplacedToken (some c) (tag2offset t) = .ok t := by
    unfold preplacedToken
    dsimp only
    rw [hb, if_pos h0]
  refine ⟨?_, ?_, rfl, rfl⟩
  · unfold deref
    rw [if_pos (by omega), hk]
    rfl
  · unfold fieldType
    rw [if_pos (by omega), hk]
    rfl

/-- **C84**, comparing with a token: at every position the loop over the fields visits, an iterator is equal to a token exactly if
the token is the one of the preplaced field there, or if it is loose, with any flags, and has the type and the identifier of the
loose field there. -/
theorem C84_equal {cs : List Cmd} {c : Sc} {log : List (Name × Nat)} (hc : ∀ x ∈ cs, x.Ok) (hn : ∀ x ∈ cs, x.NoOpacity)
    (e : define cs = some (c, log)) {s : RW} {P L : List Int} (h : Sequence s log P L) (tag : Nat) {p : Int} (hp : p ∈ P ++ L) :
    ∃ b, fieldIs s (some c) p tag = .ok b ∧ (b = true ↔
      ((isPreplaced tag = true ∧ (∃ n, (n, tag) ∈ log) ∧ p = tag2offset tag) ∨
       (isLoose tag = true ∧ ∃ a, a < s.pivot ∧ p = spot s a ∧ (s.mem a).hi = tag2gid tag))) := by
  rcases List.mem_append.1 hp with hp | hp
  · obtain ⟨n, t, h1, h2, _, rfl⟩ := (h.pre p).1 hp
    have hb := (C30_by_offset_partial hc hn e).1
    have hk := (C84_preplaced hc hn e h1 h2 s (tag2genus t)).1
    have hk' : preplacedToken (some c) (tag2offset t) = .ok t := by
      unfold deref at hk
      rw [if_pos (by omega)] at hk
      have hk := Option.some.inj hk
      cases hq : preplacedToken (some c) (tag2offset t) with
      | error x => rw [hq] at hk; cases hk
      | ok u =>
        rw [hq] at hk
        have := Except.ok.inj hk
        rw [(Prod.mk.inj this).2]
    unfold fieldIs
    rw [if_pos (by omega)]
    cases hpt : isPreplaced tag with
    | true =>
      rw [if_pos rfl, hk']
      refine ⟨t == tag, rfl, ?_⟩
      rw [beq_iff_eq]
      constructor
      · rintro rfl
        exact .inl ⟨rfl, ⟨n, h1⟩, rfl⟩
      · rintro (⟨_, ⟨m, hm⟩, ho⟩ | ⟨hl, _⟩)
        · have := hb m tag hm hpt
          rw [← ho, hb n t h1 h2] at this
          exact this
        · have := isPreplaced_true.1 hpt
          have := isLoose_true.1 hl
          omega
    | false =>
      refine ⟨false, by simp, ⟨fun x => (by cases x), ?_⟩⟩
      rintro (⟨hx, _⟩ | ⟨_, a, ha, ho, _⟩)
      · cases hx
      · unfold spot at ho
        omega
  · obtain ⟨a, h1, h2, rfl⟩ := (h.loose p).1 hp
    rw [show (4 * ((a : Int) - s.pivot)) = spot s a from rfl]
    unfold fieldIs
    rw [if_neg (spot_neg h2), unitAt_spot]
    refine ⟨_, rfl, ?_⟩
    rw [Bool.and_eq_true, beq_iff_eq]
    constructor
    · rintro ⟨k1, k2⟩
      exact .inr ⟨k1, a, h2, rfl, k2⟩
    · rintro (⟨_, _, ho⟩ | ⟨k1, b, k2, k3, k4⟩)
      · unfold spot at ho
        omega
      · have : a = b := by unfold spot at k3; omega
        exact ⟨k1, this ▸ k4⟩

/-- The positions among those visited where the iterator is equal to a token. -/
def equalTo (s : RW) (sch : Option Sc) (tag : Nat) (l : List Int) : List Int :=
  l.filter fun p => match fieldIs s sch p tag with
    | .ok b => b
    | .error _ => false

theorem looses_equal (s : RW) (hs : s.head ≤ s.pivot) (sch : Option Sc) {tag : Nat} (hl : isLoose tag = true) {P L : List Int}
    {log : List (Name × Nat)} (h : Sequence s log P L) :
    equalTo s sch tag (P ++ L) = (((List.range' s.head (s.pivot - s.head)).filter fun b => (s.mem b).hi = tag2gid tag).map (spot s)).reverse := by
  have hn : isPreplaced tag = false := by
    rw [isPreplaced_false]; exact isLoose_true.1 hl
  have hP : equalTo s sch tag P = [] := by
    unfold equalTo
    rw [List.filter_eq_nil_iff]
    intro p hp
    obtain ⟨n, t, _, _, _, rfl⟩ := (h.pre p).1 hp
    unfold fieldIs
    rw [if_pos (by omega), hn]
    simp
  have hL : L = ((List.range' s.head (s.pivot - s.head)).map (spot s)).reverse := by
    apply List.Perm.eq_of_pairwise (le := fun a b : Int => b < a) ?_ h.looseOrder ?_ ?_
    · intro a b _ _ x y; omega
    · rw [List.pairwise_reverse, List.pairwise_map]
      exact (List.pairwise_lt_range' (s := s.head) (n := s.pivot - s.head) (step := 1)).imp (fun {a b} x => by unfold spot; omega)
    · rw [List.perm_ext_iff_of_nodup (h.looseOrder.imp (fun {a b} x => by omega)) ?_]
      · intro p
        rw [h.loose, List.mem_reverse, List.mem_map]
        constructor
        · rintro ⟨a, h1, h2, rfl⟩
          exact ⟨a, List.mem_range'_1.2 ⟨h1, by omega⟩, rfl⟩
        · rintro ⟨a, h1, rfl⟩
          have := List.mem_range'_1.1 h1
          exact ⟨a, this.1, by omega, rfl⟩
      · rw [List.nodup_reverse]
        exact List.Nodup.map (fun a b x => by unfold spot at x; omega) (List.nodup_range')
  unfold equalTo at hP ⊢
  rw [List.filter_append, hP, List.nil_append, hL, List.filter_reverse, List.filter_map]
  congr 2
  apply List.filter_congr
  intro a ha
  have := List.mem_range'_1.1 ha
  show (match fieldIs s sch (spot s a) tag with | .ok b => b | .error _ => false) = _
  unfold fieldIs
  rw [if_neg (spot_neg (by omega)), unitAt_spot, hl]
  show (true && _ == _) = _
  rw [Bool.true_and]
  rfl

/-- **C84**, searching a field by a loop: comparing the iterator of a loop over all fields with a loose token finds the values of
the field only. The one a getter finds comes last, there is none if the getter finds none, and the values of a collection come
in the reverse order of the iteration over the collection. -/
theorem C84_search (s : RW) (hs : s.head ≤ s.pivot) (sch : Option Sc) {tag : Nat} (hl : isLoose tag = true)
    (hg : tag2genus tag ≠ .hole) {P L : List Int} {log : List (Name × Nat)} (h : Sequence s log P L) :
    (equalTo s sch tag (P ++ L)).getLast? = (s.lookup (tag2gid tag)).map (spot s) ∧
    (∀ p, p ∈ equalTo s sch tag (P ++ L) ↔ ∃ a, s.live a ∧ (s.mem a).hi = tag2gid tag ∧ p = spot s a) ∧
    (∀ l, collection s tag = .ok (some l) → equalTo s sch tag (P ++ L) = (l.map (spot s)).reverse) := by
  have hw := tag_not_hole hg
  have hmem : ∀ a, a ∈ (List.range' s.head (s.pivot - s.head)).filter (fun b => (s.mem b).hi = tag2gid tag) ↔ RW.has s (tag2gid tag) a := by
    intro a
    rw [List.mem_filter, List.mem_range'_1, decide_eq_true_eq]
    constructor
    · rintro ⟨⟨h1, h2⟩, h3⟩
      refine ⟨⟨h1, by omega, fun hh => hw ?_⟩, h3⟩
      have hh : (s.mem a).hi / 2048 = 31 := hh
      rw [h3] at hh
      exact hh
    · rintro ⟨⟨h1, h2, _⟩, h3⟩
      exact ⟨⟨h1, by omega⟩, h3⟩
  have hord : ((List.range' s.head (s.pivot - s.head)).filter (fun b => (s.mem b).hi = tag2gid tag)).Pairwise (· < ·) :=
    (List.pairwise_lt_range' (s := s.head) (n := s.pivot - s.head) (step := 1)).sublist List.filter_sublist
  rw [looses_equal s hs sch hl h]
  refine ⟨?_, fun p => ?_, fun l hcl => ?_⟩
  · rw [List.getLast?_reverse, List.head?_map]
    congr 1
    cases hlk : s.lookup (tag2gid tag) with
    | none =>
      rw [List.head?_eq_none_iff, List.eq_nil_iff_forall_not_mem]
      exact fun a ha => (lookup_none hw).1 hlk a ((hmem a).1 ha)
    | some a =>
      obtain ⟨h1, h2⟩ := (lookup_some hw).1 hlk
      have ha := (hmem a).2 h1
      generalize (List.range' s.head (s.pivot - s.head)).filter (fun b => (s.mem b).hi = tag2gid tag) = R at *
      cases R with
      | nil => cases ha
      | cons b R =>
        rcases List.mem_cons.1 ha with rfl | ha
        · rfl
        · have := (List.pairwise_cons.1 hord).1 a ha
          have := h2 b ((hmem b).1 List.mem_cons_self)
          omega
  · rw [List.mem_reverse, List.mem_map]
    constructor
    · rintro ⟨a, ha, rfl⟩
      obtain ⟨h1, h2⟩ := (hmem a).1 ha
      exact ⟨a, h1, h2, rfl⟩
    · rintro ⟨a, h1, h2, rfl⟩
      exact ⟨a, (hmem a).2 ⟨h1, h2⟩, rfl⟩
  · unfold collection at hcl
    by_cases c : (!isLooseCollection tag) = true
    · rw [if_pos c] at hcl; cases hcl
    · rw [if_neg c] at hcl
      have := collect_spec s (tag2gid tag) (s.pivot - s.head) s.head (s.pivot - s.head + 1) (Nat.le_refl _) (by omega)
      have h2 := Except.ok.inj hcl
      rw [show s.lookup (tag2gid tag) = lookupFrom s.mem (tag2gid tag) s.pivot s.head from rfl, this] at h2
      rw [← Option.some.inj h2]

/-- **C84**, the token of the schema: for every schema with at most three loose fields (see `C84_token_refuted`), the token of an
iterator at a field of the schema is the one that its definition returned; for a loose field that is not in the schema, and
without a schema, the iterator reports `schema_no_such_field`. A token that is returned for a loose field belongs to that field,
whatever the number of fields in the schema. -/
theorem C84_token_partial {cs : List Cmd} {c : Sc} {log : List (Name × Nat)} (hc : ∀ x ∈ cs, x.Ok) (hn : ∀ x ∈ cs, x.NoOpacity)
    (e : define cs = some (c, log)) {F : Fix} {σ : Sch} {s : RW} (hr : Reachable F σ s) :
    (∀ n t, (n, t) ∈ log → isPreplaced t = true → fieldToken s (some c) (tag2offset t) = .ok t) ∧
    (∀ a, s.live a → looseTokenOf s (some c) a = fieldToken s (some c) (spot s a)) ∧
    (∀ a t, s.live a → fieldToken s (some c) (spot s a) = .ok t → (∃ n, (n, t) ∈ log) ∧ isLoose t = true ∧ tag2gid t = (s.mem a).hi) ∧
    (∀ a, s.live a → (∀ n t, (n, t) ∈ log → isLoose t = true → tag2gid t ≠ (s.mem a).hi) →
      fieldToken s (some c) (spot s a) = .error .schemaNoSuchField) ∧
    (log.countP (fun p => isLoose p.2) ≤ 3 → ∀ a n t, s.live a → (n, t) ∈ log → isLoose t = true → tag2gid t = (s.mem a).hi →
      fieldToken s (some c) (spot s a) = .ok t) ∧
    (∀ p, fieldToken s none p = .error .schemaNoSuchField) ∧ ∀ a, looseTokenOf s none a = .error .schemaNoSuchField := by
  have hw := hr.wf_pure.1
  have key : ∀ a, s.live a → fieldToken s (some c) (spot s a) =
      if byLoose c (s.mem a).hi ≠ 0 then .ok (byLoose c (s.mem a).hi) else .error .schemaNoSuchField := by
    intro a ha
    unfold fieldToken
    dsimp only
    rw [if_neg (spot_neg ha.2.1), unitAt_spot]
  refine ⟨fun n t ht hp => ?_, fun a ha => (key a ha).symm, fun a t ha h => ?_, fun a ha h => ?_, fun h3 a n t ha ht hl hg => ?_,
    fun _ => rfl, fun _ => rfl⟩
  · have hb := (C30_by_offset_partial hc hn e).1 n t ht hp
    have hk := (C84_preplaced hc hn e ht hp s (tag2genus t)).1
    unfold deref preplacedToken at hk
    unfold fieldToken
    rw [if_pos (by omega)] at hk
    dsimp only at hk ⊢
    rw [if_pos (show (tag2offset t : Int) ≥ 0 by omega), hb]
    rw [hb] at hk
    by_cases h0 : t ≠ 0
    · rw [if_pos h0]
    · rw [if_neg h0] at hk
      cases Option.some.inj hk
  · rw [key a ha] at h
    by_cases h0 : byLoose c (s.mem a).hi ≠ 0
    · rw [if_pos h0] at h
      rw [← Except.ok.inj h]
      rcases (C30_by_loose_partial hc e (hw.word a ha)).1 with h1 | h1
      · exact absurd h1 h0
      · exact h1
    · rw [if_neg h0] at h
      cases h
  · rw [key a ha]
    rcases (C30_by_loose_partial hc e (hw.word a ha)).1 with h1 | ⟨⟨n, h1⟩, h2, h3⟩
    · rw [if_neg (by simpa using h1)]
    · exact absurd h3 (h n _ h1 h2)
  · rw [key a ha, (C30_by_loose_partial hc e (hw.word a ha)).2 h3 n t ht hl hg, if_pos]
    have := isLoose_true.1 hl
    omega

/-- **C84 fails for schemas with four loose fields or more**: there is always one of them for which the iterator reports
`schema_no_such_field` wherever a tuple has it. -/
theorem C84_token_refuted {cs : List Cmd} {c : Sc} {log : List (Name × Nat)} (hc : ∀ x ∈ cs, x.Ok) (e : define cs = some (c, log))
    (h4 : 4 ≤ log.countP (fun p => isLoose p.2)) :
    ∃ n t, (n, t) ∈ log ∧ isLoose t = true ∧ ∀ (s : RW) (a : Nat), a < s.pivot → (s.mem a).hi = tag2gid t →
      fieldToken s (some c) (spot s a) = .error .schemaNoSuchField := by
  obtain ⟨n, t, h1, h2, h3⟩ := C30_by_loose_refuted hc e h4
  refine ⟨n, t, h1, h2, fun s a ha hg => ?_⟩
  unfold fieldToken
  dsimp only
  rw [if_neg (spot_neg ha), unitAt_spot, hg, h3]
  rfl

/-- **C84 fails for tuples with holes**: after an erase the loop over the fields reaches a position where taking the field out of
the iterator violates an assertion. -/
theorem C84_holes_refuted : ∃ s l p, Reachable .code noPre s ∧
    (∀ fuel, s.pivot - s.head ≤ fuel → forward s none fuel (beginPos s none) = some l) ∧ p ∈ l ∧ deref s none p = none := by
  obtain ⟨s, a, l, hre, hh, h1, h2, _, hf, hm, _⟩ := C31_holes_refuted
  refine ⟨s, l, _, hre, hf, hm, ?_⟩
  rw [show (4 * ((a : Int) - s.pivot)) = spot s a from rfl]
  unfold deref
  rw [if_neg (spot_neg h2), unitAt_spot]
  unfold looseToken looseType
  have hh : (s.mem a).hi / 2048 = 31 := hh
  rw [hh]
  rfl

/-! ## Non-vacuity -/

/-- A schema with a preplaced field and a loose one. -/
def pairCs : List Cmd := [.preplaced [65] 5 true false none, .imported [66] (fix .i16 6) none false]
def pairLog : List (Name × Nat) := [([65], 75777), ([66], fix .i16 6)]

theorem pair_ok : ∀ c ∈ pairCs, c.Ok ∧ c.NoOpacity := by
  intro c hc
  unfold pairCs at hc
  rw [List.mem_cons, List.mem_singleton] at hc
  rcases hc with rfl | rfl
  all_goals first
    | exact ⟨trivial, trivial⟩
    | exact ⟨Or.inl ⟨6, 6, false, false, false, by decide +kernel⟩, (by show tag2genus (fix .i16 6) ≠ .hole; decide +kernel)⟩

theorem pair_run : ∃ c, define pairCs = some (c, pairLog) := by
  have h : (define pairCs).map Prod.snd = some pairLog := by decide +kernel
  obtain ⟨⟨c, l⟩, h1, h2⟩ := Option.map_eq_some_iff.1 h
  exact ⟨c, by rw [h1, ← h2]⟩

/-- After a history with erasures, the iterator at the loose field of the schema gives its value and its token. -/
example : ∃ c s a t, define pairCs = some (c, pairLog) ∧ Reachable .code noPre s ∧ s.live a ∧
    deref s (some c) (spot s a) = some (.ok (spot s a, t)) ∧ readLoose s (spot s a, t) .i16 = .ok (some (.inline 700)) ∧
    fieldToken s (some c) (spot s a) = .ok (fix .i16 6) ∧ fieldType s (some c) (spot s a) = .ok .i16 ∧ looseId s a = 6 := by
  obtain ⟨c, hd⟩ := pair_run
  obtain ⟨s, _, hre, _, hv, _⟩ := good_run
  have hok := fun x hx => (pair_ok x hx).1
  have hno := fun x hx => (pair_ok x hx).2
  have hcol : isLooseCollection (fix .i16 6) = false := by decide +kernel
  have hgen : tag2genus (fix .i16 6) = .i16 := by decide +kernel
  have hnh := tag_not_hole (tag := fix .i16 6) (by rw [hgen]; decide)
  unfold getLoose at hv
  rw [hcol, if_neg (by decide)] at hv
  cases hlk : s.lookup (tag2gid (fix .i16 6)) with
  | none =>
    exfalso
    rw [hlk] at hv
    unfold getEntry at hv
    rw [hgen, if_neg (by simp)] at hv
    have hd0 : isDiscernible (fix .i16 6) = false := by decide +kernel
    dsimp only at hv
    rw [hd0, if_neg (by decide)] at hv
    cases Option.some.inj (Except.ok.inj hv)
  | some a =>
    obtain ⟨h1, h2⟩ := ((lookup_some hnh).1 hlk).1
    obtain ⟨t, k1, k2, k3, k4, k5, k6⟩ := C84_loose hre h1 (some c)
    obtain ⟨m1, m2, m3, m4⟩ := (k6.2) (fix .i16 6) .i16 h2.symm
    rw [hlk] at hv
    rw [hv] at m4
    rw [hgen] at m1
    refine ⟨c, s, a, t, hd, hre, h1, k1, m4, ?_, m1, m3.trans (by decide +kernel)⟩
    exact (C84_token_partial hok hno hd hre).2.2.2.2.1 (by decide +kernel) a [66] _ h1 (by decide +kernel) (by decide +kernel) h2.symm

example := C84_preplaced (fun c h => (shop_ok c h).1) (fun c h => (shop_ok c h).2.1) shop_run (n := [65]) (t := 75777) (by decide)
  (by decide) shopTuple
example : ∃ P L, Sequence shopTuple shopLog P L ∧
    (equalTo shopTuple (some shopSc) 4294443011 (P ++ L)).getLast? = some (spot shopTuple 8) ∧ P ≠ [] := by
  obtain ⟨P, L, h, _⟩ := C31_forward_partial (fun c h => (shop_ok c h).1) (fun c h => (shop_ok c h).2.1) shop_run shop_zero shopTuple (by decide)
  refine ⟨P, L, h, ?_, ?_⟩
  · rw [(C84_search shopTuple (by decide) (some shopSc) (by decide) (by decide) h).1,
      (lookup_some (a := 8) (by decide)).2 ⟨⟨⟨by decide, by decide, by decide⟩, by decide⟩, fun b hb => hb.1.1⟩]
    rfl
  · intro hP
    have := (h.pre (tag2offset 75777)).2 ⟨[65], 75777, by decide, by decide, by decide +kernel, rfl⟩
    rw [hP] at this
    cases this
example := fun tag {p} {P L} (h : Sequence shopTuple shopLog P L) (hp : p ∈ P ++ L) =>
  C84_equal (fun c h => (shop_ok c h).1) (fun c h => (shop_ok c h).2.1) shop_run h tag hp
example := C84_token_refuted (fun c h => (shop_ok c h).1) shop_run (by decide)

end Fptu.Props
