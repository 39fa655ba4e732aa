import Verif.Model.CapiRw
import Verif.Props.Tags
import Verif.Props.TupleLayout
import Verif.Props.TupleDefects
import Verif.Props.Handle
import Verif.Props.Numeric
/-!
# C38, C46, C47, C48: the C API for tuples
-/
namespace Fptu.Props
open Fptu Fptu.Gear Fptu.Rw Fptu.Audit Fptu.Serial Fptu.Handle Fptu.CapiRw

/-! ## Tokens -/

/-- The descriptor of the fields of a type in a column. -/
def capiWord (g : Genus) (column : Nat) : Nat := g.code * 2048 + column

/-- What is known about the token of a column and a type. -/
structure CapiTag (g : Genus) (column : Nat) (c d : Bool) (tag : Nat) : Prop where
  made : capiToken g column c d = .ok tag
  genus : tag2genus tag = g
  loose : isLoose tag = true
  pre : isPreplaced tag = false
  coll : isLooseCollection tag = c
  disc : isDiscernible tag = d
  word : tag % 65536 = capiWord g column

theorem capi_tag {g : Genus} {column : Nat} (c d : Bool) (hg : g ≠ .hole) (hc : column ≤ 2047) :
    CapiTag g column c d (makeTag g column c d false) := by
  have hcode : g.code < 31 := by cases g <;> first | decide | exact absurd rfl hg
  have e : tokenLoose g.code column c d false = .ok (makeTag g column c d false) := by
    unfold tokenLoose
    rw [if_neg (by omega), if_neg (by rw [show maxIdent = 2047 from rfl]; omega), Genus.ofCode_code]
  obtain ⟨_, _, _, h1, h2, h3, h4, h5, h6, _⟩ := C01_loose_token_lossless _ _ _ _ _ _ e
  refine ⟨e, ?_, h1, h2, h5, h6, ?_⟩
  · unfold tag2genus; rw [h3, Genus.ofCode_code]
  · rw [tag2genusCode_eq] at h3
    rw [tag2id_eq] at h4
    unfold capiWord
    omega

theorem capi_tag_error {g : Genus} {column : Nat} {c d : Bool} (hc : ¬ column ≤ 2047) : capiToken g column c d = .error .invalidArgument := by
  unfold capiToken
  exact (C01_loose_token_accepts _ _ _ _ _).2 (fun h => hc h.2)

/-- Whether NULLs are distinguished does not matter for reading a field that is there. -/
theorem getLoose_discernible {s : RW} {g : Genus} {column : Nat} {d d' : Bool} {tag tag' : Nat} {v : Val} (ht : CapiTag g column false d tag)
    (ht' : CapiTag g column false d' tag') (hd : d = true) (h : getLoose s tag g = .ok (some v)) : getLoose s tag' g = .ok (some v) := by
  unfold getLoose getEntry at h ⊢
  rw [if_neg (by rw [ht.coll]; decide), if_neg (fun k => k ht.genus), gid_eq, ht.word] at h
  rw [if_neg (by rw [ht'.coll]; decide), if_neg (fun k => k ht'.genus), gid_eq, ht'.word]
  have hdt : isDiscernible tag = true := ht.disc.trans hd
  cases hl : s.lookup (capiWord g column) with
  | none => rw [hl, hdt] at h; cases h
  | some a =>
    rw [hl] at h
    dsimp only at h ⊢
    by_cases h1 : g.isInplaced = true
    · rw [if_pos h1] at h ⊢; exact h
    · rw [if_neg h1] at h ⊢
      by_cases h2 : g.isFixed ∨ (s.mem a).lo ≠ 0
      · rw [if_pos h2] at h ⊢; exact h
      · rw [if_neg h2, hdt] at h; cases h

/-! ## C46: storing -/

/-- The field is stored: it reads as the value; it is new or has replaced one value of its type in the column; every other
field is untouched. -/
structure Upserted (σ : Sch) (s s' : RW) (g : Genus) (column : Nat) (v : Val) : Prop where
  read : g ≠ .varbin → ∀ d, getLoose s' (makeTag g column false d false) g = .ok (some v)
  bytes : ∀ b, v = .varbin b → ∀ d, ∃ r, getLoose s' (makeTag g column false d false) .varbin = .ok (some (.varbin r)) ∧ r.take b.length = b
  one : ∃ rest, fieldsOf s' = (capiWord g column, some v) ::ₘ rest ∧
    (fieldsOf s = rest ∧ (∀ f ∈ fieldsOf s, f.1 ≠ capiWord g column) ∨ ∃ old, fieldsOf s = (capiWord g column, old) ::ₘ rest)
  kept : LooseKept s s' (fun w => w ≠ capiWord g column)
  pre : PreplacedKept σ s s' 0 0

private theorem loose_token {σ : Sch} {pre tag : Nat} {g : Genus} {column : Nat} {c d : Bool} (hg : g ≠ .hole) (h : CapiTag g column c d tag) :
    TokenOk σ pre tag := ⟨by rw [h.genus]; exact hg, fun k => by rw [h.pre] at k; cases k⟩

private theorem estimate_code {v : Val} {e : Exc} (h : v.estimate = .error e) : e = .valueTooLong := by
  cases v with
  | inline x => cases h
  | units x => cases h
  | text v => unfold Val.estimate Str.estimate at h; dsimp only at h; split_ifs at h; injection h with h; exact h.symm
  | varbin v => unfold Val.estimate Varbin.estimate at h; dsimp only at h; split_ifs at h; injection h with h; exact h.symm
  | property v id => unfold Val.estimate Property.estimate at h; dsimp only at h; split_ifs at h; injection h with h; exact h.symm
  | nested v => cases h

private theorem not_dropped {g : Genus} {column tag : Nat} {c : Bool} {v : Val} (h : CapiTag g column c true tag) (hn : v ≠ .nested none) :
    ¬ dropped tag g v := by
  rintro (k | k)
  · exact k.1 h.disc
  · exact hn k

/-- The value is too long for its type: nothing happens. -/
private theorem set_too_long {F : Fix} {s : RW} {g : Genus} {column tag : Nat} {v : Val} (ht : CapiTag g column false true tag)
    (hfx : g.isFixed = false) {e : Exc} (he : v.estimate = .error e) : setField F s tag g v = .exc e s := by
  unfold setField
  rw [if_neg (by rw [ht.pre]; decide), if_neg (by rw [ht.coll]; decide), if_neg (by rw [hfx]; decide)]
  unfold assignStretchy
  rw [if_neg (fun k => k ht.genus)]
  have hn : neededUnits tag g v = .error e := by unfold neededUnits; rw [if_pos (Or.inl ht.disc), he]
  rw [hn]
  rfl

private theorem unitsFor_none {g : Genus} {v : Val} (h : unitsFor g v = none) : g.isFixed = false ∧ v.estimate = .error .valueTooLong := by
  unfold unitsFor at h
  split_ifs at h with hf
  refine ⟨by simpa using hf, ?_⟩
  cases he : v.estimate with
  | ok n => rw [he] at h; cases h
  | error e => rw [estimate_code he]

/-- **C46 (`fptu_upsert_*`, partial).** In every reachable tuple storing a value through the C API either succeeds, and then the field
of that type in that column reads as the value and every other field is untouched; or it reports an error and changes nothing:
"invalid argument" exactly for a column above 2047 or a value too long for its type, "no space" only when the deficit is
genuine, and never another code. For undefined behaviour see `C46_defined_partial`.
Missing for the code as it is: steps in which a defect of `src/gear.cxx` shows. -/
theorem C46_upsert_partial {F : Fix} {σ : Sch} {s : RW} {g : Genus} {column : Nat} {v : Val} (h : Reachable F σ s) (hg : g ≠ .hole)
    (hf : v.fits g = true) (hn : v ≠ .nested none) (hb : Benign F s g v) :
    (∀ s', upsert F s g column v = .code .ok s' → Upserted σ s s' g column v) ∧
    (∀ c s', upsert F s g column v = .code c s' → c ≠ .ok → s' = s) ∧
    (∀ s', upsert F s g column v = .code .inval s' ↔ s' = s ∧ (2047 < column ∨ unitsFor g v = none)) ∧
    (∀ s', upsert F s g column v = .code .nospace s' → ∃ n, unitsFor g v = some n ∧ GenuineDeficit s n) ∧
    (∀ s', upsert F s g column v ≠ .code .nofield s' ∧ upsert F s g column v ≠ .code .nomem s') := by
  by_cases hc : column ≤ 2047
  swap
  · have e : upsert F s g column v = .code .inval s := by unfold upsert; rw [capi_tag_error hc]; rfl
    rw [e]
    refine ⟨fun s' k => (by cases k), fun c s' k _ => (by cases k; rfl), fun s' => ⟨fun k => ?_, fun k => by rw [k.1]⟩, fun s' k => (by cases k),
      fun s' => ⟨fun k => (by cases k), fun k => (by cases k)⟩⟩
    cases k
    exact ⟨rfl, Or.inl (by omega)⟩
  have ht := capi_tag (g := g) (column := column) false true hg hc
  have e : upsert F s g column v = reply (setField F s (makeTag g column false true false) g v) := by
    unfold upsert; rw [ht.made]; rfl
  have hsb : StepBenign F s (.set (makeTag g column false true false) g v) := ⟨hb, Or.inr (Or.inr ht.loose)⟩
  have htok : TokenOk σ s.pre (makeTag g column false true false) := loose_token hg ht
  have hfail := (C15_set_partial h hf ht.genus ht.coll htok hsb).1
  rw [e]
  cases hr : setField F s (makeTag g column false true false) g v with
  | ub =>
    refine ⟨fun s' k => (by cases k), fun c s' k _ => (by cases k), fun s' => ⟨fun k => (by cases k), fun k => ?_⟩, fun s' k => (by cases k),
      fun s' => ⟨fun k => (by cases k), fun k => (by cases k)⟩⟩
    rcases k with ⟨_, k | k⟩
    · omega
    · obtain ⟨k1, k2⟩ := unitsFor_none k
      rw [set_too_long ht k1 k2] at hr; cases hr
  | ok u t =>
    refine ⟨fun s' k => ?_, fun c s' k hne => (by cases k; exact absurd rfl hne), fun s' => ⟨fun k => (by cases k), fun k => ?_⟩, fun s' k => (by cases k),
      fun s' => ⟨fun k => (by cases k), fun k => (by cases k)⟩⟩
    · have e2 : t = s' := by cases k; rfl
      subst e2
      obtain ⟨k1, k2, k3, k4, k5⟩ := C09_set_partial h ht.loose hf hsb hr (not_dropped ht hn)
      rw [ht.word] at k3 k4
      refine ⟨fun hv d => getLoose_discernible ht (capi_tag false d hg hc) rfl (k1 hv), fun b hbv d => ?_, k3, k4, k5⟩
      obtain ⟨r, k6, k7⟩ := k2 b hbv
      have hgv : g = .varbin := by
        rw [hbv] at hf
        simp only [Val.fits, Bool.and_eq_true, decide_eq_true_eq] at hf
        exact hf.1
      subst hgv
      exact ⟨r, getLoose_discernible ht (capi_tag false d hg hc) rfl k6, k7⟩
    · rcases k with ⟨_, k | k⟩
      · omega
      · obtain ⟨k1, k2⟩ := unitsFor_none k
        rw [set_too_long ht k1 k2] at hr; cases hr
  | exc x t =>
    have hst : t = s := C13_failed_partial (op := .set _ g v) h ⟨htok, hf⟩ hsb (by show (setField _ _ _ _ _) = _; exact hr)
    subst hst
    rcases hfail x t hr with k | ⟨n, k1, ⟨i, k2, _⟩, k3, _⟩ | ⟨k, _⟩
    · obtain ⟨k1, k2⟩ := unitsFor_none k
      have hx : x = .valueTooLong := by rw [set_too_long ht k1 k2] at hr; cases hr; rfl
      subst hx
      refine ⟨fun s' k => (by cases k), fun c s' k _ => (by cases k; rfl), fun s' => ⟨fun j => ?_, fun j => by rw [j.1]; rfl⟩, fun s' k => (by cases k),
        fun s' => ⟨fun k => (by cases k), fun k => (by cases k)⟩⟩
      cases j
      exact ⟨rfl, Or.inr k⟩
    · subst k2
      refine ⟨fun s' k => (by cases k), fun c s' k _ => (by cases k; rfl), fun s' => ⟨fun k => (by cases k), fun k => ?_⟩,
        fun s' _ => ⟨n, k1, k3⟩, fun s' => ⟨fun k => (by cases k), fun k => (by cases k)⟩⟩
      rcases k with ⟨_, k | k⟩
      · omega
      · rw [k1] at k; cases k
    · rw [ht.loose] at k; cases k

/-- **C46 (`fptu_upsert_*` is defined, partial).** It always returns when the junk together with the old values of the field has at
most 2047 units. Missing: beyond it an assertion may fail (C12), and steps in which a defect of `src/gear.cxx` shows. -/
theorem C46_defined_partial {F : Fix} {σ : Sch} {s : RW} {g : Genus} {column : Nat} {v : Val} (h : Reachable F σ s) (hg : g ≠ .hole)
    (hf : v.fits g = true) (hb : Benign F s g v) (hs : s.jv + unitsWhere s (· = g.code * 2048 + column) ≤ 2047) :
    ∃ c s', upsert F s g column v = .code c s' := by
  by_cases hc : column ≤ 2047
  swap
  · exact ⟨.inval, s, by unfold upsert; rw [capi_tag_error hc]; rfl⟩
  have ht := capi_tag (g := g) (column := column) false true hg hc
  have e : upsert F s g column v = reply (setField F s (makeTag g column false true false) g v) := by
    unfold upsert; rw [ht.made]; rfl
  have key := C12_step_partial (op := .set (makeTag g column false true false) g v) h ⟨loose_token hg ht, hf⟩ ⟨hb, Or.inr (Or.inr ht.loose)⟩
    (by
      rintro tag (k | ⟨g', v', k⟩)
      · cases k
      · injection k with k
        subst k
        unfold occupied
        rw [if_neg (by rw [preplaced_not_loose, ht.loose]; decide), ht.word]
        exact hs)
  rw [e]
  cases hr : setField F s (makeTag g column false true false) g v with
  | ub => exact absurd hr key
  | ok u t => exact ⟨.ok, t, rfl⟩
  | exc x t => exact ⟨codeOf x, t, rfl⟩

/-- **C46 for the repaired allocator**: the hypothesis on the step is always true. -/
theorem C46_upsert_repaired {σ : Sch} {s s' : RW} {g : Genus} {column : Nat} {v : Val} (h : Reachable .repaired σ s) (hg : g ≠ .hole)
    (hf : v.fits g = true) (hn : v ≠ .nested none) (hs : upsert .repaired s g column v = .code .ok s') : Upserted σ s s' g column v :=
  (C46_upsert_partial h hg hf hn (Benign.repaired s g v)).1 s' hs

/-- **C46 (`fptu_update_*`).** An update reports "no such field" and changes nothing when the column has no field of the type; otherwise it does
exactly what an upsert does. -/
theorem C46_update {F : Fix} {σ : Sch} {s : RW} {g : Genus} {column : Nat} {v : Val} (_h : Reachable F σ s) (hg : g ≠ .hole) (hc : column ≤ 2047) :
    ((∀ f ∈ fieldsOf s, f.1 ≠ capiWord g column) → update F s g column v = .code .nofield s) ∧
    ((∃ f ∈ fieldsOf s, f.1 = capiWord g column) → update F s g column v = upsert F s g column v) := by
  have ht := capi_tag (g := g) (column := column) false true hg hc
  have ht' := capi_tag (g := g) (column := column) true true hg hc
  have hw : capiWord g column / 2048 ≠ 31 := by
    rw [← ht.word]; exact tag_not_hole (by rw [ht.genus]; exact hg)
  have e1 : upsert F s g column v = reply (setField F s (makeTag g column false true false) g v) := by
    unfold upsert; rw [ht.made]; rfl
  have e2 : update F s g column v = reply (legacyUpdate F s (makeTag g column true true false) g v) := by
    unfold update; rw [ht'.made]; rfl
  constructor
  · intro hnone
    have hl : s.lookup (capiWord g column) = none := by
      rw [lookup_none hw]
      intro b hb
      exact hnone (entryAt s b) (Multiset.mem_map_of_mem _ (mem_liveSet.2 hb.1)) hb.2
    rw [e2]
    unfold legacyUpdate
    rw [gid_eq, ht'.word, hl]
    rfl
  · rintro ⟨f, hf, hfw⟩
    rw [e1, e2]
    clear e1 e2
    generalize makeTag g column false true false = tag at ht
    generalize makeTag g column true true false = tag' at ht'
    have hsome : ∃ a, s.lookup (capiWord g column) = some a := by
      cases hl : s.lookup (capiWord g column) with
      | some a => exact ⟨a, rfl⟩
      | none => exact absurd hfw (fields_none ((lookup_none hw).1 hl) f hf)
    obtain ⟨a, ha⟩ := hsome
    have n1 : neededUnits tag' g v = neededUnits tag g v := by
      unfold neededUnits; rw [ht.disc, ht'.disc]
    have key : legacyUpdate F s tag' g v = setField F s tag g v := ?_
    · rw [key]
    unfold legacyUpdate setField
    rw [if_neg (by rw [ht.pre]; decide), if_neg (by rw [ht.coll]; decide), gid_eq, gid_eq, ht.word, ht'.word, ha]
    dsimp only
    unfold assignLooseFixed assignStretchy
    simp only [ht.genus, ht'.genus, n1, ht.disc, ht'.disc, ht.loose, ht'.loose]

/-- The field is added: one more value of the type in the column, every other field is untouched. -/
structure Inserted (σ : Sch) (s s' : RW) (g : Genus) (column : Nat) (v : Val) : Prop where
  one : fieldsOf s' = (capiWord g column, some v) ::ₘ fieldsOf s
  kept : LooseKept s s' (fun w => w ≠ capiWord g column)
  pre : PreplacedKept σ s s' 0 0

private theorem insert_too_long {F : Fix} {s t : RW} {g : Genus} {column tag : Nat} {d : Bool} {v : Val} {x : Exc} (ht : CapiTag g column true d tag)
    (hfx : g.isFixed = false) (he : v.estimate = .error .valueTooLong) (hr : insertField F s tag g v = .exc x t) : x = .valueTooLong := by
  unfold insertField at hr
  rw [if_neg (fun k => k ht.genus), if_neg (by rw [ht.coll]; decide), he] at hr
  split_ifs at hr with h1 h2
  · rw [h2] at hfx; cases hfx
  · injection hr with hr _; exact hr.symm

/-- **C46 (`fptu_insert_*`, partial).** An insert that reports success has added the value, unless the token treats empty values
as absent and the value is empty; then nothing changes. Missing for the code as it is: steps in which a defect of `src/gear.cxx` shows. -/
theorem C46_insert_partial {F : Fix} {σ : Sch} {s : RW} {g : Genus} {column : Nat} {v : Val} {d : Bool} (h : Reachable F σ s) (hg : g ≠ .hole)
    (hf : v.fits g = true) (hn : v ≠ .nested none) (hb : Benign F s g v) :
    (∀ s', insertWithToken d F s g column v = .code .ok s' →
      (d = true ∨ v.isEmpty g = false → Inserted σ s s' g column v) ∧ (d = false ∧ v.isEmpty g = true → s' = s)) ∧
    (∀ c s', insertWithToken d F s g column v = .code c s' → c ≠ .ok → s' = s) ∧
    (∀ s', insertWithToken d F s g column v = .code .nospace s' → ∃ n, unitsFor g v = some n ∧ GenuineDeficit s n) ∧
    insertWithToken d F s g column v ≠ .ub := by
  by_cases hc : column ≤ 2047
  swap
  · have e : insertWithToken d F s g column v = .code .inval s := by unfold insertWithToken; rw [capi_tag_error hc]; rfl
    rw [e]
    exact ⟨fun s' k => (by cases k), fun c s' k _ => (by cases k; rfl), fun s' k => (by cases k), fun k => (by cases k)⟩
  have ht := capi_tag (g := g) (column := column) true d hg hc
  have e : insertWithToken d F s g column v = reply (insertField F s (makeTag g column true d false) g v) := by
    unfold insertWithToken; rw [ht.made]; rfl
  have hsb : StepBenign F s (.insert (makeTag g column true d false) g v) := hb
  have htok : TokenOk σ s.pre (makeTag g column true d false) := loose_token hg ht
  have hfail := (C15_insert_partial h hf ht.genus ht.coll hsb).1
  have hub := insert_spec h.wf hb ht.genus hf ht.coll
  rw [e]
  cases hr : insertField F s (makeTag g column true d false) g v with
  | ub => rw [hr] at hub; exact hub.elim
  | ok r t =>
    refine ⟨fun s' k => ?_, fun c s' k hne => (by cases k; exact absurd rfl hne), fun s' k => (by cases k), fun k => (by cases k)⟩
    have e2 : t = s' := by cases k; rfl
    subst e2
    obtain ⟨k1, k2, k3, k4⟩ := C10_insert_partial h hf hsb hr
    rw [ht.word] at k2 k3
    rw [ht.disc] at k1 k2
    constructor
    · intro hd
      obtain ⟨_, k5⟩ := k2 (by
        rintro ⟨j1, j2⟩
        rcases hd with hd | hd
        · exact j1 hd
        · rw [hd] at j2; cases j2)
      rw [if_neg hn] at k5
      exact ⟨k5, k3, k4⟩
    · rintro ⟨hd, hv⟩
      exact (k1 ⟨by rw [hd]; decide, hv⟩).1
  | exc x t =>
    have hst : t = s := C13_failed_partial (op := .insert _ g v) h ⟨htok, hf⟩ hsb (by
      show (insertField _ _ _ _ _).bind _ = _
      rw [hr]; rfl)
    subst hst
    refine ⟨fun s' k => ?_, fun c s' k _ => (by cases k; rfl), fun s' k => ?_, fun k => (by cases k)⟩
    · exfalso
      rcases hfail x t hr with j | ⟨n, j1, ⟨i, j2, _⟩, j3⟩
      · obtain ⟨j1, j2⟩ := unitsFor_none j
        rw [insert_too_long ht j1 j2 hr] at k
        cases k
      · subst j2; cases k
    · rcases hfail x t hr with j | ⟨n, j1, _, j3⟩
      · exfalso
        obtain ⟨j1, j2⟩ := unitsFor_none j
        rw [insert_too_long ht j1 j2 hr] at k
        cases k
      · exact ⟨n, j1, j3⟩

/-- The types of `fptu_insert_96` ... `fptu_insert_256`. -/
def wideBinaries : List Genus := [.bin96, .bin128, .bin160, .bin256]

private theorem wide_iff (g : Genus) : isCapiBinary g = true ↔ g ∈ wideBinaries := by cases g <;> decide

/-- **C46 (`fptu_insert_*`).** All other types than the binaries of 96 to 256 bits are inserted whatever the value is. -/
theorem C46_insert_any_partial {F : Fix} {σ : Sch} {s s' : RW} {g : Genus} {column : Nat} {v : Val} (h : Reachable F σ s) (hg : g ≠ .hole)
    (hf : v.fits g = true) (hn : v ≠ .nested none) (hb : Benign F s g v) (hc : g ∉ wideBinaries)
    (hs : insert F s g column v = .code .ok s') : Inserted σ s s' g column v :=
  ((C46_insert_partial (d := !isCapiBinary g) h hg hf hn hb).1 s' hs).1 (Or.inl (by
    have hc : isCapiBinary g = false := by rw [← wide_iff] at hc; simpa using hc
    rw [hc]; rfl))

/-- **C46 (refuted).** `fptu_insert_96` ... `fptu_insert_256` of a binary of zeros report success and insert nothing: the token is made without
the flag the other `fptu_insert_*` set (compat_rw.cxx:385). -/
theorem C46_insert_binary_refuted (F : Fix) (s : RW) {g : Genus} {column : Nat} (hg : g ∈ wideBinaries) (hc : column ≤ 2047) :
    insert F s g column (.units (List.replicate g.looseUnits .zero)) = .code .ok s := by
  rw [← wide_iff] at hg
  have hne : g ≠ .hole := by rintro rfl; cases hg
  have ht := capi_tag (g := g) (column := column) true false hne hc
  have he : (Val.units (List.replicate g.looseUnits .zero)).isEmpty g = true := by
    cases g <;> first | rfl | cases hg
  unfold CapiRw.insert insertWithToken
  rw [hg]
  show guarded s (capiToken g column true false) _ = _
  rw [ht.made]
  show reply (insertField _ _ _ _ _) = _
  unfold insertField
  rw [if_neg (fun k => k ht.genus), if_neg (by rw [ht.coll]; decide), if_pos ⟨by rw [ht.disc]; decide, he⟩]
  rfl

/-- ... whereas `fptu_upsert_96` ... store them. -/
theorem C46_upsert_binary_partial {F : Fix} {σ : Sch} {s s' : RW} {g : Genus} {column : Nat} (h : Reachable F σ s) (hg : g ∈ wideBinaries)
    (hb : Benign F s g (.units (List.replicate g.looseUnits .zero)))
    (hs : upsert F s g column (.units (List.replicate g.looseUnits .zero)) = .code .ok s') :
    Upserted σ s s' g column (.units (List.replicate g.looseUnits .zero)) :=
  have hg := (wide_iff g).2 hg
  (C46_upsert_partial h (by rintro rfl; cases hg) (by cases g <;> first | decide | cases hg) (fun k => (by cases k)) hb).1 s' hs

/-- **C46 (`fptu_upsert_int32`, ..., partial).** A number in the range of the type is stored and read back as it is. -/
theorem C46_upsert_int_partial {F : Fix} {σ : Sch} {s s' : RW} {g : Genus} {column : Nat} {n : Int} (h : Reachable F σ s) (hg : Num.isInt g = true)
    (hn : Num.inRange g n) (hb : Benign F s g (Num.intVal g n)) (hs : upsertInt F s g column n = .code .ok s') (d : Bool) :
    (Num.getFixed s' (makeTag g column false d false) g).map (Num.intOf g) = .ok n := by
  have hh : g ≠ .hole := by rintro rfl; cases hg
  have hc : column ≤ 2047 := by
    by_contra hc
    have e : upsertInt F s g column n = .code .inval s := by unfold upsertInt upsert; rw [capi_tag_error hc]; rfl
    rw [e] at hs; cases hs
  have hu := (C46_upsert_partial h hh (Num.intVal_fits hg n) (by unfold Num.intVal Num.bitsVal; split_ifs <;> exact fun k => (by cases k)) hb).1 s' hs
  unfold Num.getFixed
  rw [if_neg (by rw [(capi_tag false d hh hc).pre]; decide), hu.read (by rintro rfl; cases hg) d]
  show Except.ok (Num.intOf g ((Num.intVal g n).bytes g)) = _
  rw [Num.intOf_intVal hg hn]

/-- **C46 (`fptu_upsert_null`, partial).** It stores the "no value" pattern of the 16-bit type, which reads back. -/
theorem C46_upsert_null_partial {F : Fix} {σ : Sch} {s s' : RW} {column : Nat} (h : Reachable F σ s) (hb : Benign F s .i16 (.inline 32768))
    (hs : upsertNull F s column = .code .ok s') (d : Bool) :
    getLoose s' (makeTag .i16 column false d false) .i16 = .ok (some (.inline 32768)) ∧ LooseKept s s' (fun w => w ≠ capiWord .i16 column) := by
  have hc : column ≤ 2047 := by
    by_contra hc
    have e : upsertNull F s column = .code .inval s := by unfold upsertNull; rw [capi_tag_error hc]; rfl
    rw [e] at hs; cases hs
  have ht := capi_tag (g := .i16) (column := column) false false (by decide) hc
  have ht' := capi_tag (g := .i16) (column := column) false d (by decide) hc
  have e : upsertNull F s column = reply (setField F s (makeTag .i16 column false false false) .i16 (.inline 32768)) := by
    unfold upsertNull; rw [ht.made]; rfl
  rw [e] at hs
  generalize makeTag .i16 column false false false = tag at hs ht
  cases hr : setField F s tag .i16 (.inline 32768) with
  | ub => rw [hr] at hs; cases hs
  | exc x t =>
    rw [hr] at hs
    have : codeOf x = .ok := by injection hs
    cases x <;> cases this
  | ok u t =>
    rw [hr] at hs
    have e2 : t = s' := by cases hs; rfl
    subst e2
    have hsb : StepBenign F s (.set tag .i16 (.inline 32768)) := ⟨hb, Or.inr (Or.inr ht.loose)⟩
    have hnd : ¬ dropped tag .i16 (.inline 32768) := by
      rintro (k | k)
      · exact absurd k.2 (by decide)
      · cases k
    obtain ⟨k1, _, _, k4, _⟩ := C09_set_partial h ht.loose (by decide) hsb hr hnd
    rw [ht.word] at k4
    refine ⟨?_, k4⟩
    have k1 := k1 (by decide)
    have hl : getLoose t tag .i16 = getEntry t tag .i16 (t.lookup (capiWord .i16 column)) := by
      unfold getLoose; rw [gid_eq, ht.word, if_neg (by rw [ht.coll]; decide)]
    have hl' : getLoose t (makeTag .i16 column false d false) .i16 = getEntry t (makeTag .i16 column false d false) .i16 (t.lookup (capiWord .i16 column)) := by
      unfold getLoose; rw [gid_eq, ht'.word, if_neg (by rw [ht'.coll]; decide)]
    rw [hl] at k1
    rw [hl']
    cases hf : t.lookup (capiWord .i16 column) with
    | some a =>
      rw [hf] at k1
      unfold getEntry at k1 ⊢
      rw [if_neg (fun k => k ht.genus)] at k1
      rw [if_neg (fun k => k ht'.genus)]
      exact k1
    | none =>
      rw [hf] at k1
      unfold getEntry at k1
      rw [if_neg (fun k => k ht.genus), ht.disc] at k1
      cases k1

/-- **C46 (refuted).** Numbers out of range are not rejected by `fptu_upsert_int32` and `fptu_upsert_uint32`, whose parameters have 64 bits: the upper
half is lost, e.g. 2³² is stored as 0. -/
theorem C46_int32_refuted (F : Fix) (s : RW) (column : Nat) (n : Int) :
    upsertInt F s .i32 column (n + 2 ^ 32) = upsertInt F s .i32 column n ∧ upsertInt F s .u32 column (n + 2 ^ 32) = upsertInt F s .u32 column n := by
  have e : ∀ g : Genus, Num.width g = 32 → Num.intVal g (n + 2 ^ 32) = Num.intVal g n := by
    intro g hw
    unfold Num.intVal Num.pattern
    rw [hw, Int.add_emod_right]
  unfold upsertInt
  rw [e .i32 rfl, e .u32 rfl]
  exact ⟨rfl, rfl⟩

/-- **C46 (reading).** Reading a column of a serialized tuple through the C API gives what the getter of the mutable tuple gives: the value, or
the default of the type (with `FPTU_OK`) when there is no such field. Columns above 2047 are rejected. -/
theorem C46_get_partial {F : Fix} {s : RW} (h : History F none s) (hmax : s.pivot - s.head ≤ 8191) (hsize : s.tail - s.head + 1 ≤ 65534)
    {g : Genus} {column : Nat} (hg : g ≠ .hole) (hv : g ≠ .varbin) :
    getC (takeAsis none s) (bruttoSize s) g column =
      if 2047 < column then .error .inval
      else match getLoose s (makeTag g column false false false) g with
        | .ok v => .ok v
        | .error e => .error (codeOf e) := by
  by_cases hc : column ≤ 2047
  swap
  · rw [if_pos (by omega)]
    unfold getC; rw [capi_tag_error hc]; rfl
  rw [if_neg (by omega)]
  have ht := capi_tag (g := g) (column := column) false false hg hc
  obtain ⟨_, k2, k3⟩ := C19_serialized_partial h (by show _ + 0 ≤ _; omega) hsize
  have e : getLoose (roTuple (takeAsis none s)) (makeTag g column false false false) g = getLoose (serialized none s) (makeTag g column false false false) g := rfl
  have hh : isHollow (takeAsis none s) (bruttoSize s) = false := by
    unfold isHollow
    rw [k2]
    unfold bruttoSize units2bytes
    rw [Nat.shiftLeft_eq]
    simp
  unfold getC
  rw [ht.made]
  dsimp only
  rw [hh, if_neg (by decide), e, k3.loose _ _ (by rw [ht.genus]; exact hg) hv]
  generalize getLoose s (makeTag g column false false false) g = r
  cases r <;> rfl

/-- **C46 (emptiness, partial).** `fptu_is_empty_ro` says of a serialized tuple what `fptu_is_empty_rw` says of the tuple: that it has no fields. A buffer
which is not a whole tuple is reported empty. Missing: histories in which a defect of `src/gear.cxx` shows (`C46_is_empty_refuted`). -/
theorem C46_is_empty_partial {F : Fix} {s : RW} (h : History F none s) (hmax : s.pivot - s.head ≤ 8191) (hsize : s.tail - s.head + 1 ≤ 65534) :
    (isEmptyRo (takeAsis none s) (bruttoSize s) = true ↔ fieldsOf s = 0) ∧
    isEmptyRo (takeAsis none s) (bruttoSize s) = Serial.isEmpty s ∧
    ∀ bytes, bytes ≠ bruttoSize s → isEmptyRo (takeAsis none s) bytes = true := by
  obtain ⟨k1, k2, _⟩ := takeAsis_header (sch := none) hsize hmax
  have hpre : s.pre = 0 := h.pre
  have hR : Reachable F (fun _ => none) s := h.made
  have wf := hR.wf
  have hc := wf_count wf
  have hhp := wf.inv.hp
  have hbr : bruttoSize s = 4 * (s.tail - s.head + 1) := by
    unfold bruttoSize units2bytes
    rw [Nat.shiftLeft_eq, Nat.mul_comm]
  have hhol : ∀ bytes, isHollow (takeAsis none s) bytes = decide (bytes ≠ bruttoSize s) := fun bytes => by
    unfold isHollow units2bytes
    rw [k1, Nat.shiftLeft_eq, hbr]
    refine decide_eq_decide.2 ?_
    omega
  have e : isEmptyRo (takeAsis none s) (bruttoSize s) = true ↔ fieldsOf s = 0 := by
    unfold isEmptyRo
    rw [hhol, if_neg (by simp), decide_eq_true_iff, Nested.indexSize, k2]
    constructor
    · intro he
      rw [← Multiset.card_eq_zero]; omega
    · intro hf
      obtain ⟨k, _⟩ := C14_reclaim_partial hR hf (fun _ _ hk => by cases hk)
      omega
  refine ⟨e, ?_, fun bytes hb => ?_⟩
  · rw [Bool.eq_iff_iff, e, C40_empty hR hpre]
  · unfold isEmptyRo
    rw [hhol, if_pos (by simpa using hb)]

/-- **C46 (refuted).** After the history of `C14_reclaim_refuted`, all fields being erased, both functions say that the tuple is not empty. -/
theorem C46_is_empty_refuted : ∃ s, run .code (fresh 4 30) leakOps = some s ∧ fieldsOf s = 0 ∧
    isEmptyRo (takeAsis none s) (bruttoSize s) = false ∧ Serial.isEmpty s = false := by
  obtain ⟨s, hr, hp⟩ := run_decide (F := .code) (s := fresh 4 30) (ops := leakOps)
    (fun s => decide (liveSet s = ∅ ∧ isEmptyRo (takeAsis none s) (bruttoSize s) = false ∧ Serial.isEmpty s = false)) (by decide +kernel)
  obtain ⟨p1, p2⟩ := of_decide_eq_true hp
  exact ⟨s, hr, by unfold fieldsOf; rw [p1]; rfl, p2⟩

/-- A field, and the same field erased again. -/
example : (∃ s, History .code none s ∧ isEmptyRo (takeAsis none s) (bruttoSize s) = false) ∧
    ∃ s, History .code none s ∧ run .code (fresh 8 60) [setF .u64 3 5, setN 1 3, .erase (fix .u64 3), eraseN 1] = some s ∧
      isEmptyRo (takeAsis none s) (bruttoSize s) = true := by
  have mk : ∀ ops s, (∀ op ∈ ops, OpOk (schOf none) 0 op) → RunBenign .code (fresh 8 60) ops → run .code (fresh 8 60) ops = some s → History .code none s :=
    fun ops s ho hb hr => .of_run (mem := fun _ => .zero) (items := 8) (lim := 60) (image := []) (fun S h => (by cases h)) rfl
      (by decide) (by decide) (fun k g h => (by cases h)) ho hb hr
  constructor
  · obtain ⟨s, hr, hp⟩ := run_decide (F := .code) (s := fresh 8 60) (ops := [setF .u64 3 5])
      (fun s => decide (s.pivot - s.head ≤ 8191 ∧ s.tail - s.head + 1 ≤ 65534 ∧ isEmptyRo (takeAsis none s) (bruttoSize s) = false)) (by decide +kernel)
    exact ⟨s, mk _ s (opOk_of (by decide +kernel)) (runBenign_of (by decide +kernel)) hr, (of_decide_eq_true hp).2.2⟩
  · obtain ⟨s, hr, hp⟩ := run_decide (F := .code) (s := fresh 8 60) (ops := [setF .u64 3 5, setN 1 3, .erase (fix .u64 3), eraseN 1])
      (fun s => decide (s.pivot - s.head ≤ 8191 ∧ s.tail - s.head + 1 ≤ 65534 ∧ liveSet s = ∅)) (by decide +kernel)
    obtain ⟨p1, p2, p3⟩ := of_decide_eq_true hp
    have h := mk _ s (opOk_of (by decide +kernel)) (runBenign_of (by decide +kernel)) hr
    exact ⟨s, h, hr, (C46_is_empty_partial h p1 p2).1.2 (by unfold fieldsOf; rw [p3]; rfl)⟩

/-- `C46_defined_partial` applies to a tuple of more than 4000 units. -/
example : ∃ s, Reachable .code noPre s ∧ s.base + 4000 < s.tail ∧ ∃ c s', upsert .code s .nested 3 (nstVal 200 1) = .code c s' := by
  obtain ⟨s, hre, h1, h2, _, h4, _, _, h6⟩ := roomy_run
  exact ⟨s, hre, h1, C46_defined_partial hre (by decide) (by decide +kernel) h6 (by rw [h2, h4]; decide)⟩

/-- The hypotheses of `C46_upsert_partial`, `C46_insert_partial` and `C46_get_partial` meet: a tuple with a hole and four fields; a further one is stored,
another one inserted, both are seen in the serialized tuple. -/
example : ∃ s s' s'', Reachable .code noPre s ∧ Benign .code s .u32 (unitsVal 1 77) ∧ upsert .code s .u32 9 (unitsVal 1 77) = .code .ok s' ∧
    insert .code s' .u64 9 (unitsVal 2 5) = .code .ok s'' ∧ (liveSet s'').card = 6 ∧ s.jc = 1 := by
  obtain ⟨s, hr, hp⟩ := run_decide (F := .code) (s := fresh 8 60) (ops := goodOps) (fun s =>
      decide (s.jc = 1) && stepBenignB .code s (.set (fix .u32 9) .u32 (unitsVal 1 77)) && match upsert .code s .u32 9 (unitsVal 1 77) with
        | .code .ok s' => match insert .code s' .u64 9 (unitsVal 2 5) with
          | .code .ok s'' => decide ((liveSet s'').card = 6)
          | _ => false
        | _ => false) (by decide +kernel)
  rw [Bool.and_eq_true, Bool.and_eq_true] at hp
  obtain ⟨⟨hp1, hp2⟩, hp3⟩ := hp
  have hre : Reachable .code noPre s := (fresh_ok (by decide) (by decide)).reachable (opOk_of (by decide +kernel)) (runBenign_of (by decide +kernel)) hr
  cases e : upsert .code s .u32 9 (unitsVal 1 77) with
  | ub => rw [e] at hp3; cases hp3
  | code c s' =>
    rw [e] at hp3
    cases c <;> first | cases hp3 | skip
    dsimp only at hp3
    cases e2 : insert .code s' .u64 9 (unitsVal 2 5) with
    | ub => rw [e2] at hp3; cases hp3
    | code c s'' =>
      rw [e2] at hp3
      cases c <;> first | cases hp3 | skip
      exact ⟨s, s', s'', hre, (stepBenign_of hp2).1, e, e2, of_decide_eq_true hp3, of_decide_eq_true hp1⟩

/-! ## C38: nested tuples -/

/-- The data the caller passes as a nested tuple are bytes. -/
def CellsOk (m : Memory) : Prop := ∀ i, Cell.ok (m i) = true

/-- What `*_nested` take from the caller's buffer: the audited tuple, otherwise "invalid argument". -/
theorem nestedArg_spec (ptr : Option Memory) (bytes : Nat) :
    (∃ m st, ptr = some m ∧ auditRo none m bytes = .pass st ∧ bytes = 4 * (m 0).lo ∧ 1 ≤ (m 0).lo ∧
      nestedArg ptr bytes = .ok (.nested (some (m.readCells 0 (m 0).lo)))) ∨
    ((∀ m, ptr = some m → accepted (auditRo none m bytes) = false) ∧ ∃ e, nestedArg ptr bytes = .error e ∧ codeOf e = .inval) := by
  cases ptr with
  | none => exact Or.inr ⟨fun m k => (by cases k), .tupleHollow, rfl, rfl⟩
  | some m =>
    have hlite : ∀ st, auditRo none m bytes = .pass st → bytes = 4 * (m 0).lo ∧ 1 ≤ (m 0).lo ∧ ¬ bytes < 4 := by
      intro st hst
      unfold auditRo at hst
      cases hl : liteCheckup m bytes with
      | some x => rw [hl] at hst; cases hst
      | none =>
        unfold liteCheckup units2bytes at hl
        split_ifs at hl
        rw [Nat.shiftLeft_eq] at *
        omega
    unfold nestedArg makeFromBuffer
    dsimp only
    cases ha : auditRo none m bytes with
    | pass st =>
      obtain ⟨h1, h2, h3⟩ := hlite st ha
      rw [if_neg h3, if_neg (by decide)]
      exact Or.inl ⟨m, st, rfl, ha, h1, h2, rfl⟩
    | fail e r =>
      refine Or.inr ⟨fun m' k => ?_, ?_⟩
      · cases k; rw [ha]; rfl
      · by_cases h3 : bytes < 4
        · rw [if_pos h3, if_neg (by decide)]; exact ⟨_, rfl, rfl⟩
        · rw [if_neg h3, if_neg (by decide)]; exact ⟨_, rfl, rfl⟩
    | bug r =>
      refine Or.inr ⟨fun m' k => ?_, ?_⟩
      · cases k; rw [ha]; rfl
      · by_cases h3 : bytes < 4
        · rw [if_pos h3, if_neg (by decide)]; exact ⟨_, rfl, rfl⟩
        · rw [if_neg h3, if_neg (by decide)]; exact ⟨_, rfl, rfl⟩

private theorem nested_fits {m : Memory} (h1 : 1 ≤ (m 0).lo) (hc : CellsOk m) : (Val.nested (some (m.readCells 0 (m 0).lo))).fits .nested = true := by
  have hlen : (m.readCells 0 (m 0).lo).length = (m 0).lo := by unfold Memory.readCells; simp
  have hhead : (m.readCells 0 (m 0).lo).headD .zero = m 0 := by
    unfold Memory.readCells
    obtain ⟨k, hk⟩ : ∃ k, (m 0).lo = k + 1 := ⟨(m 0).lo - 1, by omega⟩
    rw [hk, List.range_succ_eq_map]
    rfl
  have hne : m.readCells 0 (m 0).lo ≠ [] := by intro k; rw [k] at hlen; simp at hlen; omega
  unfold Val.fits
  simp only [Bool.and_eq_true, decide_eq_true_eq, List.all_eq_true]
  refine ⟨⟨trivial, hne, by rw [hhead, hlen]⟩, fun c hcm => ?_⟩
  unfold Memory.readCells at hcm
  obtain ⟨i, _, rfl⟩ := List.mem_map.1 hcm
  exact hc _

/-- **C38 (refuted).** `fptu_upsert_nested` never stores anything: for every tuple, column and buffer it reports "invalid argument", because it
makes a token for opaque binaries (compat_rw.cxx:342-352). -/
theorem C38_upsert_nested_refuted (F : Fix) (s : RW) (column : Nat) (ptr : Option Memory) (bytes : Nat) :
    upsertNested F s column ptr bytes = .code .inval s := by
  unfold upsertNested upsertNestedWith
  by_cases hc : column ≤ 2047
  swap
  · rw [capi_tag_error hc]; rfl
  have ht := capi_tag (g := .varbin) (column := column) false true (by decide) hc
  rw [ht.made]
  generalize makeTag .varbin column false true false = tag at ht
  rcases nestedArg_spec ptr bytes with ⟨m, st, _, _, _, _, e⟩ | ⟨_, x, e, hx⟩
  · rw [e]
    show reply (setField F s tag .nested _) = _
    unfold setField
    rw [if_neg (by rw [ht.pre]; decide), if_neg (by rw [ht.coll]; decide), if_neg (by decide)]
    unfold assignStretchy
    rw [if_pos (by rw [ht.genus]; decide)]
    rfl
  · rw [e]
    show Reply.code (codeOf x) s = _
    rw [hx]

/-- **C38 (nested tuples, repaired token and the other functions).** With a token for nested tuples, a buffer that passes the validation is
stored, inserted or updated as any other value (C46), and any other buffer is rejected without a change. -/
theorem C38_nested {F : Fix} (s : RW) (column : Nat) (ptr : Option Memory) (bytes : Nat) :
    (∀ m, ptr = some m → accepted (auditRo none m bytes) = true → CellsOk m →
      let v := Val.nested (some (m.readCells 0 (m 0).lo))
      v.fits .nested = true ∧ (m.readCells 0 (m 0).lo).length * 4 = bytes ∧
      upsertNestedWith .nested F s column ptr bytes = upsert F s .nested column v ∧
      insertNested F s column ptr bytes = insert F s .nested column v ∧
      updateNested F s column ptr bytes = update F s .nested column v) ∧
    ((∀ m, ptr = some m → accepted (auditRo none m bytes) = false) →
      upsertNestedWith .nested F s column ptr bytes = .code .inval s ∧ insertNested F s column ptr bytes = .code .inval s ∧
      updateNested F s column ptr bytes = .code .inval s) := by
  have bindErr : ∀ {o : Except Exc Nat} {x : Exc}, codeOf x = .inval → (∀ e, o = .error e → codeOf e = .inval) →
      ∀ {α : Type} (f : Nat × Val → Out α), guarded s (o.bind fun tag => ((Except.error x : Except Exc Val)).map fun v => (tag, v)) f = .code .inval s := by
    intro o x hx ho α f
    cases o with
    | ok t => show Reply.code (codeOf x) s = _; rw [hx]
    | error e => show Reply.code (codeOf e) s = _; rw [ho e rfl]
  have tokErr : ∀ c e, capiToken .nested column c true = .error e → codeOf e = .inval := by
    intro c e he
    by_cases hc : column ≤ 2047
    · rw [(capi_tag (g := .nested) c true (by decide) hc).made] at he; cases he
    · rw [capi_tag_error hc] at he; cases he; rfl
  have bindOk : ∀ {o : Except Exc Nat} {w : Val} {α : Type} (f : Nat → Val → Out α),
      guarded s (o.bind fun tag => ((Except.ok w : Except Exc Val)).map fun v => (tag, v)) (fun a => f a.1 a.2) = guarded s o (fun tag => f tag w) := by
    intro o w α f
    cases o <;> rfl
  refine ⟨fun m hm ha hcm => ?_, fun hrej => ?_⟩
  · rcases nestedArg_spec ptr bytes with ⟨m', st, e1, e2, e3, e4, e5⟩ | ⟨k, _⟩
    · have hmm : m' = m := by rw [hm] at e1; exact (Option.some.inj e1).symm
      subst hmm
      refine ⟨nested_fits e4 hcm, ?_, ?_, ?_, ?_⟩
      · unfold Memory.readCells; simp; omega
      · unfold upsertNestedWith; rw [e5]; exact bindOk (setField F s · .nested ·)
      · unfold insertNested; rw [e5]; exact bindOk (insertField F s · .nested ·)
      · unfold updateNested; rw [e5]; exact bindOk (legacyUpdate F s · .nested ·)
    · rw [k m hm] at ha; cases ha
  · rcases nestedArg_spec ptr bytes with ⟨m', st, e1, e2, _⟩ | ⟨_, x, e, hx⟩
    · have := hrej m' e1; rw [e2] at this; cases this
    · refine ⟨?_, ?_, ?_⟩
      · unfold upsertNestedWith; rw [e]; exact bindErr hx (tokErr false) _
      · unfold insertNested; rw [e]; exact bindErr hx (tokErr true) _
      · unfold updateNested; rw [e]; exact bindErr hx (tokErr true) _

/-- **C38 (reading back, partial).** After a successful store of a nested tuple (with the repaired token) the field reads as exactly the given
tuple. Missing for the code as it is: steps in which a defect of `src/gear.cxx` shows. -/
theorem C38_nested_read_partial {F : Fix} {σ : Sch} {s s' : RW} {column bytes : Nat} {m : Memory} (h : Reachable F σ s) (hm : CellsOk m)
    (hb : Benign F s .nested (.nested (some (m.readCells 0 (m 0).lo))))
    (hs : upsertNestedWith .nested F s column (some m) bytes = .code .ok s') (d : Bool) :
    getLoose s' (makeTag .nested column false d false) .nested = .ok (some (.nested (some (m.readCells 0 (m 0).lo)))) ∧
    (m.readCells 0 (m 0).lo).length * 4 = bytes ∧ LooseKept s s' (fun w => w ≠ capiWord .nested column) := by
  obtain ⟨k1, k2⟩ := C38_nested (F := F) s column (some m) bytes
  by_cases ha : accepted (auditRo none m bytes) = true
  · obtain ⟨j1, j2, j3, _⟩ := k1 m rfl ha hm
    rw [j3] at hs
    have hu := (C46_upsert_partial h (by decide) j1 (fun k => (by cases k)) hb).1 s' hs
    exact ⟨hu.read (by decide) d, j2, hu.kept⟩
  · have := (k2 (fun m' k => by cases k; simpa using ha)).1
    rw [this] at hs; cases hs

/-- A buffer that passes: the empty tuple. -/
example : accepted (auditRo none (fun _ => ⟨1, 0⟩) 4) = true ∧ CellsOk (fun _ => ⟨1, 0⟩) := ⟨by decide +kernel, fun _ => rfl⟩

end Fptu.Props
