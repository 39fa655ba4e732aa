import Verif.Props.Book
import Verif.Props.Serial
import Verif.Model.CapiRw
/-!
# C71: presence of fields

`is_present(token)` says whether a tuple has a value of the field.
-/
namespace Fptu.Props
open Fptu Fptu.Gear Fptu.Rw Fptu.Audit Fptu.Compact Fptu.Serial

private theorem loose_np {tag : Nat} (h : isLoose tag = true) : isPreplaced tag = false := by rw [preplaced_not_loose, h]; rfl

private theorem mem_book {s : RW} {w : Nat} {x : Option Val} : x ∈ bookOf s w ↔ ∃ a, RW.has s w a ∧ (entryAt s a).2 = x := by
  unfold bookOf fieldsOf
  rw [Multiset.mem_map]
  constructor
  · rintro ⟨f, hf, rfl⟩
    obtain ⟨h1, h2⟩ := Multiset.mem_filter.1 hf
    obtain ⟨a, ha, rfl⟩ := Multiset.mem_map.1 h1
    exact ⟨a, ⟨mem_liveSet.1 ha, h2⟩, rfl⟩
  · rintro ⟨a, ha, rfl⟩
    exact ⟨entryAt s a, Multiset.mem_filter.2 ⟨Multiset.mem_map_of_mem _ (mem_liveSet.2 ha.1), ha.2⟩, rfl⟩

/-- **C71 (loose fields).** In every tuple, `is_present` of a loose field or a collection says whether the tuple holds a value of
it. -/
theorem C71_present {s : RW} {tag : Nat} (hl : isLoose tag = true) (hg : tag2genus tag ≠ .hole) :
    isPresent s tag = true ↔ ∃ f ∈ fieldsOf s, f.1 = tag % 65536 := by
  have hw := tag_not_hole hg
  unfold isPresent
  rw [if_neg (by rw [loose_np hl]; decide), gid_eq]
  constructor
  · intro h
    obtain ⟨a, ha⟩ := Option.isSome_iff_exists.1 h
    have ha := ((lookup_some hw).1 ha).1
    exact ⟨entryAt s a, Multiset.mem_map_of_mem _ (mem_liveSet.2 ha.1), ha.2⟩
  · rintro ⟨f, hf, hf'⟩
    obtain ⟨a, ha, rfl⟩ := Multiset.mem_map.1 hf
    cases hlk : s.lookup (tag % 65536) with
    | some b => rfl
    | none => exact absurd ⟨mem_liveSet.1 ha, hf'⟩ ((lookup_none hw).1 hlk a)

private theorem present_book {s : RW} {tag : Nat} (hl : isLoose tag = true) (hg : tag2genus tag ≠ .hole) :
    isPresent s tag = true ↔ bookOf s (tag % 65536) ≠ 0 := by
  rw [C71_present hl hg]
  constructor
  · rintro ⟨f, hf, hf'⟩ h0
    have : f.2 ∈ bookOf s (tag % 65536) := Multiset.mem_map.2 ⟨f, Multiset.mem_filter.2 ⟨hf, hf'⟩, rfl⟩
    rw [h0] at this
    exact absurd this (Multiset.notMem_zero _)
  · intro h
    obtain ⟨x, hx⟩ := Multiset.exists_mem_of_ne_zero h
    obtain ⟨f, hf, _⟩ := Multiset.mem_map.1 hx
    obtain ⟨h1, h2⟩ := Multiset.mem_filter.1 hf
    exact ⟨f, h1, h2⟩

/-- **C71 (any history, partial).** After any sequence of operations and compactions `is_present` of a loose field says whether the
book (C68), which knows the operations only, has a value. Restricted as `C68_book_partial`. -/
theorem C71_history_partial {F : Fix} {guard : Bool} {σ : Sch} {srt : List Item → List Item} {C : Nat → Bool} {s t : RW} {es : List Ev}
    {outs : List (Option Exc)} {tag : Nat} (h : Reachable F σ s) (hs : Sorter srt) (hops : ∀ e ∈ es, EvOk σ s.pre e) (hu : ∀ e ∈ es, Uses C e)
    (h1 : Singles C (bookOf s)) (hb : LifeBenign F guard σ srt s es) (hr : life F guard σ srt s es = some (outs, t))
    (hl : isLoose tag = true) (hg : tag2genus tag ≠ .hole) :
    isPresent t tag = true ↔ Book.run (bookOf s) es outs (tag % 65536) ≠ 0 := by
  rw [present_book hl hg, (C68_book_partial h hs hops hu h1 hb hr).2.1]

/-- **C71 (getters).** Of a loose field which distinguishes NULLs, the getter throws `field_absent` exactly if the field is not
present; of one which does not, the getter returns the empty value if the field is not present. -/
theorem C71_get {C : Nat → Bool} {s : RW} {tag : Nat} {g : Genus} (h1 : Singles C (bookOf s)) (hC : C (tag % 65536) = false)
    (hl : isLoose tag = true) (hg : tag2genus tag = g) (hh : g ≠ .hole) (hc : isLooseCollection tag = false) :
    (isDiscernible tag = true → (getLoose s tag g = .error .fieldAbsent ↔ isPresent s tag = false)) ∧
    (isDiscernible tag = false → isPresent s tag = false → getLoose s tag g = .ok (some (.empty g))) := by
  have hw := tag_not_hole (tag := tag) (by rw [hg]; exact hh)
  unfold isPresent getLoose getEntry
  rw [if_neg (by rw [hc]; decide), if_neg (fun h => h hg), if_neg (show ¬ isPreplaced tag = true by rw [loose_np hl]; decide), gid_eq]
  cases e : s.lookup (tag % 65536) with
  | none =>
    refine ⟨fun hd => ?_, fun hd _ => ?_⟩
    · simp [hd]
    · simp [hd]
  | some a =>
    refine ⟨fun hd => ?_, fun _ h => by cases h⟩
    refine ⟨fun k => ?_, fun k => by cases k⟩
    exfalso
    have ha := ((lookup_some hw).1 e).1
    have hn := (h1 _ hC).2
    refine hn (mem_book.2 ⟨a, ha, ?_⟩)
    show valueAt (cellGenus (s.mem a)) s.mem a = none
    have hcg : cellGenus (s.mem a) = g := by
      rw [← hg]
      unfold cellGenus tag2genus tag2genusCode
      rw [ha.2, Nat.shiftRight_eq_div_pow, show (2:Nat)^16 = 65536 from rfl, show (2:Nat)^11 = 2048 from rfl]
    rw [hcg]
    simp only at k
    unfold valueAt
    by_cases c1 : g.isInplaced = true
    · rw [if_pos c1] at k; cases k
    · rw [if_neg c1] at k ⊢
      by_cases c2 : g.isFixed = true ∨ (s.mem a).lo ≠ 0
      · rw [if_pos c2] at k; cases k
      · rw [if_neg c2]

/-- **C71 (erase).** `erase` of a loose field or a collection reports whether the field was present, and a collection is
absent afterwards, as is any other field that had one value. -/
theorem C71_erase {F : Fix} {σ : Sch} {s t : RW} {tag n : Nat} (h : Reachable F σ s) (hl : isLoose tag = true) (hg : tag2genus tag ≠ .hole)
    (hr : eraseLoose s tag = .ok n t) :
    (0 < n ↔ isPresent s tag = true) ∧
    (isLooseCollection tag = true ∨ (fieldsOf s).countP (fun f => f.1 = tag % 65536) ≤ 1 → isPresent t tag = false) := by
  have key : (0 < (fieldsOf s).countP (fun f => f.1 = tag % 65536)) ↔ isPresent s tag = true := by
    rw [C71_present hl hg, Multiset.countP_pos]
  have gone : fieldsOf t = (fieldsOf s).filter (fun f => f.1 ≠ tag % 65536) → isPresent t tag = false := by
    intro e
    by_contra c
    rw [Bool.not_eq_false, C71_present hl hg, e] at c
    obtain ⟨f, hf, hf'⟩ := c
    exact (Multiset.mem_filter.1 hf).2 hf'
  cases hc : isLooseCollection tag with
  | true =>
    obtain ⟨_, _, k⟩ := C11_erase_collection h hg hc
    obtain ⟨k1, k2, _⟩ := k n t hr
    exact ⟨by rw [k1]; exact key, fun _ => gone k2⟩
  | false =>
    obtain ⟨_, _, k⟩ := C11_erase_single h hg hc
    obtain ⟨k1, k2, _⟩ := k n t hr
    refine ⟨by rw [← key, k1]; omega, fun hx => gone (k2 ?_).1⟩
    rcases hx with hx | hx
    · cases hx
    · exact hx

/-- No `field_absent` from modifications. -/
private structure Mild {α : Type} (o : Out α) : Prop where
  no : ∀ s, o ≠ .exc .fieldAbsent s

private theorem Mild.bind {α β : Type} {o : Out α} {f : α → RW → Out β} (h : Mild o) (hf : ∀ a s, Mild (f a s)) : Mild (o.bind f) := by
  cases o with
  | ok a s => exact hf a s
  | exc e s => exact ⟨fun _ k => by cases k; exact h.no _ rfl⟩
  | ub => exact ⟨fun _ k => by cases k⟩
private theorem Mild.ok {α : Type} {a : α} {s : RW} : Mild (Out.ok a s) := ⟨fun _ h => by cases h⟩
private theorem Mild.ub {α : Type} : Mild (Out.ub : Out α) := ⟨fun _ h => by cases h⟩
private theorem Mild.exc {α : Type} {e : Exc} {s : RW} (h : e ≠ .fieldAbsent) : Mild (Out.exc e s : Out α) :=
  ⟨fun _ k => by cases k; exact h rfl⟩
private theorem Mild.ite {α : Type} {c : Prop} [Decidable c] {x y : Out α} (hx : Mild x) (hy : Mild y) : Mild (if c then x else y) := by
  by_cases k : c
  · rw [if_pos k]; exact hx
  · rw [if_neg k]; exact hy

local macro "mild" : tactic => `(tactic| repeat' (first
  | exact Mild.ok
  | exact Mild.ub
  | exact Mild.exc (by intro h; cases h)
  | assumption
  | refine Mild.bind ?_ (fun _ _ => ?_)
  | refine Mild.ite ?_ ?_
  | split
  | dsimp only))

private theorem units_mild (s : RW) (a n : Nat) : Mild (s.setUnits a n) := by unfold RW.setUnits; mild
private theorem tail_mild (s : RW) (n : Nat) : Mild (tailAlloc s n) := by unfold tailAlloc; mild
private theorem index_mild (s : RW) (n : Nat) : Mild (indexAlloc s n) := by unfold indexAlloc; mild
private theorem dataAt_mild (s : RW) (n : Nat) (h : Option Nat) : Mild (allocDataAt s n h) := by
  unfold allocDataAt; mild <;> first | exact units_mild .. | exact tail_mild ..
private theorem data_mild (s : RW) (n : Nat) : Mild (allocData s n) := by
  unfold allocData; mild; exact dataAt_mild ..
private theorem merge_mild (s : RW) (a b : Nat) : Mild (mergeHoles s a b) := by
  unfold mergeHoles; mild <;> exact units_mild ..
private theorem release_mild (s : RW) (a n : Nat) : Mild (releaseLoose s a n) := by
  unfold releaseLoose; mild <;> first | exact units_mild .. | exact merge_mild ..
private theorem releaseAt_mild (s : RW) (c n : Nat) (x y z : Option Nat) : Mild (releaseDataAt s c n x y z) := by
  unfold releaseDataAt; mild <;> first | exact units_mild .. | exact merge_mild .. | exact index_mild ..
private theorem releaseF_mild (F : Fix) (s : RW) (c n : Nat) : Mild (releaseDataF F s c n) := by
  have h : Mild (releaseData s c n) := by
    unfold releaseData
    mild <;> first | exact releaseAt_mild .. | exact units_mild .. | exact merge_mild .. | exact index_mild ..
  unfold releaseDataF
  generalize releaseData s c n = o at h
  cases o with
  | ok a s => exact h
  | exc e t => exact Mild.exc fun k => by subst k; exact h.no _ rfl
  | ub => exact h
private theorem both_mild (s : RW) (r k n : Nat) (x y z w : Option Nat) : Mild (releaseAndAlloc s r k n x y z w) := by
  unfold releaseAndAlloc; mild <;> first | exact releaseAt_mild .. | exact dataAt_mild .. | exact units_mild .. | exact merge_mild .. | exact index_mild ..
private theorem realloc_mild (b : Bool) (s : RW) (r k n : Nat) : Mild (reallocDataWith b s r k n) := by
  unfold reallocDataWith
  simp only
  mild <;> first | exact units_mild .. | exact index_mild .. | exact tail_mild .. | exact both_mild .. | exact dataAt_mild .. | exact merge_mild .. | exact releaseAt_mild ..
private theorem estimate_mild {v : Val} {e : Exc} (h : v.estimate = .error e) : e ≠ .fieldAbsent := by
  rintro rfl
  revert h
  cases v with
  | text v => show Str.estimate v.length = _ → _; unfold Str.estimate; split_ifs <;> intro h <;> cases h
  | varbin v => show Varbin.estimate v.length = _ → _; unfold Varbin.estimate; simp only; split_ifs <;> intro h <;> cases h
  | property v i => show Property.estimate v.length = _ → _; unfold Property.estimate; split_ifs <;> intro h <;> cases h
  | nested v => intro h; cases h
  | inline x => intro h; cases h
  | units x => intro h; cases h

/-- **C71 (update).** The updating functions of the C API throw `field_absent` exactly if the field is not present, and then change
nothing. -/
theorem C71_update (F : Fix) {s : RW} {tag : Nat} (g : Genus) (v : Val) (hl : isLoose tag = true) :
    (isPresent s tag = false → CapiRw.legacyUpdate F s tag g v = .exc .fieldAbsent s) ∧
    (isPresent s tag = true → ∀ t, CapiRw.legacyUpdate F s tag g v ≠ .exc .fieldAbsent t) := by
  unfold isPresent CapiRw.legacyUpdate
  rw [if_neg (show ¬ isPreplaced tag = true by rw [loose_np hl]; decide)]
  cases e : s.lookup (tag2gid tag) with
  | none => exact ⟨fun _ => rfl, fun h => by cases h⟩
  | some a =>
    refine ⟨fun h => (by cases h), fun _ => ?_⟩
    refine Mild.no ?_
    refine Mild.ite (Mild.bind ?_ fun _ _ => Mild.ok) (Mild.bind ?_ fun _ _ => Mild.ok)
    · unfold assignLooseFixed
      mild <;> exact release_mild ..
    · unfold assignStretchy
      refine Mild.ite (Mild.exc (by decide)) ?_
      cases hn : neededUnits tag g v with
      | error e =>
        refine Mild.exc ?_
        unfold neededUnits at hn
        split_ifs at hn
        exact estimate_mild hn
      | ok n =>
        mild <;> first | exact release_mild .. | exact releaseF_mild .. | exact realloc_mild .. | exact data_mild .. |
          exact index_mild .. | exact dataAt_mild .. | exact units_mild .. | exact merge_mild .. | exact tail_mild ..

/-- **C71 (the same fields).** `is_present` depends only on what the tuple holds: it says the same about a tuple, its serialized form
and any tuple with the same fields. -/
theorem C71_same {σ : Sch} {s t : RW} {tag : Nat} (k : SameFields σ s t) (hl : isLoose tag = true) (hg : tag2genus tag ≠ .hole) :
    isPresent t tag = isPresent s tag := by
  rw [Bool.eq_iff_iff, C71_present hl hg, C71_present hl hg, k.stored]

/-- **C71 (serialized form, partial).** Restricted as `C19_serialized_partial`. -/
theorem C71_serialized_partial {F : Fix} {sch : Option Schema} {s : RW} {tag : Nat} (h : History F sch s)
    (hmax : s.pivot - s.head + stretchyOf sch ≤ 8191) (hsize : s.tail - s.head + 1 ≤ 65534)
    (hl : isLoose tag = true) (hg : tag2genus tag ≠ .hole) : isPresent (serialized sch s) tag = isPresent s tag :=
  C71_same (C19_serialized_partial h hmax hsize).2.2 hl hg

/-! ## Preplaced fields -/

/-- **C71 fails for preplaced fields of fixed size, in every tuple** (getter.h:212-217): `is_present` says the opposite. A field
which distinguishes NULLs is reported as present exactly if its getter throws `field_absent`; a field which does not, and
always has a value, is reported as absent. -/
theorem C71_preplaced_refuted {s : RW} {tag : Nat} {g : Genus} (hp : isPreplaced tag = true) (hg : tag2genus tag = g) (hfx : g.isFixed = true) :
    (isDiscernible tag = true → (isPresent s tag = true ↔ getPreplacedFixed s tag g = .error .fieldAbsent)) ∧
    (isDiscernible tag = false → isPresent s tag = false ∧ ∃ bs, getPreplacedFixed s tag g = .ok bs) := by
  unfold isPresent preplacedExist preplacedIsNull getPreplacedFixed
  rw [if_pos hp, if_neg (fun h => h hg)]
  simp only
  rw [hg, hfx]
  refine ⟨fun hd => ?_, fun hd => ?_⟩
  · rw [hd]
    by_cases c : s.mem.readBytes (4 * s.pivot + tag2offset tag) g.preplacedBytes = denilBytes g
    · simp [c]
    · simp [c]
  · rw [hd]
    exact ⟨by simp, _, if_neg (by simp)⟩

/-- **C71 fails for preplaced fields of variable size, in every reachable tuple**: a field with a value is reported as
absent. -/
theorem C71_preplaced_stretchy_refuted {F : Fix} {σ : Sch} {s : RW} {tag : Nat} {v : Val} (hr : Reachable F σ s)
    (hp : isPreplaced tag = true) (hs : StretchySlot σ s.pre tag (tag2genus tag)) (h4 : tag2offset tag % 4 = 0)
    (hv : valueAt (tag2genus tag) s.mem (s.pivot + tag2offset tag / 4) = some v) : isPresent s tag = false := by
  have key := C11_preplaced_stretchy_refuted (F := F) hr hs h4 hv
  unfold isPresent
  rw [if_pos hp]
  by_contra c
  rw [Bool.not_eq_false] at c
  unfold erasePreplaced at key
  rw [if_pos c] at key
  generalize erasePreplacedAt F s tag = o at key
  cases o <;> cases key

/-! ## The hypotheses are met -/

/-- After the history of C68 (nine steps with an exception, an erasure and a compaction, the code as it is): the field set twice and
the collection are present, the erased field is not; the latter cannot be updated. -/
example : ∃ outs t, life .code false noPre itemSort (fresh 8 60) bookEvs = some (outs, t) ∧
    isPresent t (fix .u64 3) = true ∧ isPresent t (colU 4) = true ∧ isPresent t (nst 1) = false ∧ isPresent t (nst 2) = true ∧
    isLoose (nst 1) = true ∧ tag2genus (nst 1) ≠ .hole ∧ isDiscernible (nst 1) = false ∧
    CapiRw.legacyUpdate .code t (nst 1) .nested (nstVal 2 0) = .exc .fieldAbsent t := by
  obtain ⟨outs, t, hl, hp⟩ := life_decide (F := .code) (guard := false) (σ := noPre) (srt := itemSort) (s := fresh 8 60) (es := bookEvs)
    (fun _ t => isPresent t (fix .u64 3) && isPresent t (colU 4) && !isPresent t (nst 1) && isPresent t (nst 2)) (by decide +kernel)
  simp only [Bool.and_eq_true, Bool.not_eq_true'] at hp
  obtain ⟨⟨⟨p1, p2⟩, p3⟩, p4⟩ := hp
  exact ⟨outs, t, hl, p1, p2, p3, p4, by decide +kernel, by decide +kernel, by decide +kernel,
    (C71_update .code .nested _ (by decide +kernel)).1 p3⟩

/-- A field which distinguishes NULLs, set and not set: present and readable, absent and throwing. -/
example : ∃ s, run .code (fresh 8 60) [.set (makeTag .u32 5 false true false) .u32 (unitsVal 1 0)] = some s ∧
    isPresent s (makeTag .u32 5 false true false) = true ∧ isPresent s (makeTag .u32 6 false true false) = false ∧
    getLoose s (makeTag .u32 5 false true false) .u32 = .ok (some (unitsVal 1 0)) ∧
    getLoose s (makeTag .u32 6 false true false) .u32 = .error .fieldAbsent := by
  obtain ⟨s, hr, hp⟩ := run_decide (F := .code) (s := fresh 8 60) (ops := [.set (makeTag .u32 5 false true false) .u32 (unitsVal 1 0)])
    (fun s => decide (isPresent s (makeTag .u32 5 false true false) = true ∧ isPresent s (makeTag .u32 6 false true false) = false ∧
      getLoose s (makeTag .u32 5 false true false) .u32 = .ok (some (unitsVal 1 0)) ∧
      getLoose s (makeTag .u32 6 false true false) .u32 = .error .fieldAbsent)) (by decide +kernel)
  exact ⟨s, hr, of_decide_eq_true hp⟩

/-- A preplaced number without NULLs, set and read back, is reported as absent; so is a preplaced nested tuple with a value. -/
example : ∃ s, run .code (create (fun _ => .zero) 1 1 40 [.zero]) [.set preA .u32 (unitsVal 1 7)] = some s ∧
    getPreplacedFixed s preA .u32 = .ok [7, 0, 7, 0] ∧ isPresent s preA = false := by
  obtain ⟨s, hr, hp⟩ := run_decide (F := .code) (s := create (fun _ => .zero) 1 1 40 [.zero]) (ops := [.set preA .u32 (unitsVal 1 7)])
    (fun s => decide (getPreplacedFixed s preA .u32 = .ok [7, 0, 7, 0] ∧ isPresent s preA = false)) (by decide +kernel)
  exact ⟨s, hr, of_decide_eq_true hp⟩

example : ∃ s, run .code (create (fun _ => .zero) 1 1 40 [.zero]) failOps = some s ∧
    getPreplacedStretchy s preTok .nested = .ok (some (nstVal 3 5)) ∧ isPresent s preTok = false ∧
    isPresent (create (fun _ => .zero) 1 1 40 [.zero]) preTok = true := by
  obtain ⟨s, hr, hp⟩ := run_decide (F := .code) (s := create (fun _ => .zero) 1 1 40 [.zero]) (ops := failOps) (fun s => decide (
    getPreplacedStretchy s preTok .nested = .ok (some (nstVal 3 5)) ∧ isPresent s preTok = false)) (by decide +kernel)
  obtain ⟨p1, p2⟩ := of_decide_eq_true hp
  exact ⟨s, hr, p1, p2, by decide +kernel⟩

end Fptu.Props
