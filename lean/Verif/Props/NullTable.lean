import Verif.Props.TupleDefects
/-!
# C20: NULL values, the documented table

`token.h:113-127`:

| | NULLs are distinguished | NULLs are not distinguished |
|---|---|---|
| fixed size, preplaced | Write(DENIL) ⇒ Remove, Read(DENIL) ⇒ Throw | Write/Read as is, no NULLs |
| fixed size, loose | Write as is, Read(NULL) ⇒ Throw | Write(0) ⇒ Remove, Read(NULL) ⇒ 0 |
| variable size | Write as is, Read(NULL) ⇒ Throw | Write(EMPTY) ⇒ Remove, Read(NULL) ⇒ EMPTY |
-/
namespace Fptu.Props
open Fptu Fptu.Gear Fptu.Rw

/-- The value read with the getter of the genus: bytes for fixed-size preplaced fields, a value otherwise. -/
def readField (s : RW) (tag : Nat) (g : Genus) : Except Exc (List Nat ⊕ Option Val) :=
  if isPreplaced tag then
    if g.isFixed then (getPreplacedFixed s tag g).map Sum.inl else (getPreplacedStretchy s tag g).map Sum.inr
  else (getLoose s tag g).map Sum.inr

/-- The designated values of fixed-size types: the least number of signed integers, all ones of floating-point types, zero
otherwise. -/
def isDenil (g : Genus) (v : Val) : Prop :=
  match g, v with
  | .i8, .inline x => x = 0x80
  | .i16, .inline x => x = 0x8000
  | .i32, .units [c] => c = ⟨0, 0x8000⟩
  | .i64, .units [c, d] => c = ⟨0, 0⟩ ∧ d = ⟨0, 0x8000⟩
  | .f32, .units [c] => c = ⟨0xFFFF, 0xFFFF⟩
  | .f64, .units [c, d] => c = ⟨0xFFFF, 0xFFFF⟩ ∧ d = ⟨0xFFFF, 0xFFFF⟩
  | .d64, .units [c, d] => c = ⟨0xFFFF, 0xFFFF⟩ ∧ d = ⟨0xFFFF, 0xFFFF⟩
  | .u8, .inline x => x = 0
  | .u16, .inline x => x = 0
  | _, .units cs => ∀ c ∈ cs, c = ⟨0, 0⟩
  | _, _ => False

/-- What the table says about reading after writing `v`. -/
def documented (tag : Nat) (g : Genus) (v : Val) (r : Except Exc (List Nat ⊕ Option Val)) : Prop :=
  if isPreplaced tag = true ∧ g.isFixed = true then
    if isDiscernible tag = true then (isDenil g v → r = .error .fieldAbsent) ∧ (¬ isDenil g v → r = .ok (.inl (v.bytes g)))
    else r = .ok (.inl (v.bytes g))
  else if isDiscernible tag = true then r = .ok (.inr (some v))
  else (v.isEmpty g = true → r = .ok (.inr (some (Val.empty g)))) ∧ (v.isEmpty g = false → r = .ok (.inr (some v)))

theorem cell_bytes_eq {c : Cell} (h : Cell.ok c = true) (a b : Nat) (ha : a < 65536) (hb : b < 65536) :
    cellBytes c = [a % 256, a / 256, b % 256, b / 256] ↔ c = ⟨a, b⟩ := by
  obtain ⟨lo, hi⟩ := c
  have h : lo < 65536 ∧ hi < 65536 := by simpa [Cell.ok] using h
  constructor
  · intro e
    have e : [lo % 256, lo / 256, hi % 256, hi / 256] = [a % 256, a / 256, b % 256, b / 256] := e
    rw [List.cons_eq_cons, List.cons_eq_cons, List.cons_eq_cons, List.cons_eq_cons] at e
    obtain ⟨e1, e2, e3, e4, _⟩ := e
    rw [show lo = a by omega, show hi = b by omega]
  · intro e
    rw [e]; rfl

theorem flat_eq (cs ds : List Cell) (h : cs.all Cell.ok = true) (hd : ds.all Cell.ok = true) (hl : cs.length = ds.length) :
    cs.flatMap cellBytes = ds.flatMap cellBytes ↔ cs = ds := by
  induction cs generalizing ds with
  | nil =>
    rw [List.length_nil] at hl
    rw [List.length_eq_zero_iff.1 hl.symm]; simp
  | cons c cs ih =>
    cases ds with
    | nil => cases hl
    | cons d ds =>
      rw [List.all_cons, Bool.and_eq_true] at h hd
      rw [List.flatMap_cons, List.flatMap_cons]
      constructor
      · intro e
        obtain ⟨e1, e2⟩ := List.append_inj e rfl
        have hok : d.lo < 65536 ∧ d.hi < 65536 := by simpa [Cell.ok] using hd.1
        have k := (cell_bytes_eq h.1 d.lo d.hi hok.1 hok.2).1 e1
        rw [(ih ds h.2 hd.2 (by simpa using hl)).1 e2, k]
      · intro e
        rw [List.cons_eq_cons] at e
        rw [e.1, e.2]

theorem denil_iff {g : Genus} {v : Val} (hf : v.fits g = true) (hfx : g.isFixed = true) : isDenil g v ↔ v.bytes g = denilBytes g := by
  cases v with
  | inline x =>
    have hi : g.isInplaced = true := (fits_inline hf).1
    have hx := (fits_inline hf).2.2
    cases g <;> first | (exact absurd hi (by decide)) | skip
    · show x = 0x80 ↔ [x] = [128]
      simp
    · show x = 0 ↔ [x] = [0]
      simp
    · show x = 0x8000 ↔ [x % 256, x / 256] = [0, 128]
      simp; omega
    · show x = 0 ↔ [x % 256, x / 256] = [0, 0]
      simp; omega
  | units cs =>
    have hlen : cs.length = g.looseUnits := by
      have : (g.isFixed && !g.isInplaced && decide (g ≠ .hole) && decide (cs.length = g.looseUnits) && cs.all Cell.ok) = true := hf
      rw [Bool.and_eq_true, Bool.and_eq_true, decide_eq_true_eq] at this
      exact this.1.2
    have hok : cs.all Cell.ok = true := by
      have : (g.isFixed && !g.isInplaced && decide (g ≠ .hole) && decide (cs.length = g.looseUnits) && cs.all Cell.ok) = true := hf
      rw [Bool.and_eq_true] at this
      exact this.2
    have hnp : g.isInplaced = false := by
      have : (g.isFixed && !g.isInplaced && decide (g ≠ .hole) && decide (cs.length = g.looseUnits) && cs.all Cell.ok) = true := hf
      simp only [Bool.and_eq_true] at this
      simpa using this.1.1.1.2
    have gen : ∀ ds : List Cell, ds.all Cell.ok = true → ds.length = cs.length → denilBytes g = ds.flatMap cellBytes →
        ((Val.units cs).bytes g = denilBytes g ↔ cs = ds) := by
      intro ds h1 h2 h3
      rw [h3]
      exact flat_eq cs ds hok h1 h2.symm
    have zero : denilBytes g = (List.replicate cs.length (⟨0, 0⟩ : Cell)).flatMap cellBytes →
        ((∀ c ∈ cs, c = (⟨0, 0⟩ : Cell)) ↔ (Val.units cs).bytes g = denilBytes g) := by
      intro h
      rw [gen _ (by rw [List.all_replicate]; simp [Cell.ok]) (List.length_replicate ..) h, List.eq_replicate_iff]
      simp
    have one : ∀ d : Cell, cs.length = 1 → Cell.ok d = true → denilBytes g = cellBytes d → (∀ c, cs = [c] → isDenil g (.units cs) = (c = d)) →
        (isDenil g (.units cs) ↔ (Val.units cs).bytes g = denilBytes g) := by
      intro d h1 h2 h3 h4
      obtain ⟨c, rfl⟩ := List.length_eq_one_iff.1 h1
      rw [h4 c rfl, gen [d] (by rw [List.all_cons, h2]; rfl) rfl (by rw [h3]; rfl)]
      simp
    have two : ∀ d e : Cell, cs.length = 2 → Cell.ok d = true → Cell.ok e = true → denilBytes g = cellBytes d ++ cellBytes e →
        (∀ c c', cs = [c, c'] → isDenil g (.units cs) = (c = d ∧ c' = e)) →
        (isDenil g (.units cs) ↔ (Val.units cs).bytes g = denilBytes g) := by
      intro d e h1 h2 h2' h3 h4
      obtain ⟨c, c', rfl⟩ := List.length_eq_two.1 h1
      rw [h4 c c' rfl, gen [d, e] (by rw [List.all_cons, List.all_cons, h2, h2']; rfl) rfl (by rw [h3]; rfl)]
      simp
    cases g <;> first
      | (exact absurd hfx (by decide))
      | (exact absurd hnp (by decide))
      | (exact zero (by rw [hlen]; decide +kernel))
      | (exact one ⟨0, 0x8000⟩ hlen (by decide) (by decide +kernel) (fun c e => by rw [e]; rfl))
      | (exact one ⟨0xFFFF, 0xFFFF⟩ hlen (by decide) (by decide +kernel) (fun c e => by rw [e]; rfl))
      | (exact two ⟨0, 0⟩ ⟨0, 0x8000⟩ hlen (by decide) (by decide) (by decide +kernel) (fun c c' e => by rw [e]; rfl))
      | (exact two ⟨0xFFFF, 0xFFFF⟩ ⟨0xFFFF, 0xFFFF⟩ hlen (by decide) (by decide) (by decide +kernel) (fun c c' e => by rw [e]; rfl))
  | text x => exact absurd ((Bool.and_eq_true _ _).mp hf).1 (by rw [decide_eq_false (by rintro rfl; cases hfx)]; decide)
  | varbin x => exact absurd ((Bool.and_eq_true _ _).mp hf).1 (by rw [decide_eq_false (by rintro rfl; cases hfx)]; decide)
  | property x y => exact absurd ((Bool.and_eq_true _ _).mp ((Bool.and_eq_true _ _).mp hf).1).1 (by rw [decide_eq_false (by rintro rfl; cases hfx)]; decide)
  | nested o =>
    cases o with
    | none => exact absurd (of_decide_eq_true hf) (by rintro rfl; cases hfx)
    | some x => exact absurd ((Bool.and_eq_true _ _).mp ((Bool.and_eq_true _ _).mp hf).1).1 (by rw [decide_eq_false (by rintro rfl; cases hfx)]; decide)

/-- **C20 (partial), writing.** After a value was written, reading gives what the table says; with NULLs not distinguished, no
field is kept for a zero or an empty value. Missing: `varbin` (its length is not kept, C05; lengths divisible by 4: `C20_varbin_partial` in Props/Exact), the second value under the
same token (`insert`), and for the code as it is the histories in which a defect of `src/gear.cxx` shows. -/
theorem C20_write_partial {F : Fix} {σ : Sch} {s t : RW} {tag : Nat} {g : Genus} {v : Val} (h : Reachable F σ s) (ht : TokenOk σ s.pre tag)
    (hf : v.fits g = true) (hv : g ≠ .varbin) (hn : v ≠ .nested none) (hb : StepBenign F s (.set tag g v))
    (hone : (fieldsOf s).countP (fun f => f.1 = tag % 65536) ≤ 1) (hs : setField F s tag g v = .ok () t) :
    documented tag g v (readField t tag g) ∧
    (isLoose tag = true → isDiscernible tag = false → v.isEmpty g = true → ∀ f ∈ fieldsOf t, f.1 = tag % 65536 → f.2 = none) := by
  have hd : dropped tag g v ↔ isDiscernible tag = false ∧ v.isEmpty g = true := by
    unfold dropped
    rw [Bool.not_eq_true]
    tauto
  have habs : dropped tag g v → absent tag g = .ok (some (.empty g)) := by
    intro k
    unfold absent
    rw [if_neg (by rw [(hd.1 k).1]; decide)]
  constructor
  · unfold documented readField
    by_cases hp : isPreplaced tag = true
    · by_cases hfx : g.isFixed = true
      · obtain ⟨k1, _⟩ := C09_set_preplaced_fixed h hp ht hfx hf hs
        rw [if_pos ⟨hp, hfx⟩, if_pos hp, if_pos hfx, k1]
        have hdn := denil_iff hf hfx
        by_cases c : isDiscernible tag = true
        · rw [if_pos c]
          refine ⟨fun k => ?_, fun k => ?_⟩
          · rw [if_pos ⟨c, hdn.1 k⟩]; rfl
          · rw [if_neg (fun m => k (hdn.2 m.2))]; rfl
        · rw [if_neg c, if_neg (fun m => c m.1)]; rfl
      · have hnf := hfx
        have hfx : g.isFixed = false := by simpa using hfx
        obtain ⟨k1, _, k3, _⟩ := C09_set_preplaced_stretchy_partial h hp ht hfx hf hb hs
        rw [if_neg (fun m => hnf m.2), if_pos hp, if_neg hnf]
        by_cases c : isDiscernible tag = true
        · rw [if_pos c, k1 (fun k => by rw [(hd.1 k).1] at c; cases c) hv]; rfl
        · have c : isDiscernible tag = false := by simpa using c
          rw [if_neg (by rw [c]; decide)]
          refine ⟨fun k => ?_, fun k => ?_⟩
          · have k2 := hd.2 ⟨c, k⟩
            rw [k3 k2, habs k2]; rfl
          · rw [k1 (fun m => by rw [(hd.1 m).2] at k; cases k) hv]; rfl
    · have hl : isLoose tag = true := by
        have := preplaced_not_loose tag
        simp_all
      rw [if_neg (fun m => hp m.1), if_neg hp]
      by_cases c : isDiscernible tag = true
      · rw [if_pos c, (C09_set_partial h hl hf hb hs (fun k => by rw [(hd.1 k).1] at c; cases c)).1 hv]; rfl
      · have c : isDiscernible tag = false := by simpa using c
        rw [if_neg (by rw [c]; decide)]
        refine ⟨fun k => ?_, fun k => ?_⟩
        · have k2 := hd.2 ⟨c, k⟩
          rw [(C09_unset_partial h hl hf hb hs k2).1 hone, habs k2]; rfl
        · rw [(C09_set_partial h hl hf hb hs (fun m => by rw [(hd.1 m).2] at k; cases k)).1 hv]; rfl
  · intro hl c k
    exact unset_gone h hl hf hb hs (hd.2 ⟨c, k⟩) hone

/-- **C20, reading** of absent fields, in any state: with NULLs distinguished `field_absent` is thrown, otherwise the empty
value is given. -/
theorem C20_read_absent {s : RW} {tag : Nat} (hg : tag2genus tag ≠ .hole) :
    (isLoose tag = true → isLooseCollection tag = false → (∀ f ∈ fieldsOf s, f.1 ≠ tag % 65536) →
      readField s tag (tag2genus tag) =
        if isDiscernible tag = true then .error .fieldAbsent else .ok (.inr (some (Val.empty (tag2genus tag))))) ∧
    (isPreplaced tag = true → (tag2genus tag).isFixed = false → (s.mem (s.pivot + tag2offset tag / 4)).lo = 0 →
      readField s tag (tag2genus tag) =
        if isDiscernible tag = true then .error .fieldAbsent else .ok (.inr (some (Val.empty (tag2genus tag))))) ∧
    (isPreplaced tag = true → (tag2genus tag).isFixed = true → isDiscernible tag = false →
      readField s tag (tag2genus tag) =
        .ok (.inl (s.mem.readBytes (4 * s.pivot + tag2offset tag) (tag2genus tag).preplacedBytes))) := by
  have hw := tag_not_hole hg
  refine ⟨fun hl hc hn => ?_, fun hp hfx h0 => ?_, fun hp hfx hd => ?_⟩
  · have hnp : ¬ isPreplaced tag = true := by
      have := preplaced_not_loose tag
      simp_all
    unfold readField
    rw [if_neg hnp]
    have hlk : s.lookup (tag2gid tag) = none := by
      rw [gid_eq, lookup_none hw]
      intro b hb
      exact hn (entryAt s b) (Multiset.mem_map.2 ⟨b, mem_liveSet.2 hb.1, rfl⟩) hb.2
    unfold getLoose
    rw [if_neg (by rw [hc]; decide), hlk]
    unfold getEntry
    rw [if_neg (fun k => k rfl)]
    simp only
    by_cases c : isDiscernible tag = true
    · rw [if_pos c, if_pos c]; rfl
    · rw [if_neg c, if_neg c]; rfl
  · unfold readField
    rw [if_pos hp, if_neg (by rw [hfx]; decide)]
    unfold getPreplacedStretchy
    rw [if_neg (fun k => k rfl)]
    simp only
    rw [if_neg (fun k => k h0)]
    by_cases c : isDiscernible tag = true
    · rw [if_pos c, if_pos c]; rfl
    · rw [if_neg c, if_neg c]; rfl
  · unfold readField
    rw [if_pos hp, if_pos hfx]
    unfold getPreplacedFixed
    rw [if_neg (fun k => k rfl)]
    simp only
    rw [if_neg (by rw [hd]; exact fun k => absurd k.1 (by decide))]
    rfl

/-! ## Concrete cases, and where the table does not hold -/

/-- Hypotheses of the theorem on writing: a zero in a loose field without NULLs, over an older value. -/
example : ∃ s t, run .code (fresh 8 60) goodOps = some s ∧ setField .code s (fix .i16 6) .i16 (.inline 0) = .ok () t ∧
    documented (fix .i16 6) .i16 (.inline 0) (readField t (fix .i16 6) .i16) ∧ readField t (fix .i16 6) .i16 = .ok (.inr (some (.inline 0))) ∧
    (liveSet s).card = 4 ∧ (liveSet t).card = 3 := by
  obtain ⟨s, hr, h, _⟩ := good_run
  obtain ⟨s2, hr2, hp⟩ := run_decide (F := .code) (s := fresh 8 60) (ops := goodOps) (fun s =>
    match setField .code s (fix .i16 6) .i16 (.inline 0) with
    | .ok _ t => decide (readField t (fix .i16 6) .i16 = .ok (.inr (some (.inline 0))) ∧ (liveSet s).card = 4 ∧ (liveSet t).card = 3 ∧
        ((liveSet s).filter fun a => (s.mem a).hi = fix .i16 6 % 65536).card ≤ 1) && stepBenignB .code s (.set (fix .i16 6) .i16 (.inline 0))
    | _ => false) (by decide +kernel)
  rw [hr] at hr2
  obtain rfl := Option.some.inj hr2
  cases hs : setField .code s (fix .i16 6) .i16 (.inline 0) with
  | exc e t => rw [hs] at hp; cases hp
  | ub => rw [hs] at hp; cases hp
  | ok u t =>
    rw [hs] at hp
    simp only [Bool.and_eq_true, decide_eq_true_eq] at hp
    obtain ⟨⟨h1, h2, h3, h4⟩, h5⟩ := hp
    refine ⟨s, t, hr, hs, ?_, h1, h2, h3⟩
    exact (C20_write_partial h ⟨by decide, fun k => absurd k (by decide)⟩ (by decide) (by decide) (by decide) (stepBenign_of h5)
      (by rw [has_filter]; exact h4) hs).1

/-- **C20 refuted for negative zero**: "no difference is visible from outside" when NULLs are not distinguished, but a stored
-0.0 of `float` or `double` reads back as +0.0 (it equals zero, so it is not kept). -/
theorem C20_negative_zero_refuted (F : Fix) (hF : F = .code ∨ F = .repaired) :
    (match setField F (fresh 8 60) (fix .f32 3) .f32 (.units [⟨0, 0x8000⟩]) with
      | .ok _ t => decide (readField t (fix .f32 3) .f32 = .ok (.inr (some (.units [⟨0, 0⟩]))))
      | _ => false) = true ∧
    (match setField F (fresh 8 60) (fix .f64 3) .f64 (.units [⟨0, 0⟩, ⟨0, 0x8000⟩]) with
      | .ok _ t => decide (readField t (fix .f64 3) .f64 = .ok (.inr (some (.units [⟨0, 0⟩, ⟨0, 0⟩]))))
      | _ => false) = true := by
  rcases hF with rfl | rfl <;> decide +kernel

end Fptu.Props
