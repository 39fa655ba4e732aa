import Verif.Lemmas.TupleErase
/-!
# Tuple operations: preplaced fields, creation, histories
-/
namespace Fptu.Rw
open Fptu.Gear

/-- The token addresses a fixed-size preplaced field of the schema: inside the preplaced area and apart from the stretchy
preplaced fields. -/
def FixedSlot (σ : Sch) (pre tag : Nat) (g : Genus) : Prop :=
  tag2offset tag + g.preplacedBytes ≤ 4 * pre ∧
    ∀ k, (∃ g', σ k = some g') → tag2offset tag + g.preplacedBytes ≤ 4 * k ∨ 4 * k + 4 ≤ tag2offset tag

/-- The token addresses a stretchy preplaced field of the schema. -/
def StretchySlot (σ : Sch) (pre tag : Nat) (g : Genus) : Prop :=
  tag2offset tag / 4 < pre ∧ σ (tag2offset tag / 4) = some g

theorem preplaced_units : ∀ g : Genus, g.isFixed = true → g.isInplaced = false → g.preplacedBytes = 4 * g.looseUnits := by
  intro g; cases g <;> decide
theorem preplaced_inplaced : ∀ g : Genus, g.isInplaced = true → g.preplacedBytes = if is8 g then 1 else 2 := by
  intro g; cases g <;> decide

theorem length_cellBytes (cs : List Cell) : (cs.flatMap cellBytes).length = 4 * cs.length := by
  induction cs with
  | nil => rfl
  | cons c cs ih => rw [List.flatMap_cons, List.length_append, ih, List.length_cons]; simp only [cellBytes, List.length_cons, List.length_nil]; omega

theorem bytes_length {g : Genus} {v : Val} (hf : v.fits g) (hfx : g.isFixed = true) : (v.bytes g).length = g.preplacedBytes := by
  cases v with
  | inline x =>
    rw [preplaced_inplaced g (fits_inline hf).1]
    unfold Val.bytes
    split_ifs <;> rfl
  | units cs =>
    obtain ⟨h1, h2, h3, _⟩ := fits_units hf
    rw [preplaced_units g h2 h1, ← h3]
    exact length_cellBytes cs
  | text v =>
    simp only [Val.fits, Bool.and_eq_true, decide_eq_true_eq] at hf
    rw [hf.1] at hfx; cases hfx
  | varbin v =>
    simp only [Val.fits, Bool.and_eq_true, decide_eq_true_eq] at hf
    rw [hf.1] at hfx; cases hfx
  | property v id =>
    simp only [Val.fits, Bool.and_eq_true, decide_eq_true_eq] at hf
    rw [hf.1.1] at hfx; cases hfx
  | nested v =>
    cases v <;> simp only [Val.fits, Bool.and_eq_true, decide_eq_true_eq] at hf
    · rw [hf] at hfx; cases hfx
    · rw [hf.1.1] at hfx; cases hfx

theorem bytes_ok {g : Genus} {v : Val} (hf : v.fits g) : ∀ b ∈ v.bytes g, b < 256 := by
  cases v with
  | inline x =>
    have hf' := hf
    simp only [Val.fits, Bool.and_eq_true, decide_eq_true_eq] at hf'
    have h2 := hf'.2
    unfold Val.bytes
    split_ifs at * <;> intro b hb <;> simp at hb
    · omega
    · rcases hb with rfl | rfl <;> omega
  | units cs =>
    obtain ⟨_, _, _, _, _, h6⟩ := fits_units hf
    intro b hb
    have hb : b ∈ cs.flatMap cellBytes := hb
    rw [List.mem_flatMap] at hb
    obtain ⟨c, hc, hb⟩ := hb
    have hok := List.all_eq_true.1 h6 c hc
    simp only [Cell.ok, Bool.and_eq_true, decide_eq_true_eq] at hok
    simp only [cellBytes, List.mem_cons, List.not_mem_nil, or_false] at hb
    omega
  | text v => intro b hb; simp [Val.bytes] at hb
  | varbin v => intro b hb; simp [Val.bytes] at hb
  | property v id => intro b hb; simp [Val.bytes] at hb
  | nested v => intro b hb; simp [Val.bytes] at hb

/-- Everything outside a fixed-size preplaced field is untouched. -/
structure PreplacedPost (σ : Sch) (s s' : RW) (tag n : Nat) : Prop where
  wf : WF σ s'
  pivot : s'.pivot = s.pivot
  pre : s'.pre = s.pre
  lim : s'.lim = s.lim
  tail : s'.tail = s.tail
  head : s'.head = s.head
  live : ∀ b, s'.live b ↔ s.live b
  kept : ∀ b g, FieldAt σ s b g → FieldAt σ s' b g ∧ Kept σ s s' b
  bytes : ∀ k, ¬ (4 * s.pivot + tag2offset tag ≤ k ∧ k < 4 * s.pivot + tag2offset tag + n) → s'.mem.byte k = s.mem.byte k

theorem preplacedBytes_write {σ : Sch} {s : RW} {tag : Nat} {g : Genus} {bs : List Nat} (h : WF σ s) (hs : FixedSlot σ s.pre tag g)
    (hl : bs.length = g.preplacedBytes) (hb : ∀ b ∈ bs, b < 256) :
    PreplacedPost σ s (RW.withMem s (s.mem.writeBytes (4 * s.pivot + tag2offset tag) bs)) tag g.preplacedBytes := by
  obtain ⟨k1, k2, k3, k4⟩ := preplaced_write (m := s.mem.writeBytes (4 * s.pivot + tag2offset tag) bs) h (fun b hb => by
    refine Memory.writeBytes_cell _ _ _ _ ?_
    rw [hl]
    have h1 := hs.1
    have hbase : s.base = s.pivot + s.pre := rfl
    rcases hb with hb | hb | hb
    · left; omega
    · right; omega
    · by_cases hbp : b < s.pivot
      · left; omega
      · rcases hs.2 _ hb with h2 | h2
        · right; omega
        · left; omega)
  refine ⟨k1, rfl, rfl, rfl, rfl, rfl, k2, k4, fun k hk => ?_⟩
  show (s.mem.writeBytes _ bs).byte k = _
  rw [Memory.byte_writeBytes _ _ _ hb, if_neg (by rw [hl]; exact hk)]

/-- Setting a preplaced field of fixed size. -/
theorem setPreplacedFixed_spec {σ : Sch} {s : RW} {g : Genus} {v : Val} {tag : Nat} (h : WF σ s)
    (hg : tag2genus tag = g) (hf : v.fits g) (hfx : g.isFixed = true) (hs : FixedSlot σ s.pre tag g) :
    ∃ s', assignPreplacedFixed s tag g v = .ok () s' ∧ PreplacedPost σ s s' tag g.preplacedBytes ∧
      s'.mem.readBytes (4 * s.pivot + tag2offset tag) g.preplacedBytes = v.bytes g := by
  unfold assignPreplacedFixed
  rw [if_neg (by rw [hg]; exact fun h => h rfl)]
  refine ⟨_, rfl, preplacedBytes_write h hs (bytes_length hf hfx) (bytes_ok hf), ?_⟩
  rw [← bytes_length hf hfx]
  exact Memory.readBytes_writeBytes _ _ _ (bytes_ok hf)

theorem denil_length : ∀ g : Genus, (denilBytes g).length = g.preplacedBytes := by intro g; cases g <;> rfl
theorem denil_ok : ∀ g : Genus, ∀ b ∈ denilBytes g, b < 256 := by intro g; cases g <;> decide

/-- Erasing a preplaced field that the code considers as existing. -/
theorem erasePreplacedFixed_spec {σ : Sch} {F : Fix} {s : RW} {g : Genus} {tag : Nat} (h : WF σ s)
    (hg : tag2genus tag = g) (hfx : g.isFixed = true) (hs : FixedSlot σ s.pre tag g) :
    ∃ s', erasePreplacedAt F s tag = .ok () s' ∧ PreplacedPost σ s s' tag g.preplacedBytes ∧
      s'.mem.readBytes (4 * s.pivot + tag2offset tag) g.preplacedBytes =
        if isDiscernible tag then denilBytes g else List.replicate g.preplacedBytes 0 := by
  unfold erasePreplacedAt
  simp only
  rw [hg, if_pos hfx]
  have e1 : (if isDiscernible tag = true then denilBytes g else List.replicate g.preplacedBytes 0).length = g.preplacedBytes := by
    split_ifs
    · exact denil_length g
    · exact List.length_replicate
  have e2 : ∀ b ∈ (if isDiscernible tag = true then denilBytes g else List.replicate g.preplacedBytes 0), b < 256 := by
    split_ifs
    · exact denil_ok g
    · intro b hb; have := List.eq_of_mem_replicate hb; omega
  refine ⟨_, rfl, preplacedBytes_write h hs e1 e2, ?_⟩
  have k := Memory.readBytes_writeBytes s.mem (4 * s.pivot + tag2offset tag) _ e2
  rw [e1] at k
  exact k

theorem erasePreplacedStretchy_spec {σ : Sch} {F : Fix} {s : RW} {g : Genus} {tag : Nat} (h : WF σ s)
    (hg : tag2genus tag = g) (hs : StretchySlot σ s.pre tag g) :
    (erasePreplacedAt F s tag).Sat (2047 < s.jv + lenOf σ s (s.pivot + tag2offset tag / 4))
      (fun e s' => e = .insufficientSpace 1 0 ∧ s.head = 0 ∧ (∀ x, s.hole x → s.units x ≠ 0) ∧
        s' = if F.rel then s else { s with jv := s.jv + lenOf σ s (s.pivot + tag2offset tag / 4) })
      (fun _ s' => WF σ s' ∧ Others σ s s' (s.pivot + tag2offset tag / 4) ∧ (s'.mem (s.pivot + tag2offset tag / 4)).lo = 0) := by
  have hfx := h.sch _ _ hs.2
  unfold erasePreplacedAt
  simp only
  rw [hg, if_neg (by rw [hfx]; decide)]
  set a := s.pivot + tag2offset tag / 4 with ha
  have hin : s.pivot ≤ a ∧ a < s.base := by
    have := hs.1
    have hbase : s.base = s.pivot + s.pre := rfl
    omega
  have hfa : FieldAt σ s a g := Or.inr ⟨hin.1, hin.2, by rw [show a - s.pivot = tag2offset tag / 4 by omega]; exact hs.2⟩
  by_cases c : (s.mem a).lo ≠ 0
  · rw [if_pos c]
    have hlen : lenOf σ s a = brutto g s.mem (s.start a) := by
      rw [hfa.len]; unfold fieldUnits
      rw [hfx, if_neg (by decide), if_neg c]
    rw [← hlen]
    have key := detach_spec F h hin (h.pos a g ⟨hfx, hfa⟩ c)
    cases hr : releaseDataF F s (s.start a) (lenOf σ s a) with
    | ub => rw [hr] at key; exact key
    | exc e s' => rw [hr] at key; exact key
    | ok u t =>
      rw [hr] at key
      exact ⟨key.1, key.2.1, by rw [key.2.2]⟩
  · rw [if_neg c]
    exact ⟨h, Others.refl σ s a, by omega⟩

/-! ## Creation -/

theorem create_wf {σ : Sch} {mem : Memory} {items pre lim : Nat} {image : List Cell} (hl : image.length = pre)
    (hfit : items + pre ≤ lim) (hlim : lim ≤ 65534) (hσ : ∀ k g, σ k = some g → g.isFixed = false)
    (hz : ∀ k g, σ k = some g → k < pre → (image.getD k .zero).lo = 0) : WF σ (create mem items pre lim image) := by
  set s := create mem items pre lim image with hs
  have hlen : ∀ a, s.owner a → lenOf σ s a = 0 := by
    intro a ha
    rcases ha with ha | ha
    · exact absurd ha.1 (by have := ha.2.1; show ¬ items ≤ a; have : a < items := this; omega)
    · have h1 : items ≤ a := ha.1
      have h2 : a < items + pre := ha.2
      unfold lenOf
      rw [if_neg (by show ¬ a < items; omega)]
      show (match σ (a - items) with | some g => fieldUnits s.mem g a | none => 0) = 0
      cases hk : σ (a - items) with
      | none => rfl
      | some g =>
        show fieldUnits s.mem g a = 0
        unfold fieldUnits
        rw [hσ _ g hk, if_neg (by decide)]
        rw [if_pos]
        show ((mem.writeCells items image) a).lo = 0
        rw [Memory.writeCells_apply, if_pos (by omega)]
        exact hz _ g hk (by omega)
  have inv0 : Inv s (fun _ => 0) fun _ => 0 := by
    refine ⟨le_rfl, le_rfl, hfit, hlim, fun u => ?_, ?_, ?_, fun _ => le_rfl⟩
    · have e : T (phiW s.pivot (fun _ => 0) u) s.mem s.head s.base = T (fun _ _ => 0) s.mem s.head s.base := by
        refine T_congr fun a h1 h2 => ?_
        have h1 : items ≤ a := h1
        unfold phiW clen
        rw [if_neg (by show ¬ (a < items ∧ _); omega), ind_zero]
      rw [e]
      show T _ _ _ _ + 0 = ind s.base (s.base - s.base) u
      rw [Nat.sub_self, ind_zero]
      unfold T
      simp
    · exact (T_empty _ _ (le_refl items)).symm
    · exact (T_empty _ _ (le_refl items)).symm
  refine ⟨Inv.congr_len inv0 hlen, ⟨?_, ?_, ?_⟩, ?_, ?_, hσ⟩
  · intro a ha; exact absurd ha.2.1 (by show ¬ a < items; have : items ≤ a := ha.1; omega)
  · intro a b ha; exact absurd ha.2.1 (by show ¬ a < items; have : items ≤ a := ha.1; omega)
  · intro h; exact absurd h (lt_irrefl items)
  · intro a ha; exact absurd ha.2.1 (by show ¬ a < items; have : items ≤ a := ha.1; omega)
  · rintro a g ⟨h1, h2⟩ h0
    exfalso
    apply h0
    rcases h2 with ⟨k1, _⟩ | ⟨k1, k2, k3⟩
    · exact absurd k1.2.1 (by show ¬ a < items; have : items ≤ a := k1.1; omega)
    · have k1 : items ≤ a := k1
      have k2 : a < items + pre := k2
      have k3 : σ (a - items) = some g := k3
      show ((mem.writeCells items image) a).lo = 0
      rw [Memory.writeCells_apply, if_pos (by omega)]
      exact hz _ g k3 (by omega)

/-! ## Histories -/

/-- A modification of a tuple: `set_*`, `insert_*`, `erase`. -/
inductive Op where
  | set (tag : Nat) (g : Genus) (v : Val)
  | insert (tag : Nat) (g : Genus) (v : Val)
  | erase (tag : Nat)

/-- One modification; results other than the state are dropped. -/
def step (F : Fix) (s : RW) : Op → Out Unit
  | .set tag g v => setField F s tag g v
  | .insert tag g v => (insertField F s tag g v).bind fun _ s => .ok () s
  | .erase tag =>
    if isPreplaced tag then (erasePreplaced F s tag).bind fun _ s => .ok () s
    else (eraseLoose s tag).bind fun _ s => .ok () s

/-- A history: the user catches every exception and goes on with the tuple. `none`: undefined behaviour. -/
def run (F : Fix) : RW → List Op → Option RW
  | s, [] => some s
  | s, op :: ops =>
    match step F s op with
    | .ok _ s' => run F s' ops
    | .exc _ s' => run F s' ops
    | .ub => none

theorem preplaced_not_loose (tag : Nat) : isPreplaced tag = !isLoose tag := by
  unfold isPreplaced isLoose
  by_cases h : tag < looseThreshold
  · simp [h]
  · simp only [decide_eq_false h, decide_eq_true (Nat.le_of_not_lt h)]; rfl

/-- The token is one that the token constructors and the schema produce. -/
def TokenOk (σ : Sch) (pre tag : Nat) : Prop :=
  tag2genus tag ≠ .hole ∧
    (isPreplaced tag = true → if (tag2genus tag).isFixed then FixedSlot σ pre tag (tag2genus tag) else StretchySlot σ pre tag (tag2genus tag))

/-- The argument is of the type of the setter. -/
def OpOk (σ : Sch) (pre : Nat) : Op → Prop
  | .set tag g v => TokenOk σ pre tag ∧ v.fits g = true
  | .insert tag g v => TokenOk σ pre tag ∧ v.fits g = true
  | .erase tag => TokenOk σ pre tag

/-- The defects of `src/gear.cxx` (lines 300, 393, 591) do not show in this step. -/
def StepBenign (F : Fix) (s : RW) : Op → Prop
  | .set tag g v => Benign F s g v ∧ (F.rel = true ∨ 0 < s.head ∨ isLoose tag)
  | .insert _ g v => Benign F s g v
  | .erase tag => F.rel = true ∨ 0 < s.head ∨ isLoose tag

theorem stepBenign_repaired (s : RW) (op : Op) : StepBenign .repaired s op := by
  cases op with
  | set tag g v => exact ⟨Benign.repaired s g v, Or.inl rfl⟩
  | insert tag g v => exact Benign.repaired s g v
  | erase tag => exact Or.inl rfl

/-- What every step preserves. -/
structure Keep (σ : Sch) (s s' : RW) : Prop where
  wf : WF σ s'
  pivot : s'.pivot = s.pivot
  pre : s'.pre = s.pre
  lim : s'.lim = s.lim

theorem Keep.refl {σ : Sch} {s : RW} (h : WF σ s) : Keep σ s s := ⟨h, rfl, rfl, rfl⟩
theorem Others.keep {σ : Sch} {s s' : RW} {a : Nat} (h : WF σ s') (o : Others σ s s' a) : Keep σ s s' := ⟨h, o.pivot, o.pre, o.lim⟩

theorem rel_state {F : Fix} {s s' : RW} {P : Prop} {n : Nat} (h : F.rel = true ∨ 0 < s.head ∨ P) (hP : ¬ P) (h0 : s.head = 0)
    (e : s' = if F.rel then s else { s with jv := s.jv + n }) : s' = s := by
  rcases h with h | h | h
  · rw [h] at e; exact e
  · omega
  · exact absurd h hP

/-- The units of payload that the values of the field with this token take. -/
def occupied (s : RW) (tag : Nat) : Nat :=
  if isPreplaced tag then if (tag2genus tag).isFixed then 0 else fieldUnits s.mem (tag2genus tag) (s.pivot + tag2offset tag / 4)
  else unitsWhere s (· = tag % 65536)

theorem occupied_loose {σ : Sch} {s : RW} {tag : Nat} (hp : isPreplaced tag = false) : occupied s tag = sumOf σ s (· = tag % 65536) := by
  unfold occupied
  rw [if_neg (by rw [hp]; decide), unitsWhere_eq]

theorem occupied_lookup {σ : Sch} {s : RW} {tag : Nat} (hp : isPreplaced tag = false) (ht : tag2genus tag ≠ .hole) :
    (s.lookup (tag % 65536)).elim 0 (lenOf σ s) ≤ occupied s tag := by
  rw [occupied_loose (σ := σ) hp]
  cases hl : s.lookup (tag % 65536) with
  | none => exact Nat.zero_le _
  | some a =>
    have := (lookup_some (tag_not_hole ht)).1 hl
    exact le_sumOf (· = tag % 65536) this.1.1 this.1.2

theorem occupied_stretchy {σ : Sch} {s : RW} {tag : Nat} (hp : isPreplaced tag = true) (hfx : (tag2genus tag).isFixed = false)
    (hs : StretchySlot σ s.pre tag (tag2genus tag)) : occupied s tag = lenOf σ s (s.pivot + tag2offset tag / 4) := by
  have hbase : s.base = s.pivot + s.pre := rfl
  have hs1 := hs.1
  have hfa : FieldAt σ s (s.pivot + tag2offset tag / 4) (tag2genus tag) :=
    Or.inr ⟨by omega, by omega, by rw [Nat.add_sub_cancel_left]; exact hs.2⟩
  unfold occupied
  rw [if_pos hp, if_neg (by rw [hfx]; decide), hfa.len]

/-- Junk and the values of one field fit the payload area. -/
theorem occupied_le {σ : Sch} {s : RW} {tag : Nat} (h : WF σ s) (ht : TokenOk σ s.pre tag) : s.jv + occupied s tag ≤ s.tail - s.base := by
  cases hp : isPreplaced tag with
  | true =>
    have hslot := ht.2 hp
    cases hfx : (tag2genus tag).isFixed with
    | true =>
      have := jv_sumOf (fun _ => False) h
      unfold occupied
      rw [if_pos hp, if_pos hfx]
      omega
    | false =>
      rw [hfx, if_neg (by decide)] at hslot
      rw [occupied_stretchy hp hfx hslot]
      have hs1 := hslot.1
      have hbase : s.base = s.pivot + s.pre := rfl
      exact jv_len h (Or.inr ⟨by omega, by omega⟩)
  | false =>
    rw [occupied_loose (σ := σ) hp]
    exact jv_sumOf _ h

/-- The junk together with the values that the step drops exceeds what the descriptor of one hole can tell. -/
def BigHole (s : RW) : Op → Prop
  | .set tag _ _ => 2047 < s.jv + occupied s tag
  | .insert _ _ _ => False
  | .erase tag => 2047 < s.jv + occupied s tag

theorem BigHole.coarse {σ : Sch} {s : RW} {op : Op} (h : WF σ s) (hop : OpOk σ s.pre op) (hb : BigHole s op) : s.base + 2047 < s.tail := by
  cases op with
  | set tag g v =>
    have := occupied_le h hop.1
    have hb : 2047 < s.jv + occupied s tag := hb
    omega
  | insert tag g v => exact hb.elim
  | erase tag =>
    have := occupied_le h hop
    have hb : 2047 < s.jv + occupied s tag := hb
    omega

/-- Every step of every history keeps the tuple valid. -/
theorem step_spec {σ : Sch} {F : Fix} {s : RW} (h : WF σ s) (op : Op) (hop : OpOk σ s.pre op) (hb : StepBenign F s op) :
    (step F s op).Sat (BigHole s op) (fun _ s' => s' = s) (fun _ s' => Keep σ s s') := by
  cases op with
  | set tag g v =>
    obtain ⟨⟨ht1, ht3⟩, hf⟩ := hop
    have ht2 := preplaced_not_loose tag
    obtain ⟨hb1, hb2⟩ := hb
    show (setField F s tag g v).Sat _ _ _
    unfold setField
    by_cases hg : tag2genus tag = g
    · cases hp : isPreplaced tag with
      | true =>
        have hnl : isLoose tag = false := by rw [hp] at ht2; simpa using ht2.symm
        rw [if_pos rfl]
        have hslot := ht3 hp
        rw [hg] at hslot
        cases hfx : g.isFixed with
        | true =>
          rw [hfx, if_pos rfl] at hslot
          rw [if_pos rfl]
          obtain ⟨s', e, post, _⟩ := setPreplacedFixed_spec h hg hf hfx hslot
          rw [e]
          exact ⟨post.wf, post.pivot, post.pre, post.lim⟩
        | false =>
          rw [hfx, if_neg (by decide)] at hslot
          rw [if_neg (by decide)]
          have hbase : s.base = s.pivot + s.pre := rfl
          have hs1 := hslot.1
          have hfa : FieldAt σ s (s.pivot + tag2offset tag / 4) g :=
            Or.inr ⟨by omega, by omega, by rw [Nat.add_sub_cancel_left]; exact hslot.2⟩
          refine Out.Sat.bind (P := fun _ s' => Keep σ s s')
            ((setStretchyAt_spec h hb1 hg hf hfx hfa (by rw [hnl]; simp)).mono (fun hU => by
              show 2047 < s.jv + occupied s tag
              rw [occupied_stretchy hp (by rw [hg]; exact hfx) (by rw [hg]; exact hslot)]; exact hU) ?_ ?_) fun _ _ k => k
          · rintro e s' (k | k)
            · exact k.1
            · exact rel_state hb2 (by rw [hnl]; decide) k.2.2.2.1 k.2.2.2.2.2
          · rintro _ s' k
            exact Others.keep k.wf k.others
      | false =>
        have hll : isLoose tag = true := by rw [hp] at ht2; simpa using ht2.symm
        rw [if_neg (by decide)]
        by_cases hc : isLooseCollection tag = true
        · rw [if_pos hc]; rfl
        · rw [if_neg hc, gid_eq]
          cases hfx : g.isFixed with
          | true =>
            rw [if_pos rfl]
            refine Out.Sat.bind (P := fun _ s' => Keep σ s s')
              ((setLooseFixed_spec h hb1 hg hf hfx).mono (fun hU => lt_of_lt_of_le hU (Nat.add_le_add_left (occupied_lookup hp ht1) _)) (fun _ _ k => k.1) ?_) fun _ _ k => k
            rintro _ s' ⟨k1, a, k2, _⟩
            exact Others.keep k1 k2
          | false =>
            rw [if_neg (by decide)]
            refine Out.Sat.bind (P := fun _ s' => Keep σ s s')
              ((setLooseStretchy_spec h hb1 hg hf hfx hll).mono (fun hU => lt_of_lt_of_le hU (Nat.add_le_add_left (occupied_lookup hp ht1) _)) (fun _ _ k => k.1) ?_) fun _ _ k => k
            rintro _ s' ⟨k1, a, k2, _⟩
            exact Others.keep k1 k2
    · have m1 : assignPreplacedFixed s tag g v = .exc .typeMismatch s := by unfold assignPreplacedFixed; rw [if_pos hg]
      have m2 : ∀ f, assignStretchy F s tag f g v = .exc .typeMismatch s := by intro f; unfold assignStretchy; rw [if_pos hg]
      have m3 : ∀ f, assignLooseFixed F s tag f g v = .exc .typeMismatch s := by intro f; unfold assignLooseFixed; rw [if_pos hg]
      rw [m1, m2, m2, m3]
      split_ifs <;> rfl
  | insert tag g v =>
    obtain ⟨⟨ht1, ht3⟩, hf⟩ := hop
    have ht2 := preplaced_not_loose tag
    show (Out.bind (insertField F s tag g v) _).Sat _ _ _
    by_cases hg : tag2genus tag = g
    · by_cases hc : isLooseCollection tag = true
      · refine Out.Sat.bind (P := fun _ s' => Keep σ s s') ((insert_spec h hb hg hf hc).mono False.elim (fun _ _ k => k.1) ?_) fun _ _ k => k
        rintro r s' (⟨_, rfl, _⟩ | ⟨a, _, _, post⟩)
        · exact Keep.refl h
        · exact Others.keep post.wf post.others
      · have : insertField F s tag g v = .exc .collectionRequired s := by
          unfold insertField
          rw [if_neg (by rw [hg]; exact fun h => h rfl), if_pos hc]
        rw [this]; rfl
    · have : insertField F s tag g v = .exc .typeMismatch s := by unfold insertField; rw [if_pos hg]
      rw [this]; rfl
  | erase tag =>
    obtain ⟨ht1, ht3⟩ := hop
    have ht2 := preplaced_not_loose tag
    show (if isPreplaced tag then _ else _ : Out Unit).Sat _ _ _
    cases hp : isPreplaced tag with
    | true =>
      have hnl : isLoose tag = false := by rw [hp] at ht2; simpa using ht2.symm
      rw [if_pos rfl]
      unfold erasePreplaced
      by_cases hex : preplacedExist s tag = true
      · rw [if_pos hex]
        have hslot := ht3 hp
        cases hfx : (tag2genus tag).isFixed with
        | true =>
          rw [hfx, if_pos rfl] at hslot
          obtain ⟨s', e, post, _⟩ := erasePreplacedFixed_spec (F := F) h rfl hfx hslot
          rw [e]
          exact ⟨post.wf, post.pivot, post.pre, post.lim⟩
        | false =>
          rw [hfx, if_neg (by decide)] at hslot
          have key := erasePreplacedStretchy_spec (F := F) h rfl hslot
          cases hr : erasePreplacedAt F s tag with
          | ub =>
            rw [hr] at key
            show 2047 < s.jv + occupied s tag
            rw [occupied_stretchy hp hfx hslot]; exact key
          | exc e s' =>
            rw [hr] at key
            exact rel_state hb (by rw [hnl]; decide) key.2.1 key.2.2.2
          | ok u t =>
            rw [hr] at key
            exact Others.keep key.1 key.2.1
      · rw [if_neg hex]; exact Keep.refl h
    | false =>
      rw [if_neg (by decide)]
      by_cases hc : isLooseCollection tag = true
      · refine Out.Sat.bind (P := fun _ s' => Keep σ s s') ((eraseCollection_spec h ht1 hc).mono (fun hU => by
          show 2047 < s.jv + occupied s tag
          rw [occupied_loose (σ := σ) hp]; exact hU) (fun _ _ => False.elim) ?_) fun _ _ k => k
        rintro _ s' k
        exact ⟨k.wf, k.others.pivot, k.others.pre, k.others.lim⟩
      · refine Out.Sat.bind (P := fun _ s' => Keep σ s s') ((eraseSingle_spec h ht1 (by simpa using hc)).mono
          (fun hU => lt_of_lt_of_le hU (Nat.add_le_add_left (occupied_lookup hp ht1) _)) (fun _ _ => False.elim) ?_) fun _ _ k => k
        rintro _ s' ⟨k1, k2 | ⟨_, a, _, k2, _⟩⟩
        · rw [k2.2.1]; exact Keep.refl h
        · exact Others.keep k1 k2

/-- All steps of a history are free of the defects. -/
def RunBenign (F : Fix) : RW → List Op → Prop
  | _, [] => True
  | s, op :: ops => StepBenign F s op ∧
    match step F s op with
    | .ok _ s' => RunBenign F s' ops
    | .exc _ s' => RunBenign F s' ops
    | .ub => True

theorem runBenign_repaired (s : RW) (ops : List Op) : RunBenign .repaired s ops := by
  induction ops generalizing s with
  | nil => trivial
  | cons op ops ih =>
    refine ⟨stepBenign_repaired s op, ?_⟩
    split <;> first | exact ih _ | trivial

/-- No step of the history makes a hole that its descriptor cannot tell. -/
def SmallHoles (F : Fix) : RW → List Op → Prop
  | _, [] => True
  | s, op :: ops => ¬ BigHole s op ∧
    match step F s op with
    | .ok _ s' => SmallHoles F s' ops
    | .exc _ s' => SmallHoles F s' ops
    | .ub => True

/-- In a buffer of at most 2047 units for payload no hole gets that large. -/
theorem smallHoles_of {σ : Sch} {F : Fix} (ops : List Op) {s : RW} (h : WF σ s) (hops : ∀ op ∈ ops, OpOk σ s.pre op) (hb : RunBenign F s ops)
    (hl : s.lim ≤ s.base + 2047) : SmallHoles F s ops := by
  induction ops generalizing s with
  | nil => trivial
  | cons op ops ih =>
    obtain ⟨hb1, hb2⟩ := hb
    have hrest : ∀ o ∈ ops, OpOk σ s.pre o := fun o ho => hops o (by simp [ho])
    have key := step_spec h op (hops op (by simp)) hb1
    refine ⟨fun hh => ?_, ?_⟩
    · have := hh.coarse h (hops op (by simp))
      have := h.inv.tl
      omega
    · cases hr : step F s op with
      | ub => trivial
      | exc e s1 =>
        rw [hr] at key hb2
        have key : s1 = s := key
        subst key
        exact ih h hrest hb2 hl
      | ok u s1 =>
        rw [hr] at key hb2
        have key : Keep σ s s1 := key
        have e : s1.base = s.base := by show s1.pivot + s1.pre = _; rw [key.pivot, key.pre]
        exact ih key.wf (by rw [key.pre]; exact hrest) hb2 (by rw [e, key.lim]; exact hl)

theorem run_lean {σ : Sch} {F : Fix} (ops : List Op) {s : RW} (h : WF σ s) (hops : ∀ op ∈ ops, OpOk σ s.pre op) (hb : RunBenign F s ops)
    (hs : SmallHoles F s ops) : run F s ops ≠ none := by
  induction ops generalizing s with
  | nil => intro hr; cases hr
  | cons op ops ih =>
    obtain ⟨hb1, hb2⟩ := hb
    obtain ⟨hs1, hs2⟩ := hs
    have hrest : ∀ o ∈ ops, OpOk σ s.pre o := fun o ho => hops o (by simp [ho])
    have key := step_spec h op (hops op (by simp)) hb1
    rw [run]
    cases hr : step F s op with
    | ub => rw [hr] at key; exact absurd key hs1
    | exc e s1 =>
      rw [hr] at key hb2 hs2
      have key : s1 = s := key
      subst key
      exact ih h hrest hb2 hs2
    | ok u s1 =>
      rw [hr] at key hb2 hs2
      have key : Keep σ s s1 := key
      exact ih key.wf (by rw [key.pre]; exact hrest) hb2 hs2

theorem run_spec {σ : Sch} {F : Fix} (ops : List Op) {s : RW} (h : WF σ s) (hops : ∀ op ∈ ops, OpOk σ s.pre op) (hb : RunBenign F s ops) :
    (∀ s', run F s ops = some s' → Keep σ s s') ∧ (s.lim ≤ s.base + 2047 → run F s ops ≠ none) := by
  induction ops generalizing s with
  | nil =>
    refine ⟨fun s' hr => ?_, fun _ hr => by cases hr⟩
    injection hr with hr
    subst hr; exact Keep.refl h
  | cons op ops ih =>
    obtain ⟨hb1, hb2⟩ := hb
    have key := step_spec h op (hops op (by simp)) hb1
    rw [run]
    have hrest : ∀ o ∈ ops, OpOk σ s.pre o := fun o ho => hops o (by simp [ho])
    cases hr : step F s op with
    | ub =>
      rw [hr] at key
      refine ⟨fun s' hh => (by cases hh), fun hl => ?_⟩
      have := BigHole.coarse h (hops op (by simp)) key
      have := h.inv.tl
      omega
    | exc e s1 =>
      rw [hr] at key hb2
      have key : s1 = s := key
      subst key
      exact ih h hrest hb2
    | ok u s1 =>
      rw [hr] at key hb2
      have key : Keep σ s s1 := key
      obtain ⟨i1, i2⟩ := ih key.wf (by rw [key.pre]; exact hrest) hb2
      refine ⟨fun s' hh => ?_, fun hl => i2 ?_⟩
      · have k := i1 s' hh
        exact ⟨k.wf, k.pivot.trans key.pivot, k.pre.trans key.pre, k.lim.trans key.lim⟩
      · have e : s1.base = s.base := by show s1.pivot + s1.pre = _; rw [key.pivot, key.pre]
        rw [e, key.lim]; exact hl

end Fptu.Rw
