import Verif.Lemmas.GearRealloc
import Verif.Model.TupleRW
import Verif.Props.Stretchy
/-!
# Tuple operations: layout read from the tuple itself, what stays, lookups
-/
namespace Fptu.Rw
open Fptu.Gear

/-! ## Values -/

theorem genus_le (g : Genus) : g.code ≤ 31 := by cases g <;> decide
theorem ofCode_code (g : Genus) : Genus.ofCode g.code = g := by cases g <;> rfl
theorem code_ofCode {n : Nat} (h : n < 32) : (Genus.ofCode n).code = n := by
  revert n; decide

theorem cellGenus_tag (c : Cell) (tag : Nat) (h : c.hi = tag % 65536) : cellGenus c = tag2genus tag := by
  unfold cellGenus tag2genus tag2genusCode
  rw [h, Nat.shiftRight_eq_div_pow]

theorem tag_not_hole {tag : Nat} (h : tag2genus tag ≠ .hole) : tag % 65536 / 2048 ≠ 31 := by
  intro h'
  apply h
  unfold tag2genus tag2genusCode
  rw [Nat.shiftRight_eq_div_pow, show (2:Nat)^16 = 65536 from rfl, show (2:Nat)^11 = 2048 from rfl, h']
  rfl

theorem fits_not_hole {g : Genus} {v : Val} (h : v.fits g) : g ≠ .hole := by
  rintro rfl
  cases v with
  | inline x => simp [Val.fits, Genus.isInplaced] at h
  | units cs => simp [Val.fits] at h
  | text v => simp [Val.fits] at h
  | varbin v => simp [Val.fits] at h
  | property v id => simp [Val.fits] at h
  | nested v => cases v <;> simp [Val.fits] at h

/-- The units which a value needs: its estimate, or the fixed size of the genus. -/
def needs (g : Genus) (v : Val) (n : Nat) : Prop := if g.isFixed then n = g.looseUnits else v.estimate = .ok n

theorem brutto_congr (g : Genus) {m m' : Memory} {p : Nat} (h : m p = m' p) : brutto g m p = brutto g m' p := by
  have b : ∀ i, i < 4 → m.byte (4 * p + i) = m'.byte (4 * p + i) := fun i hi =>
    Memory.byte_congr (by rw [show (4 * p + i) / 4 = p by omega]; exact h)
  have b0 := b 0 (by omega)
  have b1 := b 1 (by omega)
  have b2 := b 2 (by omega)
  rw [Nat.add_zero] at b0
  unfold brutto
  cases g <;> simp only []
  · unfold Str.bruttoUnits Str.isTiny Str.suffix; rw [b0, b1, b2]
  · unfold Varbin.bruttoUnits; rw [h]
  · unfold Nested.bruttoUnits; rw [h]
  · unfold Property.bruttoUnits Property.wholeLength; rw [b0]

theorem inplaced_facts : ∀ g : Genus, g.isInplaced = true → g.isFixed = true ∧ g.looseUnits = 0 := by
  intro g; cases g <;> decide
theorem fixed_pos : ∀ g : Genus, g.isFixed = true → g.isInplaced = false → g ≠ .hole → 0 < g.looseUnits := by
  intro g; cases g <;> decide
/-- The four stretchy genera. -/
theorem stretchy_cases {g : Genus} (h : g.isFixed = false) : g = .text ∨ g = .varbin ∨ g = .nested ∨ g = .property := by
  revert h; cases g <;> decide

theorem fits_inline {g : Genus} {x : Nat} (h : (Val.inline x).fits g) : g.isInplaced = true ∧ g.isFixed = true ∧ g.looseUnits = 0 ∧ x < 65536 := by
  simp only [Val.fits, Bool.and_eq_true, decide_eq_true_eq] at h
  obtain ⟨h1, h2⟩ := h
  exact ⟨h1, (inplaced_facts g h1).1, (inplaced_facts g h1).2, by split_ifs at h2 <;> omega⟩

theorem fits_units {g : Genus} {cs : List Cell} (h : (Val.units cs).fits g) :
    g.isInplaced = false ∧ g.isFixed = true ∧ cs.length = g.looseUnits ∧ 0 < g.looseUnits ∧ g ≠ .hole ∧ cs.all Cell.ok = true := by
  simp only [Val.fits, Bool.and_eq_true, decide_eq_true_eq, Bool.not_eq_true'] at h
  obtain ⟨⟨⟨⟨h1, h2⟩, h3⟩, h4⟩, h5⟩ := h
  exact ⟨h2, h1, h4, fixed_pos g h1 h2 h3, h3, h5⟩

/-- Writing a value: only the needed units change, their number can be read back, and so can the value
(except for the length of binary strings, see C05). -/
theorem write_spec {g : Genus} {v : Val} {n : Nat} (hf : v.fits g) (hn : needs g v n) (h0 : 0 < n) (m : Memory) (p : Nat) :
    Props.StaysInside m (v.write m p) p n ∧ (g.isFixed = false → brutto g (v.write m p) p = n) ∧
      (g ≠ .varbin → readPayload g (v.write m p) p = some v) := by
  unfold needs at hn
  cases v with
  | inline x =>
    obtain ⟨_, h2, h3, _⟩ := fits_inline hf
    rw [h2, if_pos rfl] at hn
    omega
  | units cs =>
    obtain ⟨h1, h2, h3, h4, h5, h6⟩ := fits_units hf
    rw [h2, if_pos rfl] at hn
    subst hn
    refine ⟨?_, fun h => absurd (h2.symm.trans h) (by decide), fun _ => ?_⟩
    · intro a ha
      show m.writeCells p cs a = _
      rw [Memory.writeCells_apply, if_neg (by omega)]
    · have e : (m.writeCells p cs).readCells p g.looseUnits = cs := by
        rw [← h3]; exact Memory.readCells_writeCells m p cs
      show readPayload g (m.writeCells p cs) p = _
      conv_rhs => rw [← e]
      cases g <;> first | rfl | exact absurd h2 (by decide)
  | text v =>
    simp only [Val.fits, Bool.and_eq_true, decide_eq_true_eq, List.all_eq_true] at hf
    obtain ⟨rfl, hb⟩ := hf
    have hn : Str.estimate v.length = .ok n := hn
    have hl : v.length ≤ 131325 := by
      by_contra c
      rw [((Props.C04_estimate v.length).1).1 (by omega)] at hn
      cases hn
    obtain ⟨u, e1, e2, e3, e4, e5, _⟩ := Props.C04_string_roundtrip m p v hb hl
    rw [hn] at e1
    injection e1 with e1
    subst e1
    exact ⟨e5, fun _ => e4, fun _ => by show (Str.read (Str.store m p v) p).map Val.text = _; rw [e2]; rfl⟩
  | varbin v =>
    simp only [Val.fits, Bool.and_eq_true, decide_eq_true_eq, List.all_eq_true] at hf
    obtain ⟨rfl, hb⟩ := hf
    have hn : Varbin.estimate v.length = .ok n := hn
    have hl : v.length ≤ 262136 := by
      by_contra c
      rw [((Props.C05_estimate v.length).1).1 (by omega)] at hn
      cases hn
    obtain ⟨u, e1, e2, e3, _⟩ := Props.C05_varbin_roundtrip_partial m p v hb hl
    rw [hn] at e1
    injection e1 with e1
    subst e1
    exact ⟨e3, fun _ => e2, fun h => absurd rfl h⟩
  | property v id =>
    simp only [Val.fits, Bool.and_eq_true, decide_eq_true_eq, List.all_eq_true] at hf
    obtain ⟨⟨rfl, hb⟩, hid⟩ := hf
    have hn : Property.estimate v.length = .ok n := hn
    obtain ⟨k1, k2⟩ := Props.C06_property_roundtrip m p id v hb hid
    have hl : v.length ≤ 255 := by
      by_contra c
      rw [k1.1 (by omega)] at hn
      cases hn
    obtain ⟨u, e1, e2, e3, e4, e5⟩ := k2 hl
    rw [hn] at e1
    injection e1 with e1
    subst e1
    refine ⟨e5, fun _ => e4, fun _ => ?_⟩
    show some (Val.property _ _) = _
    rw [show (Val.property v id).write m p = Property.store m p v id from rfl, e2]
  | nested v =>
    cases v with
    | none =>
      simp only [Val.fits, decide_eq_true_eq] at hf
      subst hf
      have hn : (Except.ok 0 : Except Exc Nat) = .ok n := hn
      injection hn with hn
      omega
    | some v =>
      simp only [Val.fits, Bool.and_eq_true, decide_eq_true_eq] at hf
      obtain ⟨⟨rfl, hne, hl⟩, _⟩ := hf
      have hi : Props.IsTupleImage v := by
        cases v with
        | nil => exact absurd rfl hne
        | cons h t => exact ⟨h, t, rfl, hl⟩
      obtain ⟨e1, e2, e3, _, e5⟩ := Props.C06_nested_roundtrip m p v hi
      have hn : (Except.ok (Nested.estimate (some v)) : Except Exc Nat) = .ok n := hn
      injection hn with hn
      rw [e1] at hn
      subst hn
      refine ⟨e5, fun _ => e3, fun _ => ?_⟩
      show some (Val.nested (some _)) = _
      rw [show (Val.nested (some v)).write m p = Nested.store m p (some v) from rfl, e2]

/-- A typed read depends only on the payload units of the field. -/
theorem readPayload_congr {g : Genus} (hg : g ≠ .varbin) {m m' : Memory} {p n : Nat} (hn : 0 < n)
    (hb : if g.isFixed then n = g.looseUnits else n = brutto g m p)
    (h : ∀ u, p ≤ u → u < p + n → m' u = m u) : readPayload g m' p = readPayload g m p := by
  have hp : m' p = m p := h p le_rfl (by omega)
  have by' : ∀ k, 4 * p ≤ k → k < 4 * (p + n) → m'.byte k = m.byte k := fun k h1 h2 =>
    Memory.byte_congr (h _ (by omega) (by omega))
  have b0 := by' (4 * p) (by omega) (by omega)
  have b1 := by' (4 * p + 1) (by omega) (by omega)
  have b2 := by' (4 * p + 2) (by omega) (by omega)
  have b3 := by' (4 * p + 3) (by omega) (by omega)
  have b2u : ∀ n, bytes2units n = (n + 3) / 4 := fun n => by
    unfold bytes2units; rw [Nat.shiftRight_eq_div_pow]; omega
  cases hfx : g.isFixed with
  | true =>
    rw [hfx, if_pos rfl] at hb
    have e : m'.readCells p g.looseUnits = m.readCells p g.looseUnits :=
      Memory.readCells_congr fun i hi => h _ (by omega) (by omega)
    cases g <;> first | exact absurd hfx (by decide) | (unfold readPayload; simp only []; rw [e])
  | false =>
    rw [hfx, if_neg (by simp)] at hb
    cases g with
    | text =>
      have e1 : Str.isPoolTag m' p = Str.isPoolTag m p := by unfold Str.isPoolTag Str.poolTag; rw [b0, b1, b2, b3]
      have e2 : Str.isTiny m' p = Str.isTiny m p := by unfold Str.isTiny; rw [b0]
      have e3 : Str.length m' p = Str.length m p := by unfold Str.length Str.suffix; rw [e2, b0, b1, b2]
      have e4 : Str.begin_ m' p = Str.begin_ m p := by unfold Str.begin_; rw [e2]
      show (Str.read m' p).map Val.text = (Str.read m p).map Val.text
      unfold Str.read
      rw [e1, e3, e4]
      have e5 : m'.readBytes (Str.begin_ m p) (Str.length m p) = m.readBytes (Str.begin_ m p) (Str.length m p) := by
        refine Memory.readBytes_congr fun i hi => by' _ ?_ ?_
        · unfold Str.begin_; omega
        · have hb : n = bytes2units (if Str.isTiny m p then 1 + m.byte (4 * p) else 3 + m.byte (4 * p) + Str.suffix m p * 2) := hb
          rw [b2u] at hb
          unfold Str.begin_
          unfold Str.length at hi
          split_ifs at * <;> omega
      rw [e5]
    | varbin => exact absurd rfl hg
    | nested =>
      show some (Val.nested (some (Nested.read m' p))) = some (Val.nested (some (Nested.read m p)))
      unfold Nested.read
      rw [hp]
      have hb : n = (m p).lo := hb
      rw [Memory.readCells_congr (m := m') (m' := m) fun i hi => h _ (by omega) (by omega)]
    | property =>
      show some (Val.property (Property.read m' p).1 (Property.read m' p).2) = some (Val.property (Property.read m p).1 (Property.read m p).2)
      unfold Property.read
      simp only []
      rw [b0, b1]
      have hb : n = bytes2units (2 + m.byte (4 * p)) := hb
      rw [b2u] at hb
      rw [Memory.readBytes_congr (m := m') (m' := m) fun i hi => by' _ (by omega) (by omega)]
    | _ => exact absurd hfx (by decide)

/-! ## Layout read from the tuple -/

/-- `a` is a field of a stretchy genus `g` (a loose field, or a preplaced one). -/
def StretchyAt (σ : Sch) (s : RW) (a : Nat) (g : Genus) : Prop :=
  g.isFixed = false ∧ ((s.live a ∧ cellGenus (s.mem a) = g) ∨ (s.pivot ≤ a ∧ a < s.base ∧ σ (a - s.pivot) = some g))

/-- Structural validity of a modifiable tuple. -/
structure WF (σ : Sch) (s : RW) : Prop where
  inv : Inv s (lenOf σ s) fun _ => 0
  canon : Canon s
  word : ∀ a, s.live a → (s.mem a).hi < 65536
  pos : ∀ a g, StretchyAt σ s a g → (s.mem a).lo ≠ 0 → 0 < lenOf σ s a
  sch : ∀ k g, σ k = some g → g.isFixed = false

theorem Inv.congr_len {s : RW} {len len' : Nat → Nat} {ex : Nat → ℤ} (h : Inv s len ex)
    (hl : ∀ a, s.owner a → len' a = len a) : Inv s len' ex := by
  refine ⟨h.hp, h.bt, h.tl, h.ll, fun u => ?_, h.cnt, h.vol, h.exnn⟩
  rw [← h.cover u]
  congr 1
  refine T_congr fun a h1 h2 => ?_
  unfold phiW
  by_cases c : a < s.pivot ∧ Cell.isHole (s.mem a)
  · unfold clen; rw [if_pos c, if_pos c]
  · unfold clen
    rw [if_neg c, if_neg c, hl a]
    by_cases hp : a < s.pivot
    · exact Or.inl ⟨h1, hp, fun hh => c ⟨hp, hh⟩⟩
    · exact Or.inr ⟨by omega, h2⟩

/-- Field `b` of `s` is untouched in `s'`: same descriptor, same payload units. -/
structure Kept (σ : Sch) (s s' : RW) (b : Nat) : Prop where
  cell : s'.mem b = s.mem b
  payload : ∀ u, s.start b ≤ u → u < s.start b + lenOf σ s b → s'.mem u = s.mem u

theorem Kept.refl (σ : Sch) (s : RW) (b : Nat) : Kept σ s s b := ⟨rfl, fun _ _ _ => rfl⟩

theorem WF.pos' {σ : Sch} {s : RW} (h : WF σ s) {a : Nat} {g : Genus} (hs : StretchyAt σ s a g) :
    lenOf σ s a = fieldUnits s.mem g a := by
  unfold lenOf
  rcases hs with ⟨_, ⟨h1, h2⟩ | ⟨h1, h2, h3⟩⟩
  · rw [if_pos h1.2.1, h2]
  · rw [if_neg (by omega), h3]

/-- The length of an untouched field is the same. -/
theorem Kept.len {σ : Sch} {s s' : RW} (h : WF σ s) {b : Nat} (hb : s.owner b) (hp : s'.pivot = s.pivot) (k : Kept σ s s' b) :
    lenOf σ s' b = lenOf σ s b := by
  have core : ∀ g, (g.isFixed = false → StretchyAt σ s b g) → fieldUnits s'.mem g b = fieldUnits s.mem g b := by
    intro g hs
    unfold fieldUnits
    cases hg : g.isFixed with
    | true => rfl
    | false =>
      rw [k.cell]
      by_cases h0 : (s.mem b).lo = 0
      · simp only [h0, if_true]
      · simp only [h0, if_false]
        have hpos := h.pos b g (hs hg) h0
        simp only [Bool.false_eq_true, if_false]
        exact brutto_congr g (k.payload (s.start b) le_rfl (by omega))
  unfold lenOf
  rw [hp, k.cell]
  rcases hb with hb | hb
  · rw [if_pos hb.2.1, if_pos hb.2.1]
    exact core _ fun hg => ⟨hg, Or.inl ⟨hb, rfl⟩⟩
  · rw [if_neg (by omega), if_neg (by omega)]
    cases hσ : σ (b - s.pivot) with
    | none => rfl
    | some g => exact core g fun hg => ⟨hg, Or.inr ⟨hb.1, hb.2, hσ⟩⟩

/-- Validity of the next state when everything but the field `a` is untouched. -/
theorem WF.next {σ : Sch} {s s' : RW} {a : Nat} {len' : Nat → Nat} (h : WF σ s) (hinv : Inv s' len' fun _ => 0) (hc : Canon s')
    (hp : s'.pivot = s.pivot) (hpre : s'.pre = s.pre)
    (live : ∀ b, b ≠ a → s'.live b → s.live b)
    (kept : ∀ b, b ≠ a → s'.owner b → Kept σ s s' b ∧ len' b = lenOf σ s b)
    (ha : s'.owner a → lenOf σ s' a = len' a ∧ (s'.live a → (s'.mem a).hi < 65536) ∧
      ∀ g, StretchyAt σ s' a g → (s'.mem a).lo ≠ 0 → 0 < len' a) : WF σ s' := by
  have hbase : s'.base = s.base := by show s'.pivot + s'.pre = _; rw [hp, hpre]
  have own : ∀ b, b ≠ a → s'.owner b → s.owner b := by
    intro b hb ho
    rcases ho with ho | ho
    · exact Or.inl (live b hb ho)
    · exact Or.inr (by rw [← hbase, ← hp]; exact ho)
  have hl : ∀ b, s'.owner b → lenOf σ s' b = len' b := by
    intro b ho
    by_cases hb : b = a
    · subst hb; exact (ha ho).1
    · obtain ⟨k, e⟩ := kept b hb ho
      rw [e]; exact k.len h (own b hb ho) hp
  refine ⟨Inv.congr_len hinv hl, hc, fun b hb => ?_, fun b g hs h0 => ?_, h.sch⟩
  · by_cases hba : b = a
    · subst hba; exact (ha (Or.inl hb)).2.1 hb
    · rw [(kept b hba (Or.inl hb)).1.cell]; exact h.word b (live b hba hb)
  · have ho : s'.owner b := by
      rcases hs.2 with h1 | h1
      · exact Or.inl h1.1
      · exact Or.inr ⟨h1.1, h1.2.1⟩
    rw [hl b ho]
    by_cases hba : b = a
    · subst hba; exact (ha ho).2.2 g hs h0
    · obtain ⟨k, e⟩ := kept b hba ho
      rw [e]
      rw [k.cell] at h0
      refine h.pos b g ⟨hs.1, ?_⟩ h0
      rcases hs.2 with ⟨h1, h2⟩ | ⟨h1, h2, h3⟩
      · left; rw [k.cell] at h2; exact ⟨live b hba h1, h2⟩
      · right; rw [← hp, ← hbase]; exact ⟨h1, h2, h3⟩

/-- Changing only units of the payload area keeps the accounting. -/
theorem Inv.withMem {s : RW} {len : Nat → Nat} {ex : Nat → ℤ} (h : Inv s len ex) {m : Memory}
    (hm : ∀ b, b < s.base → m b = s.mem b) : Inv (RW.withMem s m) len ex := by
  refine ⟨h.hp, h.bt, h.tl, h.ll, fun u => ?_, ?_, ?_, h.exnn⟩
  · refine Eq.trans ?_ (h.cover u)
    show T _ m s.head s.base + _ = T _ s.mem s.head s.base + _
    congr 1
    exact T_congr fun a h1 h2 => by rw [hm a h2]; rfl
  · rw [show (RW.withMem s m).jc = s.jc from rfl, h.cnt]
    exact T_congr fun a h1 h2 => by
      rw [show (RW.withMem s m).mem a = s.mem a from hm a (lt_of_lt_of_le h2 (Nat.le_add_right _ _))]
  · rw [show (RW.withMem s m).jv = s.jv from rfl, h.vol]
    exact T_congr fun a h1 h2 => by
      rw [show (RW.withMem s m).mem a = s.mem a from hm a (lt_of_lt_of_le h2 (Nat.le_add_right _ _))]

theorem live_withMem {s : RW} {m : Memory} (hm : ∀ b, b < s.base → m b = s.mem b) (b : Nat) :
    (RW.withMem s m).live b ↔ s.live b := by
  unfold RW.live
  constructor
  · rintro ⟨h1, h2, h3⟩
    refine ⟨h1, h2, fun h => h3 ?_⟩
    show Cell.isHole (m b)
    rw [hm b (lt_of_lt_of_le h2 (Nat.le_add_right _ _))]; exact h
  · rintro ⟨h1, h2, h3⟩
    refine ⟨h1, h2, fun h => h3 ?_⟩
    show Cell.isHole (s.mem b)
    rw [← hm b (lt_of_lt_of_le h2 (Nat.le_add_right _ _))]; exact h

theorem Canon.withMem {s : RW} (hC : Canon s) {m : Memory} (hm : ∀ b, b < s.base → m b = s.mem b) : Canon (RW.withMem s m) := by
  have e : ∀ x, x < s.pivot → (RW.withMem s m).mem x = s.mem x := fun x hx => hm x (lt_of_lt_of_le hx (Nat.le_add_right _ _))
  have back : ∀ x, (RW.withMem s m).hole x → s.hole x ∧ (RW.withMem s m).mem x = s.mem x := by
    intro x hx
    have ee := e x hx.2.1
    refine ⟨⟨hx.1, hx.2.1, ?_⟩, ee⟩
    have := hx.2.2; unfold RW.isHole at this; rw [ee] at this; exact this
  refine ⟨fun a ha hu => ?_, fun a b ha hb hua hub => ?_, fun h1 h2 => ?_⟩
  · obtain ⟨k1, k2⟩ := back a ha
    unfold RW.units RW.holeEnd RW.start RW.units at *
    rw [k2] at hu ⊢
    exact hC.noTail a k1 hu
  · obtain ⟨k1, k2⟩ := back a ha
    obtain ⟨k3, k4⟩ := back b hb
    unfold RW.units RW.holeEnd RW.start RW.units at *
    rw [k2] at hua ⊢
    rw [k4] at hub ⊢
    exact hC.noAdj a b k1 k3 hua hub
  · have h1' : s.head < s.pivot := h1
    have ee := e s.head h1'
    have := hC.headNZ h1' (by
      have h2' : Cell.isHole ((RW.withMem s m).mem s.head) := h2
      rw [ee] at h2'; exact h2')
    show Cell.units ((RW.withMem s m).mem s.head) ≠ 0
    rw [ee]; exact this

end Fptu.Rw
