import Mathlib.Data.Finset.Sort
import Verif.Lemmas.TupleHist
/-!
# Copies of a tuple: the same fields at other addresses
-/
namespace Fptu
namespace Memory

theorem readBytes_move {m m' : Memory} {k k' n : Nat} (h : ∀ i, i < n → m'.byte (k' + i) = m.byte (k + i)) :
    m'.readBytes k' n = m.readBytes k n := by
  unfold readBytes
  exact List.map_congr_left fun i hi => h i (List.mem_range.1 hi)

theorem readCells_move {m m' : Memory} {k k' n : Nat} (h : ∀ i, i < n → m' (k' + i) = m (k + i)) :
    m'.readCells k' n = m.readCells k n := by
  unfold readCells
  exact List.map_congr_left fun i hi => h i (List.mem_range.1 hi)

theorem byte_move {m m' : Memory} {p p' n : Nat} (h : ∀ i, i < n → m' (p' + i) = m (p + i)) {k : Nat} (hk : k < 4 * n) :
    m'.byte (4 * p' + k) = m.byte (4 * p + k) := by
  unfold byte
  rw [show (4 * p' + k) / 4 = p' + k / 4 by omega, show (4 * p + k) / 4 = p + k / 4 by omega, h _ (by omega)]
  rw [show (4 * p' + k) % 4 = k % 4 by omega, show (4 * p + k) % 4 = k % 4 by omega,
    show (4 * p' + k) % 2 = k % 2 by omega, show (4 * p + k) % 2 = k % 2 by omega]

end Memory

namespace Rw
open Fptu.Gear

/-- A payload means the same at another place. -/
theorem readPayload_move {g : Genus} (hg : g ≠ .varbin) {m m' : Memory} {p p' n : Nat} (hn : 0 < n)
    (hb : if g.isFixed then n = g.looseUnits else n = brutto g m p)
    (h : ∀ i, i < n → m' (p' + i) = m (p + i)) : readPayload g m' p' = readPayload g m p := by
  have by' : ∀ k, k < 4 * n → m'.byte (4 * p' + k) = m.byte (4 * p + k) := fun k hk => Memory.byte_move h hk
  have hp : m' p' = m p := h 0 hn
  have b0 : m'.byte (4 * p') = m.byte (4 * p) := by' 0 (by omega)
  have b1 := by' 1 (by omega)
  have b2 := by' 2 (by omega)
  have b3 := by' 3 (by omega)
  have b2u : ∀ n, bytes2units n = (n + 3) / 4 := fun n => by
    unfold bytes2units; rw [Nat.shiftRight_eq_div_pow]; omega
  cases hfx : g.isFixed with
  | true =>
    rw [hfx, if_pos rfl] at hb
    have e : m'.readCells p' g.looseUnits = m.readCells p g.looseUnits :=
      Memory.readCells_move fun i hi => h _ (by omega)
    cases g <;> first | exact absurd hfx (by decide) | (unfold readPayload; simp only []; rw [e])
  | false =>
    rw [hfx, if_neg (by simp)] at hb
    cases g with
    | text =>
      have e1 : Str.isPoolTag m' p' = Str.isPoolTag m p := by unfold Str.isPoolTag Str.poolTag; rw [b0, b1, b2, b3]
      have e2 : Str.isTiny m' p' = Str.isTiny m p := by unfold Str.isTiny; rw [b0]
      have e3 : Str.length m' p' = Str.length m p := by unfold Str.length Str.suffix; rw [e2, b0, b1, b2]
      show (Str.read m' p').map Val.text = (Str.read m p).map Val.text
      unfold Str.read
      rw [e1, e3]
      have e5 : m'.readBytes (Str.begin_ m' p') (Str.length m p) = m.readBytes (Str.begin_ m p) (Str.length m p) := by
        unfold Str.begin_
        rw [e2]
        refine Memory.readBytes_move fun i hi => ?_
        rw [Nat.add_assoc, Nat.add_assoc]
        refine by' _ ?_
        have hb : n = bytes2units (if Str.isTiny m p then 1 + m.byte (4 * p) else 3 + m.byte (4 * p) + Str.suffix m p * 2) := hb
        rw [b2u] at hb
        unfold Str.length at hi
        split_ifs at * <;> omega
      rw [e5]
    | varbin => exact absurd rfl hg
    | nested =>
      show some (Val.nested (some (Nested.read m' p'))) = some (Val.nested (some (Nested.read m p)))
      unfold Nested.read
      rw [hp]
      have hb : n = (m p).lo := hb
      rw [Memory.readCells_move (m := m) (m' := m') (k := p) (k' := p') fun i hi => h _ (by omega)]
    | property =>
      show some (Val.property (Property.read m' p').1 (Property.read m' p').2) = some (Val.property (Property.read m p).1 (Property.read m p).2)
      unfold Property.read
      simp only []
      rw [b0, b1]
      have hb : n = bytes2units (2 + m.byte (4 * p)) := hb
      rw [b2u] at hb
      rw [Memory.readBytes_move (m := m) (m' := m') (k := 4 * p + 2) (k' := 4 * p' + 2) fun i hi => by
        rw [Nat.add_assoc, Nat.add_assoc]; exact by' _ (by omega)]
    | _ => exact absurd hfx (by decide)

theorem brutto_move (g : Genus) {m m' : Memory} {p p' : Nat} (h : m' p' = m p) : brutto g m' p' = brutto g m p := by
  have by' : ∀ k, k < 4 * 1 → m'.byte (4 * p' + k) = m.byte (4 * p + k) := fun k hk =>
    Memory.byte_move (n := 1) (fun i hi => by obtain rfl : i = 0 := (by omega); exact h) hk
  have b0 : m'.byte (4 * p') = m.byte (4 * p) := by' 0 (by omega)
  have b1 := by' 1 (by omega)
  have b2 := by' 2 (by omega)
  cases g with
  | text =>
    show Str.bruttoUnits m' p' = Str.bruttoUnits m p
    unfold Str.bruttoUnits Str.isTiny Str.suffix
    rw [b0, b1, b2]
  | varbin =>
    show Varbin.bruttoUnits m' p' = Varbin.bruttoUnits m p
    unfold Varbin.bruttoUnits; rw [h]
  | nested =>
    show Nested.bruttoUnits m' p' = Nested.bruttoUnits m p
    unfold Nested.bruttoUnits; rw [h]
  | property =>
    show Property.bruttoUnits m' p' = Property.bruttoUnits m p
    unfold Property.bruttoUnits Property.wholeLength; rw [b0]
  | _ => rfl

theorem decode_move {g : Genus} {m m' : Memory} {p p' n : Nat} (hn : 0 < n)
    (hb : if g.isFixed then n = g.looseUnits else n = brutto g m p)
    (h : ∀ i, i < n → m' (p' + i) = m (p + i)) : decode g m' p' = decode g m p := by
  by_cases hg : g = .varbin
  · subst hg
    have hb : n = (m p).lo := hb
    have hp : m' p' = m p := h 0 hn
    show some (Val.varbin (varbinBytes m' p')) = some (Val.varbin (varbinBytes m p))
    unfold varbinBytes
    rw [hp, Memory.readBytes_move (m := m) (m' := m') (k := 4 * (p + 1)) (k' := 4 * (p' + 1)) fun i hi => ?_]
    rw [show 4 * (p' + 1) + i = 4 * p' + (4 + i) by omega, show 4 * (p + 1) + i = 4 * p + (4 + i) by omega]
    exact Memory.byte_move h (by omega)
  · rw [decode_eq hg, decode_eq hg]; exact readPayload_move hg hn hb h

/-- The field of genus `g` at cell `a'` of memory `m'` is a copy of the one at cell `a` of `m`. -/
structure Same (g : Genus) (m m' : Memory) (a a' : Nat) : Prop where
  inplaced : g.isInplaced = true → (m' a').lo = (m a).lo
  null : (m' a').lo = 0 ↔ (m a).lo = 0
  payload : (g.isFixed = true ∨ (m a).lo ≠ 0) → ∀ i, i < fieldUnits m g a → m' (a' + (m' a').lo + i) = m (a + (m a).lo + i)
  pos : g.isFixed = false → (m a).lo ≠ 0 → 0 < fieldUnits m g a

theorem Same.refl {g : Genus} {m : Memory} {a : Nat} (h : g.isFixed = false → (m a).lo ≠ 0 → 0 < fieldUnits m g a) : Same g m m a a :=
  ⟨fun _ => rfl, Iff.rfl, fun _ _ _ => rfl, h⟩

theorem Same.units {g : Genus} {m m' : Memory} {a a' : Nat} (h : Same g m m' a a') : fieldUnits m' g a' = fieldUnits m g a := by
  by_cases hf : g.isFixed = true
  · unfold fieldUnits; rw [if_pos hf, if_pos hf]
  by_cases h0 : (m a).lo = 0
  · unfold fieldUnits; rw [if_neg hf, if_neg hf, if_pos h0, if_pos (h.null.2 h0)]
  · have hp := h.pos (by simpa using hf) h0
    have := h.payload (Or.inr h0) 0 hp
    unfold fieldUnits; rw [if_neg hf, if_neg hf, if_neg h0, if_neg (fun c => h0 (h.null.1 c))]
    exact brutto_move g this

theorem Same.trans {g : Genus} {m m' m'' : Memory} {a a' a'' : Nat} (h : Same g m m' a a') (h' : Same g m' m'' a' a'') : Same g m m'' a a'' := by
  refine ⟨fun c => (h'.inplaced c).trans (h.inplaced c), h'.null.trans h.null, fun c i hi => ?_, h.pos⟩
  refine (h'.payload (c.imp_right fun c1 c2 => c1 (h.null.1 c2)) i ?_).trans (h.payload c i hi)
  rw [h.units]; exact hi

theorem Same.value {g : Genus} {m m' : Memory} {a a' : Nat} (hg : g ≠ .hole) (h : Same g m m' a a') : valueAt g m' a' = valueAt g m a := by
  unfold valueAt
  by_cases c1 : g.isInplaced = true
  · rw [if_pos c1, if_pos c1, h.inplaced c1]
  rw [if_neg c1, if_neg c1]
  by_cases c2 : g.isFixed = true ∨ (m a).lo ≠ 0
  · rw [if_pos c2, if_pos (c2.imp_right fun k1 k2 => k1 (h.null.1 k2))]
    have hpos : 0 < fieldUnits m g a := by
      by_cases hf : g.isFixed = true
      · unfold fieldUnits; rw [if_pos hf]; exact fixed_pos g hf (by simpa using c1) hg
      · exact h.pos (by simpa using hf) (c2.resolve_left hf)
    refine decode_move hpos ?_ (h.payload c2)
    by_cases hf : g.isFixed = true
    · rw [if_pos hf]; unfold fieldUnits; rw [if_pos hf]
    · rw [if_neg hf]; unfold fieldUnits; rw [if_neg hf, if_neg (c2.resolve_left hf)]
  · rw [if_neg c2, if_neg (fun k => c2 (k.imp_right fun k1 k2 => k1 (h.null.2 k2)))]

/-- `t` holds the fields of `s` at other addresses: the entry at `b` is that of `s` at `f b`. -/
structure Copied (σ : Sch) (s t : RW) (f : Nat → Nat) : Prop where
  live : ∀ b, t.live b → s.live (f b) ∧ (t.mem b).hi = (s.mem (f b)).hi ∧ Same (cellGenus (s.mem (f b))) s.mem t.mem (f b) b
  onto : ∀ a, s.live a → ∃ b, t.live b ∧ f b = a
  mono : ∀ b c, t.live b → t.live c → b < c → f b < f c
  pre : t.pre = s.pre
  stretchy : ∀ k g, σ k = some g → k < s.pre → (t.mem (t.pivot + k)).hi = (s.mem (s.pivot + k)).hi ∧
    Same g s.mem t.mem (s.pivot + k) (t.pivot + k)
  fixed : ∀ k, σ k = none → k < s.pre → t.mem (t.pivot + k) = s.mem (s.pivot + k)

theorem Copied.trans {σ : Sch} {s t u : RW} {f g : Nat → Nat} (h : Copied σ s t f) (h' : Copied σ t u g) :
    Copied σ s u (fun b => f (g b)) := by
  refine ⟨fun b hb => ?_, fun a ha => ?_, fun b c hb hc hbc => ?_, h'.pre.trans h.pre, fun k q hk hp => ?_, fun k hk hp => ?_⟩
  · obtain ⟨k1, k2, k3⟩ := h'.live b hb
    obtain ⟨l1, l2, l3⟩ := h.live _ k1
    refine ⟨l1, k2.trans l2, l3.trans ?_⟩
    have e : cellGenus (t.mem (g b)) = cellGenus (s.mem (f (g b))) := by unfold cellGenus; rw [l2]
    rw [← e]; exact k3
  · obtain ⟨b, hb, rfl⟩ := h.onto a ha
    obtain ⟨c, hc, rfl⟩ := h'.onto b hb
    exact ⟨c, hc, rfl⟩
  · exact h.mono _ _ (h'.live b hb).1 (h'.live c hc).1 (h'.mono b c hb hc hbc)
  · obtain ⟨k1, k2⟩ := h.stretchy k q hk hp
    obtain ⟨l1, l2⟩ := h'.stretchy k q hk (by rw [h.pre]; exact hp)
    exact ⟨l1.trans k1, k2.trans l2⟩
  · exact (h'.fixed k hk (by rw [h.pre]; exact hp)).trans (h.fixed k hk hp)

theorem Copied.inj {σ : Sch} {s t : RW} {f : Nat → Nat} (h : Copied σ s t f) {b c : Nat} (hb : t.live b) (hc : t.live c)
    (he : f b = f c) : b = c := by
  rcases Nat.lt_trichotomy b c with k | k | k
  · have := h.mono b c hb hc k; omega
  · exact k
  · have := h.mono c b hc hb k; omega

/-- The same without the order of the entries. -/
structure Permuted (σ : Sch) (s t : RW) (f : Nat → Nat) : Prop where
  live : ∀ b, t.live b → s.live (f b) ∧ (t.mem b).hi = (s.mem (f b)).hi ∧ Same (cellGenus (s.mem (f b))) s.mem t.mem (f b) b
  onto : ∀ a, s.live a → ∃ b, t.live b ∧ f b = a
  inj : ∀ b c, t.live b → t.live c → f b = f c → b = c
  pre : t.pre = s.pre
  stretchy : ∀ k g, σ k = some g → k < s.pre → (t.mem (t.pivot + k)).hi = (s.mem (s.pivot + k)).hi ∧
    Same g s.mem t.mem (s.pivot + k) (t.pivot + k)
  fixed : ∀ k, σ k = none → k < s.pre → t.mem (t.pivot + k) = s.mem (s.pivot + k)

theorem Copied.permuted {σ : Sch} {s t : RW} {f : Nat → Nat} (h : Copied σ s t f) : Permuted σ s t f :=
  ⟨h.live, h.onto, fun _ _ hb hc he => h.inj hb hc he, h.pre, h.stretchy, h.fixed⟩

theorem Permuted.trans {σ : Sch} {s t u : RW} {f g : Nat → Nat} (h : Permuted σ s t f) (h' : Permuted σ t u g) :
    Permuted σ s u (fun b => f (g b)) := by
  refine ⟨fun b hb => ?_, fun a ha => ?_, fun b c hb hc he => ?_, h'.pre.trans h.pre, fun k q hk hp => ?_, fun k hk hp => ?_⟩
  · obtain ⟨k1, k2, k3⟩ := h'.live b hb
    obtain ⟨l1, l2, l3⟩ := h.live _ k1
    refine ⟨l1, k2.trans l2, l3.trans ?_⟩
    have e : cellGenus (t.mem (g b)) = cellGenus (s.mem (f (g b))) := by unfold cellGenus; rw [l2]
    rw [← e]; exact k3
  · obtain ⟨b, hb, rfl⟩ := h.onto a ha
    obtain ⟨c, hc, rfl⟩ := h'.onto b hb
    exact ⟨c, hc, rfl⟩
  · exact h'.inj _ _ hb hc (h.inj _ _ (h'.live b hb).1 (h'.live c hc).1 he)
  · obtain ⟨k1, k2⟩ := h.stretchy k q hk hp
    obtain ⟨l1, l2⟩ := h'.stretchy k q hk (by rw [h.pre]; exact hp)
    exact ⟨l1.trans k1, k2.trans l2⟩
  · exact (h'.fixed k hk (by rw [h.pre]; exact hp)).trans (h.fixed k hk hp)

theorem Permuted.fields {σ : Sch} {s t : RW} {f : Nat → Nat} (h : Permuted σ s t f) (hw : ∀ a, s.live a → (s.mem a).hi < 65536) :
    fieldsOf t = fieldsOf s := by
  have e : liveSet s = (liveSet t).image f := by
    ext a
    rw [Finset.mem_image, mem_liveSet]
    constructor
    · intro ha
      obtain ⟨b, hb, rfl⟩ := h.onto a ha
      exact ⟨b, mem_liveSet.2 hb, rfl⟩
    · rintro ⟨b, hb, rfl⟩
      exact (h.live b (mem_liveSet.1 hb)).1
  unfold fieldsOf
  rw [e, Finset.image_val_of_injOn (fun b hb c hc he => h.inj _ _ (mem_liveSet.1 hb) (mem_liveSet.1 hc) he), Multiset.map_map]
  refine Multiset.map_congr rfl fun b hb => ?_
  obtain ⟨k1, k2, k3⟩ := h.live b (mem_liveSet.1 hb)
  show entryAt t b = entryAt s (f b)
  unfold entryAt
  have e : cellGenus (t.mem b) = cellGenus (s.mem (f b)) := by unfold cellGenus; rw [k2]
  rw [k2, e, k3.value (live_genus k1 (hw _ k1))]

/-- Reading a loose field of the copy. -/
theorem Permuted.read {σ : Sch} {s t : RW} {f : Nat → Nat} (h : Permuted σ s t f) (hw : ∀ a, s.live a → (s.mem a).hi < 65536)
    {tag : Nat} {g : Genus} (ht : tag2genus tag ≠ .hole) (hg : g ≠ .varbin)
    (hlk : s.lookup (tag2gid tag) = (t.lookup (tag2gid tag)).map f) : getLoose t tag g = getLoose s tag g := by
  unfold getLoose
  rw [hlk]
  split_ifs with hc
  · rfl
  unfold getEntry
  by_cases hgg : tag2genus tag ≠ g
  · rw [if_pos hgg, if_pos hgg]
  rw [if_neg hgg, if_neg hgg]
  have hgg : tag2genus tag = g := not_not.1 hgg
  cases hl : t.lookup (tag2gid tag) with
  | none => rfl
  | some b =>
    obtain ⟨⟨h1, h2⟩, _⟩ := (lookup_some (by rw [gid_eq]; exact tag_not_hole ht)).1 hl
    obtain ⟨k1, k2, k3⟩ := h.live b h1
    have e : cellGenus (s.mem (f b)) = g := by
      rw [← hgg]; exact cellGenus_tag _ _ (by rw [← k2, h2, gid_eq])
    rw [e] at k3
    show (if g.isInplaced then _ else if g.isFixed ∨ (t.mem b).lo ≠ 0 then Except.ok (readPayload g t.mem (t.start b)) else _) =
      (if g.isInplaced then _ else if g.isFixed ∨ (s.mem (f b)).lo ≠ 0 then Except.ok (readPayload g s.mem (s.start (f b))) else _)
    by_cases c1 : g.isInplaced = true
    · rw [if_pos c1, if_pos c1, k3.inplaced c1]
    rw [if_neg c1, if_neg c1]
    by_cases c2 : g.isFixed = true ∨ (s.mem (f b)).lo ≠ 0
    · rw [if_pos c2, if_pos (c2.imp_right fun k1 k2 => k1 (k3.null.1 k2))]
      have hv := k3.value (hgg ▸ ht)
      unfold valueAt at hv
      rw [if_neg c1, if_neg c1, if_pos c2, if_pos (c2.imp_right fun k1 k2 => k1 (k3.null.1 k2)), decode_eq hg, decode_eq hg] at hv
      rw [hv]
    · rw [if_neg c2, if_neg (fun k => c2 (k.imp_right fun k1 k2 => k1 (k3.null.2 k2)))]

theorem Permuted.readFixed {σ : Sch} {s t : RW} {f : Nat → Nat} (h : Permuted σ s t f) {tag : Nat} {g : Genus}
    (hs : FixedSlot σ s.pre tag g) : getPreplacedFixed t tag g = getPreplacedFixed s tag g := by
  unfold getPreplacedFixed
  have e : t.mem.readBytes (4 * t.pivot + tag2offset tag) g.preplacedBytes = s.mem.readBytes (4 * s.pivot + tag2offset tag) g.preplacedBytes := by
    refine Memory.readBytes_move fun i hi => ?_
    have hcell : t.mem (t.pivot + (tag2offset tag + i) / 4) = s.mem (s.pivot + (tag2offset tag + i) / 4) := by
      have hk : (tag2offset tag + i) / 4 < s.pre := by have := hs.1; omega
      cases hσ : σ ((tag2offset tag + i) / 4) with
      | none => exact h.fixed _ hσ hk
      | some q =>
        exfalso
        rcases hs.2 _ ⟨q, hσ⟩ with k | k <;> omega
    unfold Memory.byte
    rw [show (4 * t.pivot + tag2offset tag + i) / 4 = t.pivot + (tag2offset tag + i) / 4 by omega,
      show (4 * s.pivot + tag2offset tag + i) / 4 = s.pivot + (tag2offset tag + i) / 4 by omega, hcell,
      show (4 * t.pivot + tag2offset tag + i) % 4 = (tag2offset tag + i) % 4 by omega,
      show (4 * s.pivot + tag2offset tag + i) % 4 = (tag2offset tag + i) % 4 by omega,
      show (4 * t.pivot + tag2offset tag + i) % 2 = (tag2offset tag + i) % 2 by omega,
      show (4 * s.pivot + tag2offset tag + i) % 2 = (tag2offset tag + i) % 2 by omega]
  rw [e]

theorem Permuted.readStretchy {σ : Sch} {s t : RW} {f : Nat → Nat} (h : Permuted σ s t f) (hσ : ∀ k g, σ k = some g → g.isFixed = false)
    {tag : Nat} {g : Genus} (hs : StretchySlot σ s.pre tag g) (hg : g ≠ .varbin) :
    getPreplacedStretchy t tag g = getPreplacedStretchy s tag g := by
  unfold getPreplacedStretchy
  obtain ⟨_, k3⟩ := h.stretchy _ _ hs.2 hs.1
  have hfx := hσ _ _ hs.2
  by_cases hgg : tag2genus tag ≠ g
  · rw [if_pos hgg, if_pos hgg]
  rw [if_neg hgg, if_neg hgg]
  show (if (t.mem (t.pivot + tag2offset tag / 4)).lo ≠ 0 then Except.ok (readPayload g t.mem (t.start (t.pivot + tag2offset tag / 4))) else _) =
    (if (s.mem (s.pivot + tag2offset tag / 4)).lo ≠ 0 then Except.ok (readPayload g s.mem (s.start (s.pivot + tag2offset tag / 4))) else _)
  by_cases c2 : (s.mem (s.pivot + tag2offset tag / 4)).lo ≠ 0
  · have c3 : (t.mem (t.pivot + tag2offset tag / 4)).lo ≠ 0 := fun k => c2 (k3.null.1 k)
    rw [if_pos c2, if_pos c3]
    have hv := k3.value (by rintro rfl; cases hfx)
    have hi : ¬ g.isInplaced = true := by
      intro hi
      rw [(inplaced_facts g hi).1] at hfx
      cases hfx
    unfold valueAt at hv
    rw [if_neg hi, if_neg hi, if_pos (Or.inr c2), if_pos (Or.inr c3), decode_eq hg, decode_eq hg] at hv
    rw [hv]
  · rw [if_neg c2, if_neg (fun k => k (k3.null.2 (not_not.1 c2)))]

theorem Copied.lookup {σ : Sch} {s t : RW} {f : Nat → Nat} (h : Copied σ s t f) {w : Nat} (hw : w / 2048 ≠ 31) :
    s.lookup w = (t.lookup w).map f := by
  cases hl : t.lookup w with
  | none =>
    rw [Option.map_none, lookup_none hw]
    rintro a ⟨h1, h2⟩
    obtain ⟨b, hb, rfl⟩ := h.onto a h1
    exact (lookup_none hw).1 hl b ⟨hb, (h.live b hb).2.1.trans h2⟩
  | some b =>
    obtain ⟨h1, h2⟩ := (lookup_some hw).1 hl
    rw [Option.map_some, lookup_some hw]
    refine ⟨⟨(h.live b h1.1).1, (h.live b h1.1).2.1.symm.trans h1.2⟩, ?_⟩
    rintro a ⟨k1, k2⟩
    obtain ⟨c, hc, rfl⟩ := h.onto a k1
    have := h2 c ⟨hc, (h.live c hc).2.1.trans k2⟩
    rcases Nat.lt_or_ge b c with k | k
    · exact le_of_lt (h.mono b c h1.1 hc k)
    · rw [show b = c by omega]

theorem Copied.fields {σ : Sch} {s t : RW} {f : Nat → Nat} (h : Copied σ s t f) (hw : ∀ a, s.live a → (s.mem a).hi < 65536) :
    fieldsOf t = fieldsOf s := h.permuted.fields hw

theorem Copied.read {σ : Sch} {s t : RW} {f : Nat → Nat} (h : Copied σ s t f) (hw : ∀ a, s.live a → (s.mem a).hi < 65536)
    {tag : Nat} {g : Genus} (ht : tag2genus tag ≠ .hole) (hg : g ≠ .varbin) : getLoose t tag g = getLoose s tag g :=
  h.permuted.read hw ht hg (h.lookup (by rw [gid_eq]; exact tag_not_hole ht))

theorem Copied.readFixed {σ : Sch} {s t : RW} {f : Nat → Nat} (h : Copied σ s t f) {tag : Nat} {g : Genus}
    (hs : FixedSlot σ s.pre tag g) : getPreplacedFixed t tag g = getPreplacedFixed s tag g := h.permuted.readFixed hs

theorem Copied.readStretchy {σ : Sch} {s t : RW} {f : Nat → Nat} (h : Copied σ s t f) (hσ : ∀ k g, σ k = some g → g.isFixed = false)
    {tag : Nat} {g : Genus} (hs : StretchySlot σ s.pre tag g) (hg : g ≠ .varbin) :
    getPreplacedStretchy t tag g = getPreplacedStretchy s tag g := h.permuted.readStretchy hσ hs hg

/-- The loose fields with their values in the order of the index (the order of enumeration). -/
def entriesOf (s : RW) : List (Nat × Option Val) := ((liveSet s).sort (· ≤ ·)).map (entryAt s)

theorem entriesOf_fields (s : RW) : (entriesOf s : Multiset (Nat × Option Val)) = fieldsOf s := by
  unfold entriesOf fieldsOf
  rw [← Finset.sort_eq (liveSet s) (· ≤ ·)]
  rfl

theorem Copied.entries {σ : Sch} {s t : RW} {f : Nat → Nat} (h : Copied σ s t f) (hw : ∀ a, s.live a → (s.mem a).hi < 65536) :
    entriesOf t = entriesOf s := by
  have e : (liveSet s).sort (· ≤ ·) = ((liveSet t).sort (· ≤ ·)).map f := by
    have nd : (((liveSet t).sort (· ≤ ·)).map f).Nodup := by
      refine List.Nodup.map_on ?_ (Finset.sort_nodup _ _)
      intro b hb c hc he
      rw [Finset.mem_sort, mem_liveSet] at hb hc
      exact h.inj hb hc he
    refine List.Perm.eq_of_pairwise' (r := (· ≤ ·)) (Finset.pairwise_sort _ _) ?_ ?_
    · rw [List.pairwise_map]
      refine ((Finset.pairwise_sort (liveSet t) (· ≤ ·)).imp_of_mem ?_)
      intro b c hb hc hbc
      rw [Finset.mem_sort, mem_liveSet] at hb hc
      rcases Nat.lt_or_ge b c with k | k
      · exact le_of_lt (h.mono b c hb hc k)
      · rw [show b = c by omega]
    · refine (List.perm_ext_iff_of_nodup (Finset.sort_nodup _ _) nd).2 fun a => ?_
      rw [Finset.mem_sort, mem_liveSet, List.mem_map]
      constructor
      · intro ha
        obtain ⟨b, hb, rfl⟩ := h.onto a ha
        exact ⟨b, by rw [Finset.mem_sort, mem_liveSet]; exact hb, rfl⟩
      · rintro ⟨b, hb, rfl⟩
        rw [Finset.mem_sort, mem_liveSet] at hb
        exact (h.live b hb).1
  unfold entriesOf
  rw [e, List.map_map]
  refine List.map_congr_left fun b hb => ?_
  rw [Finset.mem_sort, mem_liveSet] at hb
  obtain ⟨k1, k2, k3⟩ := h.live b hb
  show entryAt t b = entryAt s (f b)
  unfold entryAt
  have e : cellGenus (t.mem b) = cellGenus (s.mem (f b)) := by unfold cellGenus; rw [k2]
  rw [k2, e, k3.value (live_genus k1 (hw _ k1))]

/-- With a single entry for the token the order does not matter. -/
theorem Permuted.lookup {σ : Sch} {s t : RW} {f : Nat → Nat} (h : Permuted σ s t f) {w : Nat} (hw : w / 2048 ≠ 31)
    (hu : ∀ a b, s.live a → s.live b → (s.mem a).hi = w → (s.mem b).hi = w → a = b) : s.lookup w = (t.lookup w).map f := by
  cases hl : t.lookup w with
  | none =>
    rw [Option.map_none, lookup_none hw]
    rintro a ⟨h1, h2⟩
    obtain ⟨b, hb, rfl⟩ := h.onto a h1
    exact (lookup_none hw).1 hl b ⟨hb, (h.live b hb).2.1.trans h2⟩
  | some b =>
    obtain ⟨h1, _⟩ := (lookup_some hw).1 hl
    have e : (s.mem (f b)).hi = w := (h.live b h1.1).2.1.symm.trans h1.2
    rw [Option.map_some, lookup_some hw]
    refine ⟨⟨(h.live b h1.1).1, e⟩, ?_⟩
    rintro a ⟨k1, k2⟩
    rw [hu a (f b) k1 (h.live b h1.1).1 k2 e]

end Rw
end Fptu
