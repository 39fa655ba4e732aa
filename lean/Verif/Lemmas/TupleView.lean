import Verif.Lemmas.TupleOps2
import Mathlib.Data.Multiset.Filter
import Mathlib.Data.Finset.Insert
import Mathlib.Data.Finset.Erase
/-!
# Tuple operations: contents of a tuple as a multiset of (descriptor, value) pairs, lookups
-/
namespace Fptu.Rw
open Fptu.Gear

/-- The bytes of a binary blob, with the length that was stored. (`varbin::length()` computes it wrongly, see C05; the
header itself determines it.) -/
def varbinBytes (m : Memory) (p : Nat) : List Nat :=
  m.readBytes (4 * (p + 1)) (4 * ((m p).lo - 1) - (4 - (m p).hi % 4) % 4)

/-- Value stored at unit `p`. -/
def decode (g : Genus) (m : Memory) (p : Nat) : Option Val :=
  match g with
  | .varbin => some (.varbin (varbinBytes m p))
  | g => readPayload g m p

theorem decode_eq {g : Genus} (h : g ≠ .varbin) (m : Memory) (p : Nat) : decode g m p = readPayload g m p := by
  cases g <;> first | rfl | exact absurd rfl h

theorem write_decode {g : Genus} {v : Val} {n : Nat} (hf : v.fits g) (hn : needs g v n) (h0 : 0 < n) (m : Memory) (p : Nat) :
    decode g (v.write m p) p = some v := by
  by_cases hg : g = .varbin
  · subst hg
    cases v with
    | varbin v =>
      simp only [Val.fits, Bool.and_eq_true, decide_eq_true_eq, List.all_eq_true] at hf
      have hb := hf.2
      have hn : Varbin.estimate v.length = .ok n := hn
      have hl : v.length ≤ 262136 := by
        by_contra c
        rw [((Props.C05_estimate v.length).1).1 (by omega)] at hn
        cases hn
      obtain ⟨h1, h2, _⟩ := Props.vb_facts m p v hb hl
      show some (Val.varbin (varbinBytes (Varbin.store m p v) p)) = _
      unfold varbinBytes
      rw [h1]
      simp only
      rw [show 4 * ((v.length + 3) / 4 + 1 - 1) - (4 - v.length % 4 % 4) % 4 = v.length by omega, h2]
    | inline x => simp [Val.fits, Genus.isInplaced] at hf
    | units cs => exact absurd (fits_units hf).2.1 (by decide)
    | text v => simp [Val.fits] at hf
    | property v id => simp [Val.fits] at hf
    | nested v => cases v <;> simp [Val.fits] at hf
  · rw [decode_eq hg]; exact (write_spec hf hn h0 m p).2.2 hg

theorem decode_congr {g : Genus} {m m' : Memory} {p n : Nat} (hn : 0 < n)
    (hb : if g.isFixed then n = g.looseUnits else n = brutto g m p)
    (h : ∀ u, p ≤ u → u < p + n → m' u = m u) : decode g m' p = decode g m p := by
  by_cases hg : g = .varbin
  · subst hg
    have hb : n = (m p).lo := hb
    have hp : m' p = m p := h p le_rfl (by omega)
    show some (Val.varbin (varbinBytes m' p)) = some (Val.varbin (varbinBytes m p))
    unfold varbinBytes
    rw [hp, Memory.readBytes_congr (m := m') (m' := m) fun i hi => Memory.byte_congr (h _ (by omega) (by omega))]
  · rw [decode_eq hg, decode_eq hg]; exact readPayload_congr hg hn hb h

/-- Value of the field described by cell `a`; `none` for a field without payload. -/
def valueAt (g : Genus) (m : Memory) (a : Nat) : Option Val :=
  if g.isInplaced then some (.inline (inlineRead g (m a).lo))
  else if g.isFixed ∨ (m a).lo ≠ 0 then decode g m (a + (m a).lo)
  else none

theorem Kept.value {σ : Sch} {s s' : RW} (h : WF σ s) {b : Nat} {g : Genus} (hb : FieldAt σ s b g) (hg : g ≠ .hole)
    (k : Kept σ s s' b) : valueAt g s'.mem b = valueAt g s.mem b := by
  unfold valueAt
  rw [k.cell]
  by_cases c1 : g.isInplaced = true
  · rw [if_pos c1, if_pos c1]
  · rw [if_neg c1, if_neg c1]
    by_cases c2 : g.isFixed ∨ (s.mem b).lo ≠ 0
    · rw [if_pos c2, if_pos c2]
      have hlen := hb.len
      cases hfx : g.isFixed with
      | true =>
        have hpos := fixed_pos g hfx (by simpa using c1) hg
        unfold fieldUnits at hlen
        rw [hfx, if_pos rfl] at hlen
        refine decode_congr hpos (by rw [hfx, if_pos rfl]) fun u h1 h2 => k.payload u h1 ?_
        rw [hlen]; exact h2
      | false =>
        have h0 : (s.mem b).lo ≠ 0 := by
          rcases c2 with c2 | c2
          · rw [hfx] at c2; cases c2
          · exact c2
        have hpos := h.pos b g ⟨hfx, hb⟩ h0
        have hlen' : lenOf σ s b = brutto g s.mem (b + (s.mem b).lo) := by
          rw [hlen]; unfold fieldUnits
          rw [hfx, if_neg (by decide), if_neg h0]
        refine decode_congr (n := lenOf σ s b) hpos (by rw [hfx, if_neg (by decide)]; exact hlen') fun u h1 h2 => k.payload u h1 h2
    · rw [if_neg c2, if_neg c2]

theorem live_genus {s : RW} {a : Nat} (h : s.live a) (hw : (s.mem a).hi < 65536) : cellGenus (s.mem a) ≠ .hole := by
  intro hh
  apply h.2.2
  unfold cellGenus at hh
  have e := code_ofCode (n := (s.mem a).hi / 2048) (by omega)
  rw [hh] at e
  exact e.symm

/-! ## Entries and lookups -/

/-- `a` is a loose field with the given descriptor word (genus and identifier). -/
def RW.has (s : RW) (w a : Nat) : Prop := s.live a ∧ (s.mem a).hi = w

theorem lookup_some {s : RW} {w a : Nat} (hw : w / 2048 ≠ 31) :
    s.lookup w = some a ↔ RW.has s w a ∧ ∀ b, RW.has s w b → a ≤ b := by
  have fwd : ∀ a, s.lookup w = some a → RW.has s w a ∧ ∀ b, RW.has s w b → a ≤ b := by
    intro a h
    obtain ⟨h1, h2, h3, h4⟩ := lookupFrom_some h
    refine ⟨⟨⟨h1, h2, ?_⟩, h3⟩, fun b hb => ?_⟩
    · intro hh
      have hh : (s.mem a).hi / 2048 = 31 := hh
      rw [h3] at hh; exact hw hh
    · by_contra hc
      exact h4 b hb.1.1 (by omega) hb.2
  refine ⟨fwd a, fun ⟨h1, h2⟩ => ?_⟩
  cases hl : s.lookup w with
  | none => exact absurd h1.2 (lookupFrom_none hl a h1.1.1 h1.1.2.1)
  | some b =>
    obtain ⟨k1, k2⟩ := fwd b hl
    have := k2 a h1
    have := h2 b k1
    rw [show a = b by omega]

theorem lookup_none {s : RW} {w : Nat} (hw : w / 2048 ≠ 31) : s.lookup w = none ↔ ∀ b, ¬ RW.has s w b := by
  constructor
  · intro h b hb
    exact lookupFrom_none h b hb.1.1 hb.1.2.1 hb.2
  · intro h
    cases hl : s.lookup w with
    | none => rfl
    | some a => exact absurd ((lookup_some hw).1 hl).1 (h a)

theorem lookup_congr {s s' : RW} {w : Nat} (hw : w / 2048 ≠ 31) (h : ∀ b, RW.has s' w b ↔ RW.has s w b) : s'.lookup w = s.lookup w := by
  cases hl : s.lookup w with
  | none =>
    rw [lookup_none hw] at hl ⊢
    exact fun b hb => hl b ((h b).1 hb)
  | some a =>
    rw [lookup_some hw] at hl ⊢
    exact ⟨(h a).2 hl.1, fun b hb => hl.2 b ((h b).1 hb)⟩

theorem Others.has {σ : Sch} {s s' : RW} {a b w : Nat} (h : Others σ s s' a) (hb : b ≠ a) : RW.has s' w b ↔ RW.has s w b := by
  unfold RW.has
  rw [h.live b hb]
  constructor
  · rintro ⟨h1, h2⟩; exact ⟨h1, by rw [← (h.kept b hb (Or.inl h1)).cell]; exact h2⟩
  · rintro ⟨h1, h2⟩; exact ⟨h1, by rw [(h.kept b hb (Or.inl h1)).cell]; exact h2⟩

/-! ## The multiset of fields -/

instance (s : RW) (a : Nat) : Decidable (s.live a) := by unfold RW.live RW.isHole Cell.isHole; infer_instance

/-- Addresses of the loose fields. -/
def liveSet (s : RW) : Finset Nat := (Finset.range s.pivot).filter fun a => s.live a

theorem mem_liveSet {s : RW} {a : Nat} : a ∈ liveSet s ↔ s.live a := by
  unfold liveSet
  rw [Finset.mem_filter, Finset.mem_range]
  exact ⟨fun h => h.2, fun h => ⟨h.2.1, h⟩⟩

/-- Descriptor word and value of the field at `a`. -/
def entryAt (s : RW) (a : Nat) : Nat × Option Val := ((s.mem a).hi, valueAt (cellGenus (s.mem a)) s.mem a)

/-- All loose fields with their values. -/
def fieldsOf (s : RW) : Multiset (Nat × Option Val) := (liveSet s).val.map (entryAt s)

theorem Others.entry {σ : Sch} {s s' : RW} {a b : Nat} (h : WF σ s) (o : Others σ s s' a) (hb : b ≠ a) (hl : s.live b) :
    entryAt s' b = entryAt s b := by
  have k := o.kept b hb (Or.inl hl)
  unfold entryAt
  rw [k.cell]
  congr 1
  exact k.value h (Or.inl ⟨hl, rfl⟩) (live_genus hl (h.word b hl))

theorem fields_split {s : RW} {a : Nat} (h : s.live a) :
    fieldsOf s = entryAt s a ::ₘ ((liveSet s).erase a).val.map (entryAt s) := by
  unfold fieldsOf
  conv_lhs => rw [← Finset.insert_erase (mem_liveSet.2 h)]
  rw [Finset.insert_val_of_notMem (Finset.notMem_erase a _), Multiset.map_cons]

theorem erase_same {s : RW} {a : Nat} (h : ¬ s.live a) : (liveSet s).erase a = liveSet s :=
  Finset.erase_eq_of_notMem fun h' => h (mem_liveSet.1 h')

theorem Others.rest {σ : Sch} {s s' : RW} {a : Nat} (h : WF σ s) (o : Others σ s s' a) :
    ((liveSet s').erase a).val.map (entryAt s') = ((liveSet s).erase a).val.map (entryAt s) := by
  have e : (liveSet s').erase a = (liveSet s).erase a := by
    ext b
    rw [Finset.mem_erase, Finset.mem_erase, mem_liveSet, mem_liveSet]
    constructor
    · rintro ⟨h1, h2⟩; exact ⟨h1, (o.live b h1).1 h2⟩
    · rintro ⟨h1, h2⟩; exact ⟨h1, (o.live b h1).2 h2⟩
  rw [e]
  refine Multiset.map_congr rfl fun b hb => ?_
  have hb : b ∈ (liveSet s).erase a := hb
  rw [Finset.mem_erase, mem_liveSet] at hb
  exact o.entry h hb.1 hb.2

/-- A new field. -/
theorem fields_add {σ : Sch} {s s' : RW} {a : Nat} (h : WF σ s) (o : Others σ s s' a) (h1 : ¬ s.live a) (h2 : s'.live a) :
    fieldsOf s' = entryAt s' a ::ₘ fieldsOf s := by
  rw [fields_split h2, o.rest h, erase_same h1]; rfl
/-- A removed field. -/
theorem fields_remove {σ : Sch} {s s' : RW} {a : Nat} (h : WF σ s) (o : Others σ s s' a) (h1 : s.live a) (h2 : ¬ s'.live a) :
    fieldsOf s = entryAt s a ::ₘ fieldsOf s' := by
  rw [fields_split h1, ← o.rest h, erase_same h2]; rfl
/-- A field with a new value. -/
theorem fields_replace {σ : Sch} {s s' : RW} {a : Nat} (h : WF σ s) (o : Others σ s s' a) (h1 : s.live a) (h2 : s'.live a) :
    ∃ r, fieldsOf s = entryAt s a ::ₘ r ∧ fieldsOf s' = entryAt s' a ::ₘ r :=
  ⟨_, fields_split h1, by rw [fields_split h2, o.rest h]⟩
/-- Neither before nor after. -/
theorem fields_same {σ : Sch} {s s' : RW} {a : Nat} (h : WF σ s) (o : Others σ s s' a) (h1 : ¬ s.live a) (h2 : ¬ s'.live a) :
    fieldsOf s' = fieldsOf s := by
  have := o.rest h
  rw [erase_same h1, erase_same h2] at this
  exact this

end Fptu.Rw
