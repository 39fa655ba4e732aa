import Verif.Lemmas.AuditTuple
import Verif.Props.TupleLayout
/-!
# C07, C08: what acceptance by the validation guarantees, and what the validation reads
-/
namespace Fptu.Props
open Fptu Fptu.Gear Fptu.Rw Fptu.Audit

/-- A serialized tuple at unit 0, in the terms of the layout of a mutable one: index, preplaced area, payload up to `tail`. -/
def roView (sch : Option Schema) (m : Memory) (tail hc hv : Nat) : RW :=
  { mem := m, head := 1, pivot := 1 + (m 0).hi / 8, pre := (preBytesOf sch + 3) / 4, tail := tail, lim := (m 0).lo,
    jc := hc, jv := hv }

private theorem lite_none {m : Memory} {bytes : Nat} (h : liteCheckup m bytes = none) :
    bytes = 4 * (m 0).lo ∧ bytes ≤ 4 * 65534 ∧ (m 0).hi / 8 ≤ 8191 ∧ 1 + (m 0).hi / 8 ≤ (m 0).lo := by
  unfold liteCheckup Nested.indexSize units2bytes Audit.maxFields at h
  split_ifs at h
  rw [Nat.shiftLeft_eq] at *
  omega

private theorem audit_accepted {sch : Option Schema} (hS : ∀ S, sch = some S → SchemaOk S) {m : Memory} {bytes : Nat} {st : St}
    (hw : ∀ a, (m a).hi < 65536) (h : auditRo sch m bytes = .pass st) :
    (bytes = 4 * (m 0).lo ∧ bytes ≤ 4 * 65534 ∧ (m 0).hi / 8 ≤ 8191 ∧ 1 + (m 0).hi / 8 ≤ (m 0).lo) ∧
    Accepted sch (roView sch m (m 0).lo st.hc st.hv) st ∧
    ((m 0).hi % 2 = 1 → sortedIndex m 1 ((m 0).hi / 8) = true) := by
  unfold auditRo at h
  cases hl : liteCheckup m bytes with
  | some e => rw [hl] at h; cases h
  | none =>
    rw [hl] at h
    simp only at h
    obtain ⟨s1, h1, h2⟩ := pass_bind h
    injection h2 with h2
    have hb := lite_none hl
    have key := auditTuple_sound hS (s := roView sch m (m 0).lo st.hc st.hv) (st := s1)
      (fl := ⟨Nested.isSorted (m 0), Nested.havePreplaced (m 0), false⟩)
      (by rw [b2u']; rfl) (by show 1 ≤ 1 + _; omega) hb.2.2.2 (by show (m 0).lo ≤ _; omega) (fun a _ _ => hw a) h1
    refine ⟨hb, ?_, fun ho => ?_⟩
    · obtain ⟨k1, k2, k3, k4, k5, k6, k7, k8, k9⟩ := key.1
      subst h2
      exact ⟨k1, k2, k3, k4, k5, k6, k7, k8, k9⟩
    · have := key.2 (by simp [Nested.isSorted, ho])
      have e : (roView sch m (m 0).lo st.hc st.hv).pivot - (roView sch m (m 0).lo st.hc st.hv).head = (m 0).hi / 8 := by
        show 1 + (m 0).hi / 8 - 1 = _; omega
      rw [e] at this
      exact this

/-- The cell `a` refers to a payload: an index entry of a type that is not stored in the entry, or a stretchy preplaced
field; its relative offset is not zero. -/
def HasPayload (sch : Option Schema) (m : Memory) (a : Nat) : Prop :=
  (m a).lo ≠ 0 ∧
  ((1 ≤ a ∧ a < 1 + (m 0).hi / 8 ∧ (cellGenus (m a)).isInplaced = false) ∨
   ∃ S t, sch = some S ∧ t ∈ S.tokens ∧ isPreplaced t = true ∧ (tag2genus t).isFixed = false ∧ a = 1 + (m 0).hi / 8 + tag2offset t / 4)

/-- **C07 (layout, partial).** If the validation of a buffer of `bytes` bytes succeeds then the size field equals the size of
the buffer, and there is an end of payload `tail'` such that the tuple up to `tail'` has a valid layout: index and
preplaced area are inside the buffer, every payload of a field or hole is inside, payloads do not overlap, and they cover
everything up to `tail'`; the reported hole statistics are exact. Moreover every payload reference points into the buffer
or to its end. `tail'` is the end of the buffer whenever any payload exists.

Missing: when there is no payload at all the rest of the buffer may be anything (`C07_unaccounted`); payloads whose header
claims zero units (`varbin` and `nested`) may lie anywhere, also at the end, outside the buffer
(`C07_header_outside`), and may overlap others (`C07_overlap`). -/
theorem C07_layout_partial {sch : Option Schema} (hS : ∀ S, sch = some S → SchemaOk S) {m : Memory} {bytes : Nat} {st : St}
    (hw : ∀ a, (m a).hi < 65536) (h : auditRo sch m bytes = .pass st) :
    bytes = 4 * (m 0).lo ∧
    (∃ tail', tail' ≤ (m 0).lo ∧ Layout (schOf sch) (roView sch m tail' st.hc st.hv) ∧
      ((∃ a, HasPayload sch m a) → tail' = (m 0).lo)) ∧
    (∀ a, HasPayload sch m a → 1 + (m 0).hi / 8 + (preBytesOf sch + 3) / 4 ≤ a + (m a).lo ∧ a + (m a).lo ≤ (m 0).lo) ∧
    ((m 0).hi % 2 = 1 → ∀ a b, 1 ≤ a → a ≤ b → b < 1 + (m 0).hi / 8 → (m a).hi ≤ (m b).hi) := by
  obtain ⟨hb, ha, hs⟩ := audit_accepted hS hw h
  set s := roView sch m (m 0).lo st.hc st.hv with hsdef
  have hbase : s.base = 1 + (m 0).hi / 8 + (preBytesOf sch + 3) / 4 := rfl
  have own : ∀ a, HasPayload sch m a → (idxOwn s.mem s.head s.pivot (a + (m a).lo) (elen m a)) ∨
      ∃ n, preOwn s.mem s.pivot (preTokens sch) (a + (m a).lo) n := by
    rintro a ⟨h0, ⟨h1, h2, h3⟩ | ⟨S, t, rfl, h4, h5, h6, rfl⟩⟩
    · exact Or.inl ⟨a, h1, h2, Or.inr ⟨h3, h0⟩, rfl, rfl⟩
    · right
      refine ⟨preLen s.mem s.pivot t, t, ?_, h0, rfl, rfl⟩
      exact List.mem_filter.2 ⟨h4, by rw [isStretchyPre_iff]; exact ⟨h5, h6⟩⟩
  have ptr : ∀ a, HasPayload sch m a → s.base ≤ a + (m a).lo ∧ a + (m a).lo ≤ (m 0).lo := by
    intro a hp
    rcases own a hp with k | ⟨n, k⟩
    · have := ha.index _ _ k
      exact ⟨this.1, by have := this.2; show _ ≤ s.tail; omega⟩
    · have := ha.preplaced _ _ k
      exact ⟨this.1, by have := this.2; show _ ≤ s.tail; omega⟩
  refine ⟨hb.1, ?_, ptr, ?_⟩
  · have hfit : s.base ≤ (m 0).lo := ha.fits
    by_cases hz : (∃ a, HasPayload sch m a) ∨ st.map ≠ []
    · refine ⟨(m 0).lo, le_rfl, layout_of_inv ⟨?_, hfit, le_rfl, ?_, fun u => ?_, ha.count, ha.volume, fun _ => le_rfl⟩, fun _ => rfl⟩
      · show 1 ≤ 1 + _; omega
      · show (m 0).lo ≤ 65534; omega
      · show T _ s.mem s.head s.base + 0 = ind s.base (s.tail - s.base) u
        have hcov := ha.cover u
        rw [add_zero]
        change T _ s.mem s.head s.base = _ at hcov
        refine Eq.trans hcov ?_
        have hpre : s.base = s.pivot + s.pre := rfl
        have hfit : s.base ≤ s.tail := hfit
        rcases ha.whole with hm | hm
        · rcases hz with ⟨a, hp⟩ | hz
          · rcases own a hp with k | ⟨n, k⟩
            · exact absurd hm (ha.some _ _ (Or.inl k))
            · exact absurd hm (ha.some _ _ (Or.inr k))
          · exact absurd hm hz
        · rw [hm, cov_cons, cov_nil]
          unfold ind
          simp only
          split_ifs <;> omega
    · push Not at hz
      refine ⟨s.base, hfit, layout_of_inv ⟨?_, le_rfl, hfit, ?_, fun u => ?_, ha.count, ha.volume, fun _ => le_rfl⟩, fun hp => ?_⟩
      · show 1 ≤ 1 + _; omega
      · show (m 0).lo ≤ 65534; omega
      · show T _ s.mem s.head s.base + 0 = ind s.base (s.base - s.base) u
        rw [add_zero, Nat.sub_self, ind_zero]
        refine Eq.trans (ha.cover u) ?_
        rw [hz.2]
        simp
      · obtain ⟨a, hp⟩ := hp
        exact absurd hp (hz.1 a)
  · intro ho a b h1 h2 h3
    have k := hs ho
    unfold sortedIndex at k
    rw [List.all_eq_true] at k
    have step : ∀ i, 1 ≤ i → i + 1 < 1 + (m 0).hi / 8 → (m i).hi ≤ (m (i + 1)).hi := by
      intro i h4 h5
      have := k (i - 1) (List.mem_range.2 (by omega))
      rw [decide_eq_true_eq, show 1 + (i - 1) = i by omega] at this
      exact this
    induction b, h2 using Nat.le_induction with
    | base => exact le_rfl
    | succ b hb' ih => exact le_trans (ih (by omega)) (step b (by omega) h3)

/-! ## Reading an accepted tuple -/

/-- The header of a payload of type `g` at unit `p` claims at least the header itself, and for binary data a length that is
a multiple of four. The validation checks neither. -/
def HeaderOk (g : Genus) (m : Memory) (p : Nat) : Prop :=
  (g = .varbin ∨ g = .nested → 0 < (m p).lo) ∧ (g = .varbin → (m p).hi % 4 = 0)

private theorem header_pos {g : Genus} (hfx : g.isFixed = false) {m : Memory} {p : Nat} (h : HeaderOk g m p) : 0 < brutto g m p := by
  rcases stretchy_cases hfx with rfl | rfl | rfl | rfl
  · show 0 < bytes2units _
    rw [b2u']; split_ifs <;> omega
  · exact h.1 (Or.inl rfl)
  · exact h.1 (Or.inr rfl)
  · show 0 < bytes2units _
    rw [b2u']; unfold Property.wholeLength; omega

private theorem read_local {g : Genus} {m m' : Memory} {p n : Nat} (hn : 0 < n) (hok : g.isFixed = false → HeaderOk g m p)
    (hb : if g.isFixed then n = g.looseUnits else n = brutto g m p) (h : ∀ u, p ≤ u → u < p + n → m' u = m u) :
    readPayload g m' p = readPayload g m p := by
  by_cases hg : g = .varbin
  · subst hg
    have hb : n = (m p).lo := hb
    have hp : m' p = m p := h p le_rfl (by omega)
    show some (Val.varbin (Varbin.read m' p)) = some (Val.varbin (Varbin.read m p))
    unfold Varbin.read Varbin.length
    have hz : ¬ (m p).lo = 0 := by omega
    rw [hp, (hok rfl).2 rfl, if_neg hz]
    rw [Memory.readBytes_congr (m := m') (m' := m)]
    intro i hi
    refine Memory.byte_congr (h _ (by omega) ?_)
    unfold units2bytes at hi
    rw [Nat.shiftLeft_eq] at hi
    omega
  · exact readPayload_congr hg hn hb h

private theorem lookup_local {m m' : Memory} {w e : Nat} (h : ∀ a, a < e → m' a = m a) (a : Nat) :
    lookupFrom m' w e a = lookupFrom m w e a := by
  induction hk : e - a generalizing a with
  | zero => rw [lookupFrom, if_neg (by omega), lookupFrom, if_neg (by omega)]
  | succ k ih =>
    have ha : a < e := by omega
    rw [lookupFrom, if_pos ha, h a ha, ih (a + 1) (by omega)]
    conv_rhs => rw [lookupFrom, if_pos ha]

private theorem fixed_units (g : Genus) (h : g.isFixed = true) (hi : g.isInplaced = false) (hh : g ≠ .hole) : 0 < g.looseUnits := by
  cases g <;> first | exact absurd hh (by decide) | revert h hi <;> decide

/-- **C07 (reading loose fields, partial).** The result of reading any loose field of an accepted tuple depends only on the
bytes of the buffer: it is the same for all memories that agree on them. Missing: fields whose header the validation
should have rejected (`HeaderOk`; `C07_header_outside`, `C07_varbin_overread`). -/
theorem C07_read_loose_partial {sch : Option Schema} (hS : ∀ S, sch = some S → SchemaOk S) {m m' : Memory} {bytes : Nat} {st : St}
    (hw : ∀ a, (m a).hi < 65536) (h : auditRo sch m bytes = .pass st) (hm : ∀ u, 4 * u < bytes → m' u = m u)
    {tag : Nat} (hg : tag2genus tag ≠ .hole)
    (hok : ∀ a, 1 ≤ a → a < 1 + (m 0).hi / 8 → (m a).hi = tag % 65536 → (m a).lo ≠ 0 → (tag2genus tag).isFixed = false →
      HeaderOk (tag2genus tag) m (a + (m a).lo)) (g : Genus) :
    getLoose (roView sch m' (m' 0).lo st.hc st.hv) tag g = getLoose (roView sch m (m 0).lo st.hc st.hv) tag g := by
  obtain ⟨hb, ⟨tail', ht, hl, _⟩, hp, _⟩ := C07_layout_partial hS hw h
  obtain ⟨hlite, _⟩ := audit_accepted hS hw h
  have hm : ∀ u, u < (m 0).lo → m' u = m u := fun u hu => hm u (by omega)
  have h0 : m' 0 = m 0 := hm 0 (by omega)
  unfold getLoose
  have hlk : (roView sch m' (m' 0).lo st.hc st.hv).lookup (tag2gid tag) = (roView sch m (m 0).lo st.hc st.hv).lookup (tag2gid tag) := by
    show lookupFrom m' _ (1 + (m' 0).hi / 8) 1 = lookupFrom m _ (1 + (m 0).hi / 8) 1
    rw [h0]
    exact lookup_local (fun a ha => hm a (by omega)) 1
  rw [hlk]
  split_ifs with hc
  · rfl
  unfold getEntry
  by_cases hgg : tag2genus tag ≠ g
  · rw [if_pos hgg, if_pos hgg]
  rw [if_neg hgg, if_neg hgg]
  have hgg : tag2genus tag = g := not_not.1 hgg
  cases hf : (roView sch m (m 0).lo st.hc st.hv).lookup (tag2gid tag) with
  | none => rfl
  | some a =>
    obtain ⟨k1, k2, k3, _⟩ := lookupFrom_some hf
    have k1 : 1 ≤ a := k1
    have k2 : a < 1 + (m 0).hi / 8 := k2
    have k3 : (m a).hi = tag2gid tag := k3
    rw [gid_eq] at k3
    have ha : m' a = m a := hm a (by omega)
    show (if g.isInplaced then _ else if g.isFixed ∨ (m' a).lo ≠ 0 then Except.ok (readPayload g m' (a + (m' a).lo)) else _) =
      (if g.isInplaced then _ else if g.isFixed ∨ (m a).lo ≠ 0 then Except.ok (readPayload g m (a + (m a).lo)) else _)
    have hin : inlineRead g ((roView sch m' (m' 0).lo st.hc st.hv).mem a).lo = inlineRead g ((roView sch m (m 0).lo st.hc st.hv).mem a).lo := by
      show inlineRead g (m' a).lo = inlineRead g (m a).lo
      rw [ha]
    rw [ha, hin]
    by_cases ci : g.isInplaced = true
    · rw [if_pos ci, if_pos ci]
    rw [if_neg ci, if_neg ci]
    by_cases cf : g.isFixed = true ∨ (m a).lo ≠ 0
    · rw [if_pos cf, if_pos cf]
      congr 1
      have hgen : cellGenus (m a) = g := hgg ▸ cellGenus_tag _ _ k3
      have hnh : ¬ (m a).hi / 2048 = 31 := by rw [k3]; exact tag_not_hole hg
      have hlen : chunkLen (schOf sch) (roView sch m tail' st.hc st.hv) a = fieldUnits m g a := by
        unfold chunkLen lenOf
        rw [if_neg (fun k => hnh k.2), if_pos (show a < (roView sch m tail' st.hc st.hv).pivot from k2)]
        show fieldUnits m (cellGenus (m a)) a = _
        rw [hgen]
      have hpos : 0 < fieldUnits m g a := by
        unfold fieldUnits
        by_cases c : g.isFixed = true
        · rw [if_pos c]
          exact fixed_units g c (by simpa using ci) (hgg ▸ hg)
        · rw [if_neg c]
          have c2 : (m a).lo ≠ 0 := cf.resolve_left c
          rw [if_neg c2]
          have hfx : g.isFixed = false := by simpa using c
          exact header_pos hfx (hgg ▸ hok a k1 k2 k3 c2 (by rw [hgg]; exact hfx))
      have hins := hl.inside a k1 (by show a < 1 + (m 0).hi / 8 + _; omega) (by rw [hlen]; exact hpos)
      rw [hlen] at hins
      have hin2 : a + (m a).lo + fieldUnits m g a ≤ tail' := hins.2
      refine read_local hpos (fun hfx => hgg ▸ hok a k1 k2 k3 (cf.resolve_left (by rw [hfx]; decide)) (by rw [hgg]; exact hfx)) ?_
        fun u _ hu => hm u (by omega)
      unfold fieldUnits
      by_cases c : g.isFixed = true
      · rw [if_pos c, if_pos c]
      · rw [if_neg c, if_neg c, if_neg (cf.resolve_left c)]
    · rw [if_neg cf, if_neg cf]

/-- **C07 (reading preplaced fields, partial).** The same for the preplaced fields of the schema: fixed-size fields inside
the preplaced area and the stretchy fields the schema lists. -/
theorem C07_read_preplaced_partial {S : Schema} (hS : SchemaOk S) {m m' : Memory} {bytes : Nat} {st : St}
    (hw : ∀ a, (m a).hi < 65536) (h : auditRo (some S) m bytes = .pass st) (hm : ∀ u, 4 * u < bytes → m' u = m u) (g : Genus) :
    (∀ tag, tag2offset tag + g.preplacedBytes ≤ S.bytes →
      getPreplacedFixed (roView S m' (m' 0).lo st.hc st.hv) tag g = getPreplacedFixed (roView S m (m 0).lo st.hc st.hv) tag g) ∧
    (∀ tag ∈ S.tokens, isPreplaced tag = true → (tag2genus tag).isFixed = false →
      ((m (1 + (m 0).hi / 8 + tag2offset tag / 4)).lo ≠ 0 →
        HeaderOk (tag2genus tag) m (1 + (m 0).hi / 8 + tag2offset tag / 4 + (m (1 + (m 0).hi / 8 + tag2offset tag / 4)).lo)) →
      getPreplacedStretchy (roView S m' (m' 0).lo st.hc st.hv) tag g =
        getPreplacedStretchy (roView S m (m 0).lo st.hc st.hv) tag g) := by
  have hS' : ∀ T, some S = some T → SchemaOk T := fun T hT => Option.some.inj hT ▸ hS
  obtain ⟨hb, ⟨tail', ht, hl, _⟩, hp, _⟩ := C07_layout_partial hS' hw h
  obtain ⟨hlite, hacc, _⟩ := audit_accepted hS' hw h
  have hm : ∀ u, u < (m 0).lo → m' u = m u := fun u hu => hm u (by omega)
  have h0 : m' 0 = m 0 := hm 0 (by omega)
  have hfit : 1 + (m 0).hi / 8 + (S.bytes + 3) / 4 ≤ (m 0).lo := hacc.fits
  constructor
  · intro tag hin
    unfold getPreplacedFixed
    have e : (roView S m' (m' 0).lo st.hc st.hv).mem.readBytes (4 * (roView S m' (m' 0).lo st.hc st.hv).pivot + tag2offset tag) g.preplacedBytes =
        (roView S m (m 0).lo st.hc st.hv).mem.readBytes (4 * (roView S m (m 0).lo st.hc st.hv).pivot + tag2offset tag) g.preplacedBytes := by
      show m'.readBytes (4 * (1 + (m' 0).hi / 8) + _) _ = m.readBytes (4 * (1 + (m 0).hi / 8) + _) _
      rw [h0]
      exact Memory.readBytes_congr fun i hi => Memory.byte_congr (hm _ (by omega))
    rw [e]
  · intro tag htok hpre hfx hok
    have htk := sch_token hS' (t := tag) (List.mem_filter.2 ⟨htok, by rw [isStretchyPre_iff]; exact ⟨hpre, hfx⟩⟩)
    have hinb : tag2offset tag + 4 ≤ S.bytes := htk.2.2.2
    unfold getPreplacedStretchy
    by_cases hgg : tag2genus tag ≠ g
    · rw [if_pos hgg, if_pos hgg]
    rw [if_neg hgg, if_neg hgg]
    have hgg : tag2genus tag = g := not_not.1 hgg
    set a := 1 + (m 0).hi / 8 + tag2offset tag / 4 with hadef
    have ha : m' a = m a := hm a (by omega)
    show (if (m' (1 + (m' 0).hi / 8 + tag2offset tag / 4)).lo ≠ 0 then Except.ok (readPayload g m' (1 + (m' 0).hi / 8 + tag2offset tag / 4 + (m' (1 + (m' 0).hi / 8 + tag2offset tag / 4)).lo)) else _) =
      (if (m a).lo ≠ 0 then Except.ok (readPayload g m (a + (m a).lo)) else _)
    rw [h0, ← hadef, ha]
    by_cases cl : (m a).lo ≠ 0
    · rw [if_pos cl, if_pos cl]
      congr 1
      have hlen : chunkLen (schOf (some S)) (roView S m tail' st.hc st.hv) a = brutto g m (a + (m a).lo) := by
        unfold chunkLen lenOf
        rw [if_neg (fun k => by have := k.1; change a < 1 + (m 0).hi / 8 at this; omega),
          if_neg (show ¬ a < (roView S m tail' st.hc st.hv).pivot by show ¬ a < 1 + (m 0).hi / 8; omega)]
        rw [show a - (roView S m tail' st.hc st.hv).pivot = tag2offset tag / 4 by show a - (1 + (m 0).hi / 8) = _; omega, htk.1]
        show fieldUnits m (tag2genus tag) a = _
        unfold fieldUnits
        rw [hfx, if_neg (by decide), if_neg cl, hgg]
      have hpos : 0 < brutto g m (a + (m a).lo) := header_pos (hgg ▸ hfx) (hgg ▸ hok cl)
      have hins := hl.inside a (by show 1 ≤ a; omega) (by show a < 1 + (m 0).hi / 8 + (S.bytes + 3) / 4; omega) (by rw [hlen]; exact hpos)
      rw [hlen] at hins
      have hin2 : a + (m a).lo + brutto g m (a + (m a).lo) ≤ tail' := hins.2
      refine read_local hpos (fun _ => hgg ▸ hok cl) ?_ fun u _ hu => hm u (by omega)
      rw [if_neg (by rw [← hgg, hfx]; decide)]
    · rw [if_neg cl, if_neg cl]

/-! ## Witnesses -/

/-- Memory holding the given units at 0 and zeros after them. -/
def cells (l : List Cell) : Memory := fun u => l.getD u .zero

/-- Descriptor of a loose field. -/
def entry (g : Genus) (id lo : Nat) : Cell := ⟨lo, g.code * 2048 + id⟩

def accepted (r : Res) : Bool := match r with | .pass _ => true | _ => false

/-- **C07 (refuted).** An accepted tuple of 12 bytes with one field stored in its descriptor, followed by four bytes that
belong to nothing. -/
theorem C07_unaccounted :
    let m := cells [⟨3, 8⟩, entry .u16 5 1000, ⟨4711, 4711⟩]
    accepted (auditRo none m 12) = true ∧
    ¬ ∃ a, 1 ≤ a ∧ a < 2 ∧ a + (m a).lo ≤ 2 ∧ 2 < a + (m a).lo + chunkLen (schOf none) (roView none m 3 0 0) a := by
  intro m
  refine ⟨by decide +kernel, ?_⟩
  rintro ⟨a, h1, h2, h3, -⟩
  have : a = 1 := by omega
  subst this
  revert h3
  decide +kernel

/-- **C07 (refuted).** An accepted tuple of 8 bytes whose only field, binary data, starts at byte 8: reading the field reads
outside of the buffer, and the result depends on what is there. -/
theorem C07_header_outside :
    let m := cells [⟨2, 8⟩, entry .varbin 5 1]
    let m' := m.set 2 ⟨2, 0⟩
    accepted (auditRo none m 8) = true ∧ m 0 = m' 0 ∧ m 1 = m' 1 ∧
    (m 1).lo + 1 = 2 ∧ Varbin.length m 2 = 2 ^ 64 - 4 ∧ Varbin.length m' 2 = 4 := by decide +kernel

/-- **C07 (refuted).** An accepted tuple in which two fields share a unit: a 64-bit number at unit 3, and binary data
whose header is the first unit of that number. -/
theorem C07_overlap :
    let m := cells [⟨5, 16⟩, entry .i64 5 2, entry .varbin 6 1, ⟨0, 7⟩, ⟨1, 1⟩]
    accepted (auditRo none m 20) = true ∧ 1 + (m 1).lo = 3 ∧ 2 + (m 2).lo = 3 := by decide +kernel

/-- **C07 (refuted).** An accepted tuple of 12 bytes: reading its binary field gives three bytes from outside. -/
theorem C07_varbin_overread :
    let m := cells [⟨3, 8⟩, entry .varbin 5 1, ⟨1, 3⟩]
    let m' := m.set 3 ⟨0x5345, 0x4352⟩
    accepted (auditRo none m 12) = true ∧ (∀ u, u < 3 → m u = m' u) ∧
    getLoose (roView none m 3 0 0) (makeTag .varbin 5 false true false) .varbin = .ok (some (.varbin [0, 0, 0])) ∧
    getLoose (roView none m' 3 0 0) (makeTag .varbin 5 false true false) .varbin = .ok (some (.varbin [0x45, 0x53, 0x52])) := by
  decide +kernel

/-- **C07 (nested tuples).** Acceptance says nothing about nested tuples: an accepted tuple may contain a nested tuple of
one unit which claims ten index entries. -/
theorem C07_nested_unchecked :
    let m := cells [⟨3, 8⟩, entry .nested 5 1, ⟨1, 80⟩]
    accepted (auditRo none m 12) = true ∧ liteCheckup (fun u => m (2 + u)) 4 = some "tuple.pivot > tuple.end" := by
  decide +kernel

/-- A tuple with two payload fields and a hole meets the hypotheses of the theorems. -/
example : accepted (auditRo none (cells [⟨8, 24⟩, entry .i64 5 3, entry .text 6 4, entry .hole 1 4,
    ⟨1, 2⟩, ⟨3, 4⟩, ⟨3 + 256 * 65, 65 + 256 * 65⟩, ⟨0, 0⟩]) 32) = true := by decide +kernel

/-! ## C08 -/

private theorem chunk_reads (s : St) (cb cu pb pe : Nat) : (checkChunk s cb cu pb pe).reads = s.reads := by
  unfold checkChunk
  split_ifs <;> try rfl
  cases mapInsert s.map ((cb - pb) % 65536) ((cb - pb + cu) % 65536) <;> rfl

private theorem bind_reads {P : Nat → Prop} {r : Res} {f : St → Res} (h1 : ∀ u ∈ r.reads, P u)
    (h2 : ∀ s, (∀ u ∈ s.reads, P u) → ∀ u ∈ (f s).reads, P u) : ∀ u ∈ (r.bind f).reads, P u := by
  cases r with
  | pass s => exact h2 s h1
  | fail => exact h1
  | bug => exact h1

private theorem read_reads {P : Nat → Prop} {s : St} {a : Nat} (hs : ∀ u ∈ s.reads, P u) (ha : P a) : ∀ u ∈ (s.read a).reads, P u := by
  intro u hu
  rcases List.mem_cons.1 hu with rfl | hu
  · exact ha
  · exact hs u hu

private theorem loose_reads {P : Nat → Prop} {m : Memory} {pb pe a : Nat} {s : St} (hs : ∀ u ∈ s.reads, P u) (ha : P a)
    (hp : (cellGenus (m a)).isFixed = false → (m a).lo ≠ 0 → P (a + (m a).lo)) : ∀ u ∈ (checkLoose m pb pe a s).reads, P u := by
  have h1 := read_reads hs ha
  unfold checkLoose
  simp only
  split_ifs with c1 c2 c3 c4 c5 c6 c7 c8
  · exact h1
  · exact h1
  · exact h1
  · exact h1
  · rw [chunk_reads]; exact h1
  · exact h1
  · rw [chunk_reads]; exact h1
  · rw [chunk_reads]; exact read_reads h1 (hp (by simpa using c6) (by omega))
  · exact h1

private theorem down_reads {P : Nat → Prop} {f : Nat → St → Res} {lo : Nat} : ∀ (n : Nat) {s : St}, (∀ u ∈ s.reads, P u) →
    (∀ a, lo ≤ a → a < lo + n → ∀ s : St, (∀ u ∈ s.reads, P u) → ∀ u ∈ (f a s).reads, P u) → ∀ u ∈ (scanDown f lo n s).reads, P u := by
  intro n
  induction n with
  | zero => intro s hs _; exact hs
  | succ n ih =>
    intro s hs hf
    exact bind_reads (hf (lo + n) (by omega) (by omega) s hs) fun t ht => ih ht fun a h1 h2 => hf a h1 (by omega)

private theorem pre_reads {P : Nat → Prop} {m : Memory} {pivot pe : Nat} : ∀ (ts : List Nat) {s : St}, (∀ u ∈ s.reads, P u) →
    (∀ t ∈ ts, isStretchyPre t = true → P (preCell pivot t) ∧ ((m (preCell pivot t)).lo ≠ 0 → P (preCell pivot t + (m (preCell pivot t)).lo))) →
    ∀ u ∈ (scanPre m pivot pe ts s).reads, P u := by
  intro ts
  induction ts with
  | nil => intro s hs _; exact hs
  | cons t ts ih =>
    intro s hs ht
    have ht' := fun x hx => ht x (List.mem_cons_of_mem _ hx)
    unfold scanPre
    simp only
    split_ifs with c1 c2 c3
    · exact ih hs ht'
    · exact ih (read_reads hs (ht t List.mem_cons_self (isStretchyPre_iff.2 ⟨c1, by simpa using c2⟩)).1) ht'
    · have k := ht t List.mem_cons_self (isStretchyPre_iff.2 ⟨c1, by simpa using c2⟩)
      refine bind_reads (P := P) ?_ fun s hs => ih hs ht'
      rw [chunk_reads]
      exact read_reads (read_reads hs k.1) (k.2 c3)
    · exact hs

private theorem adjacent_reads {P : Nat → Prop} {m : Memory} {lo pb : Nat} : ∀ (n : Nat) {M : Map} {k : Nat} {s : St},
    (∀ u ∈ s.reads, P u) → (∀ a, lo ≤ a → a < lo + n → P a) → ∀ u ∈ (scanAdjacent m lo pb n M k s).reads, P u := by
  intro n
  induction n with
  | zero => intro M k s hs _; exact hs
  | succ n ih =>
    intro M k s hs ha
    have h1 := read_reads hs (ha (lo + n) (by omega) (by omega))
    have ha' := fun a h1 h2 => ha a h1 (Nat.lt_succ_of_lt h2)
    unfold scanAdjacent
    simp only
    split_ifs <;> first | exact h1 | exact ih h1 ha'

private theorem finish_reads {P : Nat → Prop} {m : Memory} {ib pivot pe preBytes : Nat} {fl : Flags} {s : St} (hs : ∀ u ∈ s.reads, P u)
    (ha : ∀ a, ib ≤ a → a < pivot → P a) : ∀ u ∈ (finish m ib pivot pe preBytes fl s).reads, P u := by
  unfold finish
  refine bind_reads (P := P) ?_ fun s hs => ?_
  · split_ifs <;> first | exact hs | exact adjacent_reads _ hs fun a h1 h2 => ha a h1 (by omega)
  · have h2 : ∀ u ∈ (List.range' ib (pivot - ib)) ++ s.reads, P u := by
      intro u hu
      rcases List.mem_append.1 hu with hu | hu
      · have := List.mem_range'_1.1 hu
        exact ha u this.1 (by omega)
      · exact hs u hu
    split_ifs
    · exact h2
    · exact h2
    · exact hs

/-- **C08 (partial).** When no field refers to a payload at or after the end of the buffer, the validation reads only inside
the buffer, whether it accepts or not. Missing: descriptors that refer past the end (`C08_reads_refuted`). -/
theorem C08_reads_partial {sch : Option Schema} (hS : ∀ S, sch = some S → SchemaOk S) {m : Memory} {bytes : Nat}
    (hp : ∀ a, HasPayload sch m a → a + (m a).lo < (m 0).lo) : ∀ u ∈ (auditRo sch m bytes).reads, 4 * u + 4 ≤ bytes := by
  unfold auditRo
  cases hl : liteCheckup m bytes with
  | some e =>
    simp only
    split_ifs with c
    · intro u hu; cases hu
    · intro u hu
      have hu : u ∈ [0] := hu
      rw [List.mem_singleton] at hu
      omega
  | none =>
    simp only
    have hb := lite_none hl
    have H : ∀ u ∈ (Res.bind (auditTuple sch m 1 (1 + Nested.indexSize (m 0)) (m 0).lo
        ⟨Nested.isSorted (m 0), Nested.havePreplaced (m 0), false⟩) fun s => .pass (s.read 0)).reads, u < (m 0).lo := by
      refine bind_reads ?_ fun s hs => read_reads hs (by omega)
      unfold auditTuple
      simp only
      have hi : Nested.indexSize (m 0) = (m 0).hi / 8 := rfl
      rw [hi]
      have e1 : 1 + (m 0).hi / 8 - 1 = (m 0).hi / 8 := by omega
      by_cases c : 1 + (m 0).hi / 8 - 1 + stretchyOf sch > Audit.maxFields
      · rw [if_pos c]; intro u hu; cases hu
      · rw [if_neg c]
        refine bind_reads (down_reads _ (by intro u hu; cases hu) ?_) fun s hs => ?_
        · intro a h1 h2 s hs
          refine loose_reads hs (by omega) fun h3 h4 => hp a ⟨h4, Or.inl ⟨h1, by omega, ?_⟩⟩
          generalize cellGenus (m a) = g at h3
          cases g <;> first | rfl | exact absurd h3 (by decide)
        · split_ifs
          all_goals first | exact hs | skip
          all_goals
            refine bind_reads ?_ fun s hs => finish_reads hs fun a _ h2 => by omega
            unfold passPre
            split_ifs with c1 c2 c3
            · exact hs
            · exact hs
            · cases sch with
              | none => exact hs
              | some S =>
                refine pre_reads S.tokens hs fun t ht hst => ?_
                have htk := sch_token hS (t := t) (List.mem_filter.2 ⟨ht, hst⟩)
                have hst' := isStretchyPre_iff.1 hst
                have hcell : preCell (1 + (m 0).hi / 8) t < (m 0).lo := by
                  have := htk.2.2.2
                  unfold preCell
                  omega
                exact ⟨hcell, fun hlo => hp _ ⟨hlo, Or.inr ⟨S, t, rfl, ht, hst'.1, hst'.2, rfl⟩⟩⟩
            · exact hs
    intro u hu
    have := H u hu
    omega

/-- **C08 (refuted).** The validation of this buffer of 8 bytes reads a unit about 240000 bytes after its end, before it
rejects the buffer; the other buffer is rejected or accepted depending on what follows it. -/
theorem C08_reads_refuted :
    (60001 ∈ (auditRo none (cells [⟨2, 8⟩, entry .text 5 60000]) 8).reads) ∧
    accepted (auditRo none (cells [⟨2, 8⟩, entry .varbin 5 1]) 8) = true ∧
    accepted (auditRo none ((cells [⟨2, 8⟩, entry .varbin 5 1]).set 2 ⟨1, 0⟩) 8) = false := by decide +kernel

example : ∀ u ∈ (auditRo none (cells [⟨8, 24⟩, entry .i64 5 3, entry .text 6 4, entry .hole 1 4,
    ⟨1, 2⟩, ⟨3, 4⟩, ⟨3 + 256 * 65, 65 + 256 * 65⟩, ⟨0, 0⟩]) 32).reads, 4 * u + 4 ≤ 32 := by decide +kernel

end Fptu.Props
