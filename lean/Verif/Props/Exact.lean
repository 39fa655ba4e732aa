import Verif.Lemmas.Exact
import Verif.Props.Compact
import Verif.Props.NullTable
/-!
# C65: the stored bytes of a value are determined by the value; what a tuple still contains of values that are gone. C48 for every history
-/
namespace Fptu.Props
open Fptu Fptu.Gear Fptu.Rw Fptu.Audit Fptu.Compact Fptu.Serial Fptu.CapiRw

theorem Reachable.exact {F : Fix} {σ : Sch} {s : RW} (h : Reachable F σ s) : Exact σ s := by
  induction h with
  | create mem h1 h2 h3 h4 h5 => exact create_exact h1 h5
  | @step s s' h op hop hb hs ih =>
    have key := step_spec h.wf op hop hb
    rcases hs with ⟨u, hs⟩ | ⟨e, hs⟩
    · exact step_exact h.wf ih op hop hb hs
    · rw [hs] at key
      have key : s' = s := key
      rw [key]; exact ih
  | compactify h hs e ih =>
    obtain ⟨⟨f, hc⟩, _⟩ := Compact.compactify_ok hs h.wf e
    exact Permuted.exact ih hc.permuted
  | recreate h hσ hpre hidx hsize e hroom ih =>
    have m := Serial.recreate_moved h.wf hpre hidx hsize e hroom
    exact Permuted.exact ih (m.copied h.wf).permuted
  | sort h hF hj hs e ih =>
    obtain ⟨b', t', f, e', k⟩ := Compact.sort_spec hs h.wf h.pure
    rw [e'] at e
    injection e with _ e
    rw [← e]
    exact Permuted.exact ih k.1
  | relocated h m ih => exact Permuted.exact ih (m.copied h.wf).permuted

/-- The value that a variable-length field which is not null holds, and that it is stored as the format says. -/
theorem stretchy_value {F : Fix} {σ : Sch} {s : RW} (h : Reachable F σ s) {a : Nat} {g : Genus} (hf : FieldAt σ s a g) (hfx : g.isFixed = false)
    (h0 : (s.mem a).lo ≠ 0) : ∃ v, valueAt g s.mem a = some v ∧ Holds g s.mem (a + (s.mem a).lo) (fieldUnits s.mem g a) v := by
  obtain ⟨v, hv⟩ := h.exact a g hf hfx h0
  rw [hf.len] at hv
  refine ⟨v, ?_, hv⟩
  obtain ⟨h1, h2, hp, m0, q, h3⟩ := hv
  have hn : needs g v (fieldUnits s.mem g a) := by unfold needs; rw [hfx, if_neg (by decide)]; exact h2
  have hin : g.isInplaced = false := by
    cases c : g.isInplaced with
    | false => rfl
    | true => have := (inplaced_facts g c).1; rw [hfx] at this; cases this
  unfold valueAt
  rw [if_neg (by rw [hin]; decide), if_pos (Or.inr h0), ← write_decode h1 hn hp m0 q]
  exact decode_move hp (by rw [hfx, if_neg (by decide)]; exact ((write_spec h1 hn hp m0 q).2.1 hfx).symm) h3

/-- **C65 (partial: the stored bytes).** In every tuple that any history produces, whatever the memory contained before and whatever was stored, resized or erased
since, a variable-length field holding the value `v` (loose or preplaced) occupies exactly the bytes `image v`: header, value, zeros up to
whole units. Missing for the code as it is: histories in which a defect of `src/gear.cxx` shows (see C12). -/
theorem C65_payload_partial {F : Fix} {σ : Sch} {s : RW} (h : Reachable F σ s) {a : Nat} {g : Genus} {v : Val} (hf : FieldAt σ s a g)
    (hfx : g.isFixed = false) (hv : valueAt g s.mem a = some v) :
    v.fits g = true ∧ s.mem.readBytes (4 * (a + (s.mem a).lo)) (4 * fieldUnits s.mem g a) = image v := by
  have h0 : (s.mem a).lo ≠ 0 := by
    intro k
    have hin : g.isInplaced = false := by
      cases c : g.isInplaced with
      | false => rfl
      | true => have := (inplaced_facts g c).1; rw [hfx] at this; cases this
    unfold valueAt at hv
    rw [hin, if_neg (by decide), if_neg (by rw [hfx, k]; simp)] at hv
    cases hv
  obtain ⟨v', e, hh⟩ := stretchy_value h hf hfx h0
  rw [hv] at e
  have e := Option.some.inj e
  subst e
  exact ⟨hh.fits, hh.image hfx⟩

/-- **C65 (partial: equal values, equal bytes).** Fields of the same type with equal values, in any two tuples of any schemas and histories, are stored as the same bytes. -/
theorem C65_equal_partial {F F' : Fix} {σ σ' : Sch} {s t : RW} (h : Reachable F σ s) (h' : Reachable F' σ' t) {a b : Nat} {g : Genus} {v : Val}
    (ha : FieldAt σ s a g) (hb : FieldAt σ' t b g) (hfx : g.isFixed = false) (hv : valueAt g s.mem a = some v) (hw : valueAt g t.mem b = some v) :
    s.mem.readBytes (4 * (a + (s.mem a).lo)) (4 * fieldUnits s.mem g a) = t.mem.readBytes (4 * (b + (t.mem b).lo)) (4 * fieldUnits t.mem g b) := by
  rw [(C65_payload_partial h ha hfx hv).2, (C65_payload_partial h' hb hfx hw).2]

/-- Unit `u` is a part of a value that the tuple contains: unit `i` of a value of fixed size, or bytes `4 * i` to `4 * i + 3` of the image of another one. -/
def OfValue (σ : Sch) (s : RW) (u : Nat) : Prop :=
  ∃ a g v i, FieldAt σ s a g ∧ valueAt g s.mem a = some v ∧
    ((∃ cs : List Cell, v = .units cs ∧ cs[i]? = some (s.mem u)) ∨
      (g.isFixed = false ∧ ∀ j < 4, (image v)[4 * i + j]? = some (s.mem.byte (4 * u + j))))

/-- **C65 (partial: no traces in a tuple without junk).** In a tuple that any history produces and which reports no junk (after every compaction, see C17), every unit of the
payload area is a part of a value that the tuple contains: no unit keeps anything of values that were overwritten or erased, or of what the
memory contained before. Missing: see `C65_payload_partial`. -/
theorem C65_no_traces_partial {F : Fix} {σ : Sch} {s : RW} (h : Reachable F σ s) (hj : s.jv = 0) {u : Nat} (h1 : s.pivot + s.pre ≤ u) (h2 : u < s.tail) :
    OfValue σ s u := by
  have lay := layout_of_wf h.wf
  obtain ⟨a, a1, a2, a3, a4⟩ := lay.covered u h1 h2
  have nh : ¬ (a < s.pivot ∧ (s.mem a).hi / 2048 = 31) := by
    intro k
    have hv := lay.volume
    rw [hj] at hv
    have := (Finset.sum_eq_zero_iff.1 hv.symm) a (Finset.mem_filter.2 ⟨Finset.mem_Ico.2 ⟨a1, k.1⟩, k.2⟩)
    unfold chunkLen at a4
    rw [if_pos k, this] at a4
    omega
  have hlen : chunkLen σ s a = lenOf σ s a := by unfold chunkLen; rw [if_neg nh]
  rw [hlen] at a4
  have hfa : ∃ g, FieldAt σ s a g ∧ g ≠ .hole := by
    by_cases c : a < s.pivot
    · have hl : s.live a := ⟨a1, c, fun k => nh ⟨c, k⟩⟩
      exact ⟨_, Or.inl ⟨hl, rfl⟩, live_genus hl (h.wf.word _ hl)⟩
    · cases hs : σ (a - s.pivot) with
      | none =>
        unfold lenOf at a4
        rw [if_neg c, hs] at a4
        simp only at a4
        omega
      | some g => exact ⟨g, Or.inr ⟨by omega, a2, hs⟩, by rintro rfl; have := h.wf.sch _ _ hs; cases this⟩
  obtain ⟨g, hf, hg⟩ := hfa
  rw [hf.len] at a4
  cases hfx : g.isFixed with
  | true =>
    have hn : fieldUnits s.mem g a = g.looseUnits := by unfold fieldUnits; rw [hfx, if_pos rfl]
    rw [hn] at a4
    have hin : g.isInplaced = false := by
      cases c : g.isInplaced with
      | false => rfl
      | true => have := (inplaced_facts g c).2; omega
    have hv : valueAt g s.mem a = some (.units (s.mem.readCells (a + (s.mem a).lo) g.looseUnits)) := by
      unfold valueAt
      rw [if_neg (by rw [hin]; decide), if_pos (Or.inl hfx)]
      cases g <;> first | rfl | exact absurd hfx (by decide) | exact absurd rfl hg | exact absurd hin (by decide)
    refine ⟨a, g, _, u - (a + (s.mem a).lo), hf, hv, Or.inl ⟨_, rfl, ?_⟩⟩
    unfold Memory.readCells
    rw [List.getElem?_map, List.getElem?_range (by omega)]
    show some (s.mem _) = _
    rw [show a + (s.mem a).lo + (u - (a + (s.mem a).lo)) = u by omega]
  | false =>
    have h0 : (s.mem a).lo ≠ 0 := by
      intro k
      unfold fieldUnits at a4
      rw [hfx, if_neg (by decide), if_pos k] at a4
      omega
    obtain ⟨v, e, hh⟩ := stretchy_value h hf hfx h0
    refine ⟨a, g, v, u - (a + (s.mem a).lo), hf, e, Or.inr ⟨hfx, fun j hj => ?_⟩⟩
    rw [← hh.image hfx]
    unfold Memory.readBytes
    rw [List.getElem?_map, List.getElem?_range (by omega)]
    show some (s.mem.byte _) = _
    rw [show 4 * (a + (s.mem a).lo) + (4 * (u - (a + (s.mem a).lo)) + j) = 4 * u + j by omega]

/-- Two numbers are stored, the first one is erased. -/
def traceOps : List Op := [setF .u64 1 5000, setF .u64 2 6, .erase (fix .u64 1)]

/-- **C65 (refuted for tuples with junk).** `take_asis` hands out units of erased values: two 64-bit fields, the first is erased, both units of it are still in the
serialized form, where no field refers to them. -/
theorem C65_traces_refuted {F : Fix} (hF : F = .code ∨ F = .repaired) : ∃ s, History F none s ∧
    (∀ f ∈ fieldsOf s, f = (fix .u64 2 % 65536, some (unitsVal 2 6))) ∧ unitsVal 2 5000 = .units [⟨5000, 7⟩, ⟨5001, 7⟩] ∧
    ∃ u, 0 < u ∧ u + 1 < (takeAsis none s 0).lo ∧ takeAsis none s u = ⟨5000, 7⟩ ∧ takeAsis none s (u + 1) = ⟨5001, 7⟩ := by
  obtain ⟨s, hr, hp⟩ := run_decide (F := F) (s := fresh 8 60) (ops := traceOps)
    (fun s => decide ((∀ f ∈ fieldsOf s, f = (fix .u64 2 % 65536, some (unitsVal 2 6))) ∧
      4 < (takeAsis none s 0).lo ∧ takeAsis none s 3 = ⟨5000, 7⟩ ∧ takeAsis none s 4 = ⟨5001, 7⟩))
    (by rcases hF with rfl | rfl <;> decide +kernel)
  obtain ⟨p1, p2, p3, p4⟩ := of_decide_eq_true hp
  exact ⟨s, .of_run (mem := fun _ => .zero) (items := 8) (lim := 60) (image := []) (ops := traceOps) (fun S k => (by cases k)) rfl (by decide)
    (by decide) (fun k g h => (by cases h)) (opOk_of (by decide +kernel)) (runBenign_of (by rcases hF with rfl | rfl <;> decide +kernel)) hr,
    p1, by decide, 3, by decide, p2, p3, p4⟩

/-- A reachable tuple with a nested tuple of five units at a place used before; and a text, whose image is known without looking at memory. -/
example : ∃ s a, Reachable .code noPre s ∧ FieldAt noPre s a .nested ∧ valueAt .nested s.mem a = some (nstVal 5 2) ∧
    s.mem.readBytes (4 * (a + (s.mem a).lo)) (4 * fieldUnits s.mem .nested a) = [5, 0, 0, 0, 2, 0, 2, 0, 2, 0, 2, 0, 2, 0, 2, 0, 2, 0, 2, 0] := by
  obtain ⟨s, hr, hp⟩ := run_decide (F := .code) (s := fresh 8 60) (ops := goodOps)
    (fun s => decide (∃ a ∈ List.range 60, s.head ≤ a ∧ a < s.pivot ∧ (s.mem a).hi / 2048 ≠ 31 ∧ cellGenus (s.mem a) = .nested ∧ valueAt .nested s.mem a = some (nstVal 5 2)))
    (by decide +kernel)
  obtain ⟨a, _, p1, p2, p3, p4, p5⟩ := of_decide_eq_true hp
  have h : Reachable .code noPre s := (fresh_ok (by decide) (by decide)).reachable (opOk_of (by decide +kernel)) (runBenign_of (by decide +kernel)) hr
  have hf : FieldAt noPre s a .nested := Or.inl ⟨⟨p1, p2, p3⟩, p4⟩
  exact ⟨s, a, h, hf, p5, (C65_payload_partial h hf rfl p5).2⟩

example : image (.text [97, 98, 99, 100]) = [4, 97, 98, 99, 100, 0, 0, 0] ∧ image (.varbin [7]) = [2, 0, 1, 0, 7, 0, 0, 0] ∧
    image (.property [9, 8, 7] 5) = [3, 5, 9, 8, 7, 0, 0, 0] := by decide

/-- A tuple without junk and with payload. -/
example : ∃ s, Reachable .code noPre s ∧ s.jv = 0 ∧ s.pivot + s.pre + 4 ≤ s.tail ∧ OfValue noPre s (s.pivot + s.pre + 3) := by
  obtain ⟨s, hr, hp⟩ := run_decide (F := .code) (s := fresh 8 60) (ops := [setF .u64 1 5000, setN 2 3, .erase (fix .u64 1), setF .u64 2 6])
    (fun s => decide (s.jv = 0 ∧ s.pivot + s.pre + 4 ≤ s.tail)) (by decide +kernel)
  obtain ⟨p1, p2⟩ := of_decide_eq_true hp
  have h : Reachable .code noPre s := (fresh_ok (by decide) (by decide)).reachable (opOk_of (by decide +kernel)) (runBenign_of (by decide +kernel)) hr
  exact ⟨s, h, p1, p2, C65_no_traces_partial h p1 (by omega) (by omega)⟩

/-! ## C48 for every history -/

/-- **C48 (partial: histories).** In every tuple that any history produces, `fptu_field_cstr` of a text field (with any earlier calls) shows the text, if it is not empty and has no zero byte. -/
theorem C48_history_partial {F : Fix} {σ : Sch} {s : RW} (h : Reachable F σ s) {a : Nat} (hl : s.live a) (hg : cellGenus (s.mem a) = .text)
    (h0 : (s.mem a).lo ≠ 0) : ∃ v, valueAt .text s.mem a = some (.text v) ∧ TextField s.mem a v ∧
      (v ≠ [] → (∀ c ∈ v, c ≠ 0) → ∀ held, (cstrOf s.mem a held).view s.mem (heldAfter s.mem a held) = some v) := by
  have hf : FieldAt σ s a .text := Or.inl ⟨hl, hg⟩
  obtain ⟨w, e, hh⟩ := stretchy_value h hf rfl h0
  have him := hh.image rfl
  have hr := hh.read rfl (by decide)
  have hn : fieldUnits s.mem .text a = Str.bruttoUnits s.mem (a + (s.mem a).lo) := by
    unfold fieldUnits
    rw [if_neg (by decide), if_neg h0]; rfl
  obtain ⟨v, rfl⟩ : ∃ v, w = .text v := by
    have hfit := hh.fits
    cases w with
    | text v => exact ⟨v, rfl⟩
    | inline x => simp [Val.fits, Genus.isInplaced] at hfit
    | units cs => exact absurd (fits_units hfit).2.1 (by decide)
    | varbin v => simp [Val.fits] at hfit
    | property v id => simp [Val.fits] at hfit
    | nested v => cases v <;> simp [Val.fits] at hfit
  have hread : Str.read s.mem (a + (s.mem a).lo) = some v := by
    have hr : (Str.read s.mem (a + (s.mem a).lo)).map Val.text = some (.text v) := hr
    obtain ⟨x, h1, h2⟩ := Option.map_eq_some_iff.1 hr
    rw [h1]; injection h2 with h2; rw [h2]
  have ht : TextField s.mem a v := by
    refine ⟨by rw [if_neg h0]; exact hread, fun _ k k1 k2 => ?_⟩
    rw [hn] at him
    generalize a + (s.mem a).lo = p at *
    have hbyte : ∀ i < 4 * Str.bruttoUnits s.mem p, s.mem.byte (4 * p + i) = (image (.text v)).getD i 0 := by
      intro i hi
      rw [← him]
      unfold Memory.readBytes
      rw [List.getD_eq_getElem?_getD, List.getElem?_map, List.getElem?_range hi]; rfl
    have hge : 4 * p ≤ k := by unfold Str.begin_ at k1; omega
    obtain ⟨i, rfl⟩ : ∃ i, k = 4 * p + i := ⟨k - 4 * p, by omega⟩
    rw [hbyte i (by omega)]
    have hpos := hh.pos
    rw [hn] at hpos
    have hb0 := hbyte 0 (by omega)
    unfold image at hb0 ⊢
    rw [pad4_getD] at hb0 ⊢
    unfold Str.begin_ Str.isTiny Str.tinyThreshold at k1
    by_cases c : v.length < 254
    · rw [if_pos c] at hb0 ⊢
      have hb0 : s.mem.byte (4 * p) = v.length := hb0
      rw [hb0, if_pos (decide_eq_true c)] at k1
      rw [List.getD_eq_default]
      simp only [List.length_append, List.length_singleton]; omega
    · rw [if_neg c] at hb0 ⊢
      have hb0 : s.mem.byte (4 * p) = 254 + v.length % 2 := hb0
      rw [hb0, if_neg (by simp)] at k1
      rw [List.getD_eq_default]
      simp only [List.length_append, List.length_cons, List.length_nil]; omega
  exact ⟨v, e, ht, fun hv hz held => C48_cstr_partial ht hv hz⟩

/-! ## C05 for every history -/

/-- **C05 (partial: histories).** In every tuple that any history produces, reading a binary field that is not null gives the stored bytes first, and exactly them
if their number is a multiple of four; otherwise it gives four bytes too many. Missing: the right length in that case (`C05_length_refuted`). -/
theorem C05_history_partial {F : Fix} {σ : Sch} {s : RW} (h : Reachable F σ s) {a : Nat} (hf : FieldAt σ s a .varbin) (h0 : (s.mem a).lo ≠ 0) :
    ∃ v, valueAt .varbin s.mem a = some (.varbin v) ∧
      (Varbin.read s.mem (a + (s.mem a).lo)).take v.length = v ∧
      Varbin.length s.mem (a + (s.mem a).lo) = v.length + (if v.length % 4 = 0 then 0 else 4) ∧
      (v.length % 4 = 0 → readPayload .varbin s.mem (a + (s.mem a).lo) = some (.varbin v)) := by
  obtain ⟨w, e, hh⟩ := stretchy_value h hf rfl h0
  obtain ⟨v, rfl⟩ : ∃ v, w = .varbin v := by
    have hfit := hh.fits
    cases w with
    | varbin v => exact ⟨v, rfl⟩
    | inline x => simp [Val.fits, Genus.isInplaced] at hfit
    | units cs => exact absurd (fits_units hfit).2.1 (by decide)
    | text v => simp [Val.fits] at hfit
    | property v id => simp [Val.fits] at hfit
    | nested v => cases v <;> simp [Val.fits] at hfit
  obtain ⟨h1, h2, h3, m0, q, hc⟩ := hh
  generalize fieldUnits s.mem .varbin a = n at *
  generalize a + (s.mem a).lo = p at *
  have hb : IsBytes v := by
    intro c hc'
    have := h1
    unfold Val.fits at this
    rw [Bool.and_eq_true] at this
    exact of_decide_eq_true (List.all_eq_true.1 this.2 c hc')
  have h2 : Varbin.estimate v.length = .ok n := h2
  have hlen : v.length ≤ 262136 := by
    by_contra k
    rw [(C05_estimate v.length).1.1 (by omega)] at h2
    cases h2
  rw [(C05_estimate v.length).2 hlen] at h2
  have hn := Except.ok.inj h2
  obtain ⟨f1, f2, f3⟩ := vb_facts m0 q v hb hlen
  have hc : ∀ i, i < n → s.mem (p + i) = (Varbin.store m0 q v) (q + i) := hc
  have hhead : s.mem p = ⟨(v.length + 3) / 4 + 1, v.length % 4⟩ := by
    have := hc 0 h3
    rw [Nat.add_zero, Nat.add_zero, f1] at this
    exact this
  have hL : Varbin.length s.mem p = v.length + (if v.length % 4 = 0 then 0 else 4) := by
    unfold Varbin.length units2bytes
    rw [hhead, Nat.shiftLeft_eq, if_neg (Nat.succ_ne_zero _)]
    simp only
    split <;> omega
  have hbytes : s.mem.readBytes (4 * (p + 1)) v.length = v := by
    rw [← f2]
    unfold Memory.readBytes
    rw [List.length_map, List.length_range]
    refine List.map_congr_left fun i hi => ?_
    have hi := List.mem_range.1 hi
    have := Memory.byte_move hc (show 4 + i < 4 * n by omega)
    rw [show 4 * (p + 1) + i = 4 * p + (4 + i) by omega, this, show 4 * (q + 1) + i = 4 * q + (4 + i) by omega]
  have htake : (Varbin.read s.mem p).take v.length = v := by
    rw [← hbytes]
    unfold Varbin.read Memory.readBytes
    rw [← List.map_take, List.take_range, hL, List.length_map, List.length_range, Nat.min_eq_left (by omega)]
  refine ⟨v, e, htake, hL, fun k => ?_⟩
  show some (Val.varbin (Varbin.read s.mem p)) = _
  unfold Varbin.read
  rw [hL, if_pos k, show v.length + 0 = v.length from rfl, hbytes]

/-- **C05 (partial: reading after storing).** A binary whose length is a multiple of four that was stored in a loose or a preplaced field is what the getter returns. -/
theorem C05_set_partial {F : Fix} {σ : Sch} {s t : RW} {tag : Nat} {b : List Nat} (h : Reachable F σ s) (ht : TokenOk σ s.pre tag)
    (hf : (Val.varbin b).fits .varbin = true) (h4 : b.length % 4 = 0) (hb : StepBenign F s (.set tag .varbin (.varbin b)))
    (hs : setField F s tag .varbin (.varbin b) = .ok () t) (hd : ¬ dropped tag .varbin (.varbin b)) :
    readField t tag .varbin = .ok (.inr (some (.varbin b))) := by
  have h' : Reachable F σ t := .step h (op := .set tag .varbin (.varbin b)) ⟨ht, hf⟩ hb (Or.inl ⟨(), by show setField F s tag _ _ = _; exact hs⟩)
  have hlo : ∀ a, valueAt .varbin t.mem a = some (.varbin b) → (t.mem a).lo ≠ 0 := by
    intro a hv k
    unfold valueAt at hv
    rw [if_neg (by decide), if_neg (by rw [k]; rintro (m | m) <;> [cases m; exact m rfl])] at hv
    cases hv
  have fin : ∀ a, FieldAt σ t a .varbin → valueAt .varbin t.mem a = some (.varbin b) →
      readPayload .varbin t.mem (a + (t.mem a).lo) = some (.varbin b) := by
    intro a hfa hv
    obtain ⟨v, e, _, _, k⟩ := C05_history_partial h' hfa (hlo a hv)
    rw [hv] at e
    have e := Option.some.inj e
    injection e with e
    subst e
    exact k h4
  unfold readField
  by_cases hp : isPreplaced tag = true
  · obtain ⟨_, k2, _⟩ := C09_set_preplaced_stretchy_partial h hp ht rfl hf hb hs
    have hv := k2 hd
    have hg : tag2genus tag = .varbin := by
      by_contra hg
      unfold setField assignStretchy at hs
      rw [if_pos hp, if_neg (by decide), if_pos hg] at hs
      cases hs
    have hslot := ht.2 hp
    rw [hg, if_neg (by decide)] at hslot
    have hpre : t.pre = s.pre := by
      have := (C09_set_preplaced_stretchy_partial h hp ht rfl hf hb hs).2.2.2.2.2
      exact this.pre
    have hfa : FieldAt σ t (t.pivot + tag2offset tag / 4) .varbin :=
      Or.inr ⟨Nat.le_add_right _ _, by show _ < t.pivot + t.pre; rw [hpre]; exact Nat.add_lt_add_left hslot.1 _, by rw [Nat.add_sub_cancel_left]; exact hslot.2⟩
    rw [if_pos hp, if_neg (by decide)]
    unfold getPreplacedStretchy
    rw [if_neg (fun k => k hg)]
    simp only
    rw [if_pos (hlo _ hv), fin _ hfa hv]
    rfl
  · have hl : isLoose tag = true := by
      have := preplaced_not_loose tag
      simp_all
    obtain ⟨hc, hg⟩ := set_loose_genus hl hs
    have hw := tag_not_hole (show tag2genus tag ≠ .hole by rw [hg]; decide)
    obtain ⟨wf', a, o, hap, hlk, _, hst⟩ := set_loose_post h.wf hb.1 hl hf hs
    obtain ⟨hla, hhi, hval⟩ := hst hd
    have hlk' : t.lookup (tag % 65536) = some a := by
      rw [lookup_some hw]
      refine ⟨⟨hla, hhi⟩, fun c hc' => ?_⟩
      by_cases hba : c = a
      · omega
      · have hb2 := (o.has hba).1 hc'
        rcases hlk with hlk | hlk
        · exact absurd hb2 ((lookup_none hw).1 hlk.1 c)
        · exact ((lookup_some hw).1 hlk).2 c hb2
    have hfa : FieldAt σ t a .varbin := Or.inl ⟨hla, by rw [cellGenus_tag _ tag hhi, hg]⟩
    rw [if_neg hp]
    unfold getLoose getEntry
    rw [if_neg (by rw [hc]; decide), gid_eq, hlk', if_neg (fun k => k hg)]
    simp only
    rw [if_neg (by decide), if_pos (Or.inr (hlo _ hval)), fin _ hfa hval]
    rfl

/-- **C20 (partial: binaries).** The table of NULL values also holds for binaries whose length is a multiple of four. Missing: other lengths (C05). -/
theorem C20_varbin_partial {F : Fix} {σ : Sch} {s t : RW} {tag : Nat} {b : List Nat} (h : Reachable F σ s) (ht : TokenOk σ s.pre tag)
    (hf : (Val.varbin b).fits .varbin = true) (h4 : b.length % 4 = 0) (hb : StepBenign F s (.set tag .varbin (.varbin b)))
    (hone : (fieldsOf s).countP (fun f => f.1 = tag % 65536) ≤ 1) (hs : setField F s tag .varbin (.varbin b) = .ok () t) :
    documented tag .varbin (.varbin b) (readField t tag .varbin) := by
  have hd : dropped tag .varbin (.varbin b) ↔ isDiscernible tag = false ∧ (Val.varbin b).isEmpty .varbin = true := by
    unfold dropped
    rw [Bool.not_eq_true]
    constructor
    · rintro (k | k)
      · exact k
      · cases k
    · exact Or.inl
  unfold documented
  rw [if_neg (fun m => by have := m.2; cases this)]
  by_cases c : isDiscernible tag = true
  · rw [if_pos c]
    exact C05_set_partial h ht hf h4 hb hs (fun k => by rw [(hd.1 k).1] at c; cases c)
  · have c : isDiscernible tag = false := by simpa using c
    rw [if_neg (by rw [c]; decide)]
    refine ⟨fun k => ?_, fun k => C05_set_partial h ht hf h4 hb hs (fun m => by rw [(hd.1 m).2] at k; cases k)⟩
    have k2 := hd.2 ⟨c, k⟩
    have habs : absent tag .varbin = .ok (some (.empty .varbin)) := by
      unfold absent
      rw [if_neg (by rw [c]; decide)]
    unfold readField
    by_cases hp : isPreplaced tag = true
    · rw [if_pos hp, if_neg (by decide), (C09_set_preplaced_stretchy_partial h hp ht rfl hf hb hs).2.2.1 k2, habs]; rfl
    · have hl : isLoose tag = true := by
        have := preplaced_not_loose tag
        simp_all
      rw [if_neg hp, (C09_unset_partial h hl hf hb hs k2).1 hone, habs]; rfl

/-- A reachable tuple with a text and a binary, both theorems apply. -/
example : ∃ s a b, Reachable .code noPre s ∧ (∀ held, (cstrOf s.mem a held).view s.mem (heldAfter s.mem a held) = some [97, 98, 99]) ∧
    Varbin.length s.mem (b + (s.mem b).lo) = 5 := by
  obtain ⟨s, hr, hp⟩ := run_decide (F := .code) (s := fresh 8 60)
    (ops := [.set (makeTag .text 1 false false false) .text (.text [97, 98, 99]), .set (makeTag .varbin 2 false false false) .varbin (.varbin [7])])
    (fun s => decide (s.live 7 ∧ cellGenus (s.mem 7) = .text ∧ (s.mem 7).lo ≠ 0 ∧ valueAt .text s.mem 7 = some (.text [97, 98, 99]) ∧
      s.live 6 ∧ cellGenus (s.mem 6) = .varbin ∧ (s.mem 6).lo ≠ 0 ∧ valueAt .varbin s.mem 6 = some (.varbin [7])))
    (by decide +kernel)
  obtain ⟨p1, p2, p3, p4, p5, p6, p7, p8⟩ := of_decide_eq_true hp
  have h : Reachable .code noPre s := (fresh_ok (by decide) (by decide)).reachable (opOk_of (by decide +kernel)) (runBenign_of (by decide +kernel)) hr
  obtain ⟨v, e, _, k⟩ := C48_history_partial h p1 p2 p3
  rw [p4] at e
  cases e
  obtain ⟨w, e, _, k', _⟩ := C05_history_partial h (a := 6) (Or.inl ⟨p5, p6⟩) p7
  rw [p8] at e
  cases e
  exact ⟨s, 7, 6, h, k (by decide) (by decide), k'⟩

/-- Storing four bytes over a field of another size, and reading them. -/
example : ∃ s t, Reachable .code noPre s ∧ setField .code s (makeTag .varbin 2 false false false) .varbin (.varbin [1, 2, 3, 4]) = .ok () t ∧
    readField t (makeTag .varbin 2 false false false) .varbin = .ok (.inr (some (.varbin [1, 2, 3, 4]))) := by
  obtain ⟨s, hr, hp⟩ := run_decide (F := .code) (s := fresh 8 60) (ops := [.set (makeTag .varbin 2 false false false) .varbin (.varbin [7])])
    (fun s => match setField .code s (makeTag .varbin 2 false false false) .varbin (.varbin [1, 2, 3, 4]) with
      | .ok _ _ => stepBenignB .code s (.set (makeTag .varbin 2 false false false) .varbin (.varbin [1, 2, 3, 4]))
      | _ => false) (by decide +kernel)
  have h : Reachable .code noPre s := (fresh_ok (by decide) (by decide)).reachable (opOk_of (by decide +kernel)) (runBenign_of (by decide +kernel)) hr
  cases hs : setField .code s (makeTag .varbin 2 false false false) .varbin (.varbin [1, 2, 3, 4]) with
  | exc e t => rw [hs] at hp; cases hp
  | ub => rw [hs] at hp; cases hp
  | ok u t =>
    rw [hs] at hp
    exact ⟨s, t, h, hs, C05_set_partial h ⟨by decide, fun k => absurd k (by decide)⟩ (by decide) (by decide) (stepBenign_of hp) hs
      (by unfold dropped; decide)⟩

end Fptu.Props
