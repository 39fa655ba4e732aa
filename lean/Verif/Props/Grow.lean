import Verif.Lemmas.Grow
import Verif.Props.Compact
import Verif.Props.TupleLayout
import Verif.Props.TupleDefects
import Verif.Props.TupleRW
/-!
# C33: automatic growth

`E` describes the tuple (schema, overhead of the object) and which defects are repaired, `S` what the allocator provides.
-/
namespace Fptu.Props
open Fptu Fptu.Gear Fptu.Rw Fptu.Audit Fptu.Serial Fptu.Compact Fptu.Grow

/-- The growth works for tuples with the schema `sch`, allocated in a reference-counted buffer. -/
structure EnvOk (E : Env) (sch : Option Schema) : Prop where
  sigma : E.σ = schOf sch
  preBytes : E.preBytes = preBytesOf sch
  srt : Sorter E.srt
  buffered : E.legacy = false

theorem _root_.Fptu.Rw.Copied.occupied {σ : Sch} {s t : RW} {f : Nat → Nat} (c : Copied σ s t f) {tag : Nat} (ht : TokenOk σ s.pre tag) :
    Rw.occupied t tag = Rw.occupied s tag := by
  cases hp : isPreplaced tag with
  | true =>
    have hslot := ht.2 hp
    unfold Rw.occupied
    rw [if_pos hp, if_pos hp]
    cases hfx : (tag2genus tag).isFixed with
    | true => rfl
    | false =>
      rw [hfx, if_neg (by decide)] at hslot
      rw [if_neg (by decide), if_neg (by decide)]
      exact (c.stretchy _ _ hslot.2 hslot.1).2.units
  | false =>
    unfold Rw.occupied unitsWhere
    rw [if_neg (by rw [hp]; decide), if_neg (by rw [hp]; decide)]
    refine Finset.sum_bij (fun b _ => f b) (fun b hb => ?_) (fun b hb b' hb' he => ?_) (fun a ha => ?_) (fun b hb => ?_)
    · rw [Finset.mem_filter, mem_liveSet] at hb ⊢
      obtain ⟨k1, k2, _⟩ := c.live b hb.1
      exact ⟨k1, k2 ▸ hb.2⟩
    · rw [Finset.mem_filter, mem_liveSet] at hb hb'
      exact c.inj hb.1 hb'.1 he
    · rw [Finset.mem_filter, mem_liveSet] at ha
      obtain ⟨b, hb, rfl⟩ := c.onto a ha.1
      refine ⟨b, ?_, rfl⟩
      rw [Finset.mem_filter, mem_liveSet]
      exact ⟨hb, (c.live b hb).2.1 ▸ ha.2⟩
    · rw [Finset.mem_filter, mem_liveSet] at hb
      obtain ⟨_, k2, k3⟩ := c.live b hb.1
      have e : cellGenus (t.mem b) = cellGenus (s.mem (f b)) := by unfold cellGenus; rw [k2]
      rw [e]
      exact k3.units

/-- What the growth preserves. -/
structure GrownTo (F : Fix) (sch : Option Schema) (s t : RW) : Prop where
  history : History F sch t
  same : SameFields (schOf sch) s t
  payload : t.tail - t.pivot ≤ s.tail - s.pivot
  index : t.pivot - t.head ≤ s.pivot - s.head
  freed : ∀ tag, TokenOk (schOf sch) s.pre tag → t.jv + occupied t tag ≤ s.jv + occupied s tag

theorem GrownTo.trans {F : Fix} {sch : Option Schema} {s t u : RW} (hs : History F sch s) (h : GrownTo F sch s t) (h' : GrownTo F sch t u) :
    GrownTo F sch s u :=
  ⟨h'.history, h.same.trans h'.same (h.history.pre.trans hs.pre.symm), h'.payload.trans h.payload, h'.index.trans h.index,
    fun tag ht => (h'.freed tag (by rw [h.history.pre.trans hs.pre.symm]; exact ht)).trans (h.freed tag ht)⟩

theorem GrownTo.refl {F : Fix} {sch : Option Schema} {s : RW} (hs : History F sch s) : GrownTo F sch s s :=
  ⟨hs, SameFields.of_copied hs.made.wf (copied_refl hs.made.wf), le_rfl, le_rfl, fun _ _ => le_rfl⟩

theorem GrownTo.moved {F : Fix} {sch : Option Schema} {s t : RW} (hs : History F sch s) (m : Moved s t) : GrownTo F sch s t := by
  have a1 := m.pivot
  have a2 := m.tail
  have a3 := hs.made.wf.inv.hp
  have a4 := hs.made.wf.inv.bt
  have a5 : s.base = s.pivot + s.pre := rfl
  exact ⟨⟨hs.schema, hs.made.relocated m, m.pre.trans hs.pre⟩, SameFields.of_copied hs.made.wf (m.copied hs.made.wf), by omega, by omega,
    fun tag ht => by rw [(m.copied hs.made.wf).occupied ht, m.jv]⟩

theorem GrownTo.compact {F : Fix} {sch : Option Schema} {E : Env} {s t : RW} {u : Unit} (hs : History F sch s) (hE : EnvOk E sch)
    (e : compactifyWith E.guard E.srt E.σ s = .ok u t) : GrownTo F sch s t ∧ t.jc = 0 ∧ t.jv = 0 := by
  rw [hE.sigma] at e
  obtain ⟨⟨f, cp⟩, _, k1, k2, k3, k4, k5, k6, k7⟩ := compact_step hE.srt hs.made.wf e
  exact ⟨⟨hs.compactify hE.srt e, SameFields.of_copied hs.made.wf cp, by omega, by omega,
    fun tag ht => by rw [cp.occupied ht]; omega⟩, k6, k7⟩

theorem compactify_not_exc {guard : Bool} {srt : List Item → List Item} {σ : Sch} {s t : RW} {e : Exc} :
    compactifyWith guard srt σ s ≠ .exc e t := by
  unfold compactifyWith dropHoles closeGaps
  intro h
  by_cases c1 : s.jc = 0
  · rw [if_pos c1] at h
    simp only [Out.bind] at h
    by_cases c2 : s.jv = 0
    · rw [if_pos c2] at h; cases h
    · rw [if_neg c2] at h
      split at h
      · cases h
      · split at h <;> cases h
  · rw [if_neg c1] at h
    split at h
    · cases h
    · simp only [Out.bind] at h
      split_ifs at h
      split at h
      · cases h
      · split at h <;> cases h

/-- Compaction of a tuple without junk does nothing. -/
theorem compactify_clean {guard : Bool} {srt : List Item → List Item} {σ : Sch} {s : RW} (h1 : s.jc = 0) (h2 : s.jv = 0) :
    compactifyWith guard srt σ s = .ok () s := by
  unfold compactifyWith dropHoles
  rw [if_pos h1]
  show closeGaps guard srt σ s = _
  unfold closeGaps
  rw [if_pos h2]

/-! ## One growth -/

/-- Conditions on which a compaction completes, see C17. -/
def CompactOk (E : Env) (s : RW) : Prop :=
  E.guard = true ∨ ((s.jc = 0 ∨ NoNil s) ∧ (s.jv = 0 ∨ NoNilPre E.σ s))

theorem CompactOk.runs {E : Env} {sch : Option Schema} {s : RW} {F : Fix} (h : CompactOk E s) (hE : EnvOk E sch) (hs : History F sch s) :
    ∃ t, compactifyWith E.guard E.srt E.σ s = .ok () t := by
  have w := hs.made.wf
  rw [← hE.sigma] at w
  obtain ⟨t, _, e, _⟩ := compactify_spec (guard := E.guard) hE.srt w (h.imp id fun k => k.1) (h.imp id fun k => k.2)
  exact ⟨t, e⟩

/-- **C33 (making room in the buffer, partial).** If the free space and the junk together suffice for `i` more index slots and `n` more
units of data, then afterwards the tuple has that space, in the same buffer, and all fields are as before. Missing: tuples that
the compaction cannot handle (C17). -/
theorem C33_shift_partial {F : Fix} {sch : Option Schema} {s : RW} {E : Env} {S : Supply} {i n : Nat} (h : History F sch s) (hE : EnvOk E sch)
    (hi : i ≤ 8191) (hroom : i + n ≤ s.jv + s.jc + (s.lim - (s.tail - s.head))) (hc : CompactOk E s) :
    ∃ t, manage E S i n s = .ok () t ∧ GrownTo F sch s t ∧ i ≤ headSpace t ∧ n ≤ tailSpaceUnits t ∧ capacity t = capacity s ∧ junkUnits t = 0 := by
  have w := h.made.wf
  obtain ⟨t, e⟩ := hc.runs hE h
  have w' : WF E.σ s := by rw [hE.sigma]; exact w
  obtain ⟨k1, k2, k3, k4⟩ := shiftPath_spec (i := i) (n := n) hE.srt w' hroom e
  obtain ⟨g, j1, j2⟩ := GrownTo.compact h hE e
  obtain ⟨_, _, c1, c2, c3, c4, c5, _⟩ := compact_step hE.srt w' e
  have hp := w.inv.hp
  have hb := w.inv.bt
  have htl := w.inv.tl
  have hll := w.inv.ll
  have hjc := w.inv.jc_le
  have hbase : s.base = s.pivot + s.pre := rfl
  have hvl := w.inv.vol_le (p := 0) (n := 0) (fun u => by rw [ind_zero])
  refine ⟨_, ?_, g.trans h (.moved g.history k2), k3, k4, ?_, ?_⟩
  · unfold manage
    have hm : maxBytesNetto = 262136 := rfl
    have hmf : Audit.maxFields = 8191 := rfl
    rw [if_neg (by omega), if_pos hroom, k1]
  · show units2bytes t.lim = units2bytes s.lim
    rw [c5]
  · show t.jv + t.jc = 0
    omega

/-- **C33 (a larger buffer, partial).** Otherwise the content moves to a larger buffer, which has the space; all fields are as before.
Missing: holes are not counted in the new buffer unless there are none (`C33_junk_refuted`); tuples with preplaced fields
near the size limit (`C33_preplaced_refuted`); a new buffer whose index space and payload exceed 65534 units (`C33_overlap_refuted`); index of
more than 8191 entries; tuples that the compaction cannot handle (C17); tuples without a buffer object (`C33_realloc_refuted`). -/
theorem C33_grow_partial {F : Fix} {sch : Option Schema} {s : RW} {E : Env} {S : Supply} {i n : Nat} (h : History F sch s) (hE : EnvOk E sch)
    (hroom : ¬ i + n ≤ s.jv + s.jc + (s.lim - (s.tail - s.head)))
    (hc : CompactOk E s) (hk : E.keepJunk = true ∨ (s.jc = 0 ∧ s.jv = 0) ∨ s.tail - s.head < 2 * (s.jv + s.jc))
    (hd : preBytesOf sch = 0 ∨ preBytesOf sch + 8 * (n + (s.lim - s.pivot)) + 168 ≤ 262136)
    (hidx : s.pivot - s.head + i ≤ 8191) (hfit : min 8191 (2 * (i + s.pivot)) + (s.tail - s.pivot) + n ≤ 65534)
    (hbuf : E.overhead + S.extra ≤ 229372) :
    ∃ t, manage E S i n s = .ok () t ∧ GrownTo F sch s t ∧ i ≤ headSpace t ∧ n ≤ tailSpaceUnits t ∧
      (s.jc = 0 → s.jv = 0 → t.jc = 0 ∧ t.jv = 0) ∧
      (preBytesOf sch + 8 * (n + (s.lim - s.pivot)) + 168 ≤ 262136 → 1 + n + (s.tail - s.head) ≤ 65534 → 1 + n ≤ t.lim - (t.tail - t.head)) := by
  have w := h.made.wf
  have w' : WF E.σ s := by rw [hE.sigma]; exact w
  have hp := w.inv.hp
  have hb := w.inv.bt
  have htl := w.inv.tl
  have hll := w.inv.ll
  have hjc := w.inv.jc_le
  have hbase : s.base = s.pivot + s.pre := rfl
  have hvl := w.inv.vol_le (p := 0) (n := 0) (fun u => by rw [ind_zero])
  have hm : maxBytesNetto = 262136 := rfl
  have hmf : Audit.maxFields = 8191 := rfl
  unfold manage
  rw [if_neg (by omega), if_neg hroom, growPath_eq]
  by_cases c : s.tail - s.head + (i + n) ≥ 65535 ∨ s.jv + s.jc + (s.jv + s.jc) > s.tail - s.head
  · rw [if_pos c]
    obtain ⟨t, e⟩ := hc.runs hE h
    obtain ⟨g, j1, j2⟩ := GrownTo.compact h hE e
    obtain ⟨_, wt, c1, c2, c3, c4, c5, _⟩ := compact_step hE.srt w' e
    rw [e]
    obtain ⟨v, k1, k2, k3, k4, k5⟩ := freshBuffer_spec (S := S) (i := i) (n := n) wt (by rw [c3, h.pre, hE.preBytes]) (Or.inr ⟨j1, j2⟩) hE.buffered
      (by rw [hE.preBytes, c5, c2]; exact hd) (by omega) (by omega) hbuf
    exact ⟨v, k1, g.trans h (.moved g.history k2), k3, k4, fun _ _ => ⟨k2.jc.trans j1, k2.jv.trans j2⟩,
      fun q1 q2 => k5 (by rw [hE.preBytes, c5, c2]; exact q1) (by omega)⟩
  · rw [if_neg c]
    obtain ⟨v, k1, k2, k3, k4, k5⟩ := freshBuffer_spec (S := S) (i := i) (n := n) w' (by rw [h.pre, hE.preBytes]) (by
      rcases hk with k | k | k
      · exact Or.inl k
      · exact Or.inr k
      · omega) hE.buffered (by rw [hE.preBytes]; exact hd) hidx hfit hbuf
    exact ⟨v, k1, .moved h k2, k3, k4, fun a b => ⟨k2.jc.trans a, k2.jv.trans b⟩, fun q1 q2 => k5 (by rw [hE.preBytes]; exact q1) q2⟩

/-! ## Any growth -/

theorem transfer_exc {E : Env} {S : Supply} {index size : Nat} {s t : RW} {e : Exc} (h : transfer E S index size s = .exc e t) :
    t = s ∧ (e = .tupleTooLarge ∨ e = .schemaBadDefinition ∨ e = .invalidArgument) := by
  unfold transfer construct estimate at h
  split at h
  · rename_i x hx
    injection h with h1 h2
    refine ⟨h2.symm, ?_⟩
    rw [← h1]
    split_ifs at hx
    · injection hx with hx; exact Or.inr (Or.inl hx.symm)
    · injection hx with hx; exact Or.inl hx.symm
    all_goals simp only [Except.bind] at hx
    all_goals split_ifs at hx
    all_goals injection hx with hx
    all_goals exact Or.inr (Or.inr hx.symm)
  · split_ifs at h

theorem granulate_exc {o p space : Nat} {e : Exc} : ∀ {l : List (Nat × Nat)}, granulate o p space l = .error e →
    e = .tupleTooLarge ∨ e = .schemaBadDefinition
  | [], h => by cases h
  | sc :: rest, h => by
    rw [granulate] at h
    cases hs : scaleSpace o p sc with
    | error x =>
      rw [hs] at h
      injection h with h
      rw [← h]
      unfold scaleSpace estimate at hs
      split_ifs at hs
      · injection hs with hs; exact Or.inr hs.symm
      · injection hs with hs; exact Or.inl hs.symm
    | ok g =>
      rw [hs] at h
      simp only [Except.bind] at h
      split_ifs at h
      exact granulate_exc h

theorem freshBuffer_fails {E : Env} {S : Supply} {i n : Nat} {s : RW} {e : Exc}
    (h : estimate E.overhead (growthIndex s i) (growthData s n) E.preBytes false = .error e) : freshBuffer E S i n s = .exc e s := by
  unfold freshBuffer
  rw [h]

theorem freshBuffer_exc {E : Env} {S : Supply} {i n : Nat} {s t : RW} {e : Exc} (hl : E.legacy = false) (h : freshBuffer E S i n s = .exc e t) :
    t = s ∧ (e = .tupleTooLarge ∨ e = .schemaBadDefinition ∨ e = .invalidArgument) := by
  unfold freshBuffer at h
  split at h
  · rename_i x hx
    injection h with h1 h2
    refine ⟨h2.symm, ?_⟩
    rw [← h1]
    unfold estimate at hx
    split_ifs at hx
    · injection hx with hx; exact Or.inr (Or.inl hx.symm)
    · injection hx with hx; exact Or.inl hx.symm
  · rw [hl, if_neg (by decide)] at h
    split at h
    · rename_i x hx
      injection h with h1 h2
      refine ⟨h2.symm, ?_⟩
      rw [← h1]
      rcases granulate_exc hx with k | k
      · exact Or.inl k
      · exact Or.inr (Or.inl k)
    · exact transfer_exc h

theorem freshBuffer_ok {E : Env} {S : Supply} {i n : Nat} {s t : RW} {u : Unit} {σ : Sch} (h : WF σ s) (hpre : s.pre = bytes2units E.preBytes)
    (hk : E.keepJunk = true ∨ (s.jc = 0 ∧ s.jv = 0)) (hl : E.legacy = false) (e : freshBuffer E S i n s = .ok u t) : Moved s t := by
  unfold freshBuffer at e
  split at e
  · cases e
  · rw [hl, if_neg (by decide)] at e
    split at e
    · cases e
    · exact (transfer_ok h hpre hk e).1

/-- **C33 (content).** Whenever a growth completes, all fields are as before, whatever the deficit: for the code as it is if the
tuple has no junk, and for every tuple once the junk counters are copied. -/
theorem C33_content_partial {F : Fix} {sch : Option Schema} {s t : RW} {E : Env} {S : Supply} {i n : Nat} {u : Unit} (h : History F sch s)
    (hE : EnvOk E sch) (hk : E.keepJunk = true ∨ (s.jc = 0 ∧ s.jv = 0)) (e : manage E S i n s = .ok u t) :
    GrownTo F sch s t ∧ (s.jc = 0 → s.jv = 0 → t.jc = 0 ∧ t.jv = 0) := by
  have w := h.made.wf
  have w' : WF E.σ s := by rw [hE.sigma]; exact w
  unfold manage at e
  split_ifs at e with c1 c2
  · cases hc : compactifyWith E.guard E.srt E.σ s with
    | ub => unfold shiftPath at e; rw [hc] at e; cases e
    | exc x y => exact absurd hc compactify_not_exc
    | ok v r =>
      obtain ⟨g, j1, j2⟩ := GrownTo.compact h hE hc
      obtain ⟨k1, k2, _⟩ := shiftPath_spec (i := i) (n := n) hE.srt w' c2 hc
      rw [k1] at e
      injection e with _ e
      rw [← e]
      exact ⟨g.trans h (.moved g.history k2), fun _ _ => ⟨j1, j2⟩⟩
  · rw [growPath_eq] at e
    split_ifs at e with c3
    · cases hc : compactifyWith E.guard E.srt E.σ s with
      | ub => rw [hc] at e; cases e
      | exc x y => exact absurd hc compactify_not_exc
      | ok v r =>
        rw [hc] at e
        obtain ⟨g, j1, j2⟩ := GrownTo.compact h hE hc
        have m := freshBuffer_ok g.history.made.wf (by rw [g.history.pre, hE.preBytes]) (Or.inr ⟨j1, j2⟩) hE.buffered e
        exact ⟨g.trans h (.moved g.history m), fun _ _ => ⟨m.jc.trans j1, m.jv.trans j2⟩⟩
    · have m := freshBuffer_ok w (by rw [h.pre, hE.preBytes]) hk hE.buffered e
      exact ⟨.moved h m, fun a b => ⟨m.jc.trans a, m.jv.trans b⟩⟩

/-- **C33 (failed growth).** A growth that throws leaves all fields as before. It throws `tuple_overflow` exactly if the content and the
deficit exceed 65534 units (or one of the requested numbers is out of all limits), and then the tuple is not touched at all. It
never throws `insufficient_space`. -/
theorem C33_failed {F : Fix} {sch : Option Schema} {s : RW} {E : Env} {S : Supply} {i n : Nat} (h : History F sch s) (hE : EnvOk E sch) :
    (∀ e t, manage E S i n s = .exc e t → GrownTo F sch s t ∧ (s.jc = 0 → s.jv = 0 → t = s) ∧
      (e = .tupleOverflow ∨ e = .tupleTooLarge ∨ e = .schemaBadDefinition ∨ e = .invalidArgument)) ∧
    ((∃ t, manage E S i n s = .exc .tupleOverflow t) ↔ 65534 < (s.tail - s.head - junkUnits s) + i + n ∨ 8191 < i ∨ 262136 < n) ∧
    (∀ t, manage E S i n s = .exc .tupleOverflow t → t = s) := by
  have main : ∀ e t, manage E S i n s = .exc e t → GrownTo F sch s t ∧ (s.jc = 0 → s.jv = 0 → t = s) ∧
      ((e = .tupleOverflow ∧ t = s ∧ (65534 < (s.tail - s.head - junkUnits s) + i + n ∨ 8191 < i ∨ 262136 < n)) ∨
        e = .tupleTooLarge ∨ e = .schemaBadDefinition ∨ e = .invalidArgument) := by
    intro e t he
    have hm : maxBytesNetto = 262136 := rfl
    have hmf : Audit.maxFields = 8191 := rfl
    have hju : junkUnits s = s.jv + s.jc := rfl
    unfold manage at he
    split_ifs at he with c1 c2
    · injection he with h1 h2
      subst h1 h2
      exact ⟨.refl h, fun _ _ => rfl, Or.inl ⟨rfl, rfl, by omega⟩⟩
    · cases hc : compactifyWith E.guard E.srt E.σ s with
      | ub => unfold shiftPath at he; rw [hc] at he; cases he
      | exc x y => exact absurd hc compactify_not_exc
      | ok v r =>
        obtain ⟨k1, _⟩ := shiftPath_spec (i := i) (n := n) hE.srt (by rw [hE.sigma]; exact h.made.wf) c2 hc
        rw [k1] at he
        cases he
    · rw [growPath_eq] at he
      split_ifs at he with c3
      · cases hc : compactifyWith E.guard E.srt E.σ s with
        | ub => rw [hc] at he; cases he
        | exc x y => exact absurd hc compactify_not_exc
        | ok v r =>
          rw [hc] at he
          obtain ⟨k1, k2⟩ := freshBuffer_exc hE.buffered he
          rw [k1]
          refine ⟨(GrownTo.compact h hE hc).1, fun a b => ?_, Or.inr k2⟩
          rw [compactify_clean a b] at hc
          injection hc with _ hc
          exact hc.symm
      · obtain ⟨k1, k2⟩ := freshBuffer_exc hE.buffered he
        rw [k1]
        exact ⟨.refl h, fun _ _ => rfl, Or.inr k2⟩
  refine ⟨fun e t he => ?_, ⟨fun ⟨t, he⟩ => ?_, fun hc => ⟨s, ?_⟩⟩, fun t he => ?_⟩
  · obtain ⟨k1, k2, k3 | k3⟩ := main e t he
    · exact ⟨k1, k2, Or.inl k3.1⟩
    · exact ⟨k1, k2, Or.inr k3⟩
  · obtain ⟨_, _, k3 | k3 | k3 | k3⟩ := main _ t he
    · exact k3.2.2
    all_goals cases k3
  · unfold manage
    have hm : maxBytesNetto = 262136 := rfl
    have hmf : Audit.maxFields = 8191 := rfl
    have hju : junkUnits s = s.jv + s.jc := rfl
    rw [if_pos (by omega)]
  · obtain ⟨_, _, k3 | k3 | k3 | k3⟩ := main _ t he
    · exact k3.2.1
    all_goals cases k3

/-! ## The retry loop -/

/-- The modification is of a loose field. -/
def OpLoose : Op → Prop
  | .set tag _ _ => isLoose tag = true
  | .insert _ _ _ => True
  | .erase tag => isLoose tag = true

/-- Either everything is repaired, or, for the code as it is, the tuple has no junk and the field is loose. -/
def GrowBenign (F : Fix) (E : Env) (s : RW) (op : Op) : Prop :=
  (F = .repaired ∧ E.keepJunk = true ∧ E.guard = true) ∨ (s.jc = 0 ∧ s.jv = 0 ∧ OpLoose op)

theorem benign_clean {F : Fix} {s : RW} {g : Genus} {v : Val} (h1 : s.jc = 0) (h2 : s.jv = 0) : Benign F s g v := by
  refine ⟨Or.inr fun n _ _ x hx => ?_, Or.inr (Or.inr (Or.inl h2))⟩
  unfold lookupBest at hx
  rw [if_pos (Or.inl (by omega))] at hx
  cases hx

theorem GrowBenign.step {F : Fix} {E : Env} {s : RW} {op : Op} (h : GrowBenign F E s op) : StepBenign F s op := by
  rcases h with ⟨rfl, _⟩ | ⟨h1, h2, h3⟩
  · exact stepBenign_repaired _ _
  · cases op with
    | set tag g v => exact ⟨benign_clean h1 h2, Or.inr (Or.inr h3)⟩
    | insert tag g v => exact benign_clean h1 h2
    | erase tag => exact Or.inr (Or.inr h3)

theorem GrowBenign.junk {F : Fix} {E : Env} {s : RW} {op : Op} (h : GrowBenign F E s op) : E.keepJunk = true ∨ (s.jc = 0 ∧ s.jv = 0) :=
  h.imp (fun k => k.2.1) fun k => ⟨k.1, k.2.1⟩

theorem GrowBenign.compact {F : Fix} {E : Env} {s : RW} {op : Op} (h : GrowBenign F E s op) : CompactOk E s :=
  h.imp (fun k => k.2.2) fun k => ⟨Or.inl k.1, Or.inl k.2.1⟩

theorem GrowBenign.next {F : Fix} {E : Env} {s t : RW} {op : Op} (h : GrowBenign F E s op) (hj : s.jc = 0 → s.jv = 0 → t.jc = 0 ∧ t.jv = 0) :
    GrowBenign F E t op := by
  rcases h with h | ⟨h1, h2, h3⟩
  · exact Or.inl h
  · exact Or.inr ⟨(hj h1 h2).1, (hj h1 h2).2, h3⟩

theorem managed_ub {α : Type} {E : Env} {S : Nat → Supply} {f : RW → Out α} {k : Nat} {s : RW} (h : f s = .ub) :
    managed E S f (k + 1) s = some .ub := by
  unfold managed; rw [h]
theorem managed_done {α : Type} {E : Env} {S : Nat → Supply} {f : RW → Out α} {k : Nat} {s t : RW} {a : α} (h : f s = .ok a t) :
    managed E S f (k + 1) s = some (.ok a t) := by
  unfold managed; rw [h]
theorem managed_other {α : Type} {E : Env} {S : Nat → Supply} {f : RW → Out α} {k : Nat} {s t : RW} {e : Exc} (h : f s = .exc e t)
    (he : ∀ i n, e ≠ .insufficientSpace i n) : managed E S f (k + 1) s = some (.exc e t) := by
  unfold managed; rw [h]
  cases e <;> first | rfl | exact absurd rfl (he _ _)
theorem managed_deficit {α : Type} {E : Env} {S : Nat → Supply} {f : RW → Out α} {k i n : Nat} {s t : RW} (h : f s = .exc (.insufficientSpace i n) t) :
    managed E S f (k + 1) s = match manage E (S k) i n t with
      | .ok _ t => managed E S f k t
      | .exc e t => some (.exc e t)
      | .ub => some .ub := by
  conv_lhs => unfold managed
  rw [h]
  rfl

theorem getPreplacedFixed_kept {σ : Sch} {s t : RW} {tag : Nat} {g : Genus} (h : PreplacedKept σ s t 0 0) (hs : FixedSlot σ s.pre tag g) :
    getPreplacedFixed t tag g = getPreplacedFixed s tag g := by
  have : t.mem.readBytes (4 * t.pivot + tag2offset tag) g.preplacedBytes = s.mem.readBytes (4 * s.pivot + tag2offset tag) g.preplacedBytes := by
    unfold Memory.readBytes
    refine List.map_congr_left fun i hi => ?_
    have hi := List.mem_range.1 hi
    have h1 := hs.1
    have := h.bytes (tag2offset tag + i) (by omega) (by omega)
    rw [Nat.add_assoc, Nat.add_assoc]
    exact this
  unfold getPreplacedFixed
  rw [this]

/-- **C33 (the retry loop, partial).** Whatever the number of attempts: if a managed modification succeeds, it has done exactly what
the modification does on a tuple with the same fields; if it throws, all fields are as before, and it does not throw
`insufficient_space`. Missing for the code as it is: tuples with junk, and preplaced fields (`C33_junk_refuted`, `C33_drop_refuted`). -/
theorem C33_loop_partial {F : Fix} {sch : Option Schema} {E : Env} {S : Nat → Supply} {op : Op} (k : Nat) {s : RW} (h : History F sch s) (hE : EnvOk E sch)
    (ho : OpOk (schOf sch) s.pre op) (hb : GrowBenign F E s op) :
    (∀ t, managed E S (fun s => step F s op) k s = some (.ok () t) →
      ∃ u, GrownTo F sch s u ∧ StepBenign F u op ∧ step F u op = .ok () t ∧ History F sch t) ∧
    (∀ e u, managed E S (fun s => step F s op) k s = some (.exc e u) → GrownTo F sch s u ∧ ∀ i n, e ≠ .insufficientSpace i n) := by
  induction k generalizing s with
  | zero => exact ⟨fun t e => (by cases e), fun e u he => (by cases he)⟩
  | succ k ih =>
    cases hs : step F s op with
    | ub =>
      rw [managed_ub hs]
      exact ⟨fun t e => (by cases e), fun e u he => (by cases he)⟩
    | ok v r =>
      rw [managed_done hs]
      refine ⟨fun t e => ?_, fun e u he => (by cases he)⟩
      have e : r = t := by injection e with e; injection e
      subst e
      have hk := step_spec h.made.wf op ho hb.step
      rw [hs] at hk
      exact ⟨s, .refl h, hb.step, hs, h.schema, h.made.step ho hb.step (Or.inl ⟨_, hs⟩), hk.pre.trans h.pre⟩
    | exc x r =>
      have hr := C13_failed_partial h.made ho hb.step hs
      subst hr
      by_cases hx : ∃ i n, x = .insufficientSpace i n
      · obtain ⟨i, n, rfl⟩ := hx
        rw [managed_deficit hs]
        cases hm : manage E (S k) i n r with
        | ub => exact ⟨fun t e => (by cases e), fun e u he => (by cases he)⟩
        | exc y w =>
          refine ⟨fun t e => (by cases e), fun e u he => ?_⟩
          have he : Out.exc y w = Out.exc e u := Option.some.inj he
          injection he with h1 h2
          subst h1 h2
          obtain ⟨k1, _, k3⟩ := (C33_failed h hE).1 _ _ hm
          refine ⟨k1, fun a b hab => ?_⟩
          rw [hab] at k3
          rcases k3 with k3 | k3 | k3 | k3 <;> cases k3
        | ok v w =>
          obtain ⟨k1, k2⟩ := C33_content_partial h hE hb.junk hm
          obtain ⟨j1, j2⟩ := ih k1.history (by rw [k1.history.pre.trans h.pre.symm]; exact ho) (hb.next k2)
          refine ⟨fun t e => ?_, fun e u he => ?_⟩
          · obtain ⟨u, m1, m2⟩ := j1 t e
            exact ⟨u, k1.trans h m1, m2⟩
          · obtain ⟨m1, m2⟩ := j2 e u he
            exact ⟨k1.trans h m1, m2⟩
      · have hne : ∀ i n, x ≠ .insufficientSpace i n := fun i n hh => hx ⟨i, n, hh⟩
        rw [managed_other hs hne]
        refine ⟨fun t e => (by cases e), fun e u he => ?_⟩
        have he : Out.exc x r = Out.exc e u := Option.some.inj he
        injection he with h1 h2
        subst h1 h2
        exact ⟨.refl h, hne⟩

/-- **C33 (a managed assignment, partial).** After a managed assignment the field reads back, and all other fields are as before. -/
theorem C33_set_partial {F : Fix} {sch : Option Schema} {E : Env} {S : Nat → Supply} {k tag : Nat} {g : Genus} {v : Val} {s t : RW} (h : History F sch s)
    (hE : EnvOk E sch) (ho : OpOk (schOf sch) s.pre (.set tag g v)) (hb : GrowBenign F E s (.set tag g v)) (hl : isLoose tag = true)
    (hd : ¬ dropped tag g v) (hm : managed E S (fun s => step F s (.set tag g v)) k s = some (.ok () t)) :
    (g ≠ .varbin → getLoose t tag g = .ok (some v)) ∧
    (∃ rest, fieldsOf t = (tag % 65536, some v) ::ₘ rest ∧
      (fieldsOf s = rest ∧ (∀ f ∈ fieldsOf s, f.1 ≠ tag % 65536) ∨ ∃ old, fieldsOf s = (tag % 65536, old) ::ₘ rest)) ∧
    LooseKept s t (fun w => w ≠ tag % 65536) ∧
    (∀ tag g, FixedSlot (schOf sch) s.pre tag g → getPreplacedFixed t tag g = getPreplacedFixed s tag g) ∧
    (∀ k g, schOf sch k = some g → k < s.pre → valueAt g t.mem (t.pivot + k) = valueAt g s.mem (s.pivot + k)) := by
  obtain ⟨u, k1, k2, k3, k4⟩ := (C33_loop_partial k h hE ho hb).1 t hm
  obtain ⟨j1, _, j2, j3, j4⟩ := C09_set_partial k1.history.made hl ho.2 k2 k3 hd
  have hpre : u.pre = s.pre := k1.history.pre.trans h.pre.symm
  rw [k1.same.stored] at j2
  refine ⟨j1, j2, ⟨fun w hw => ?_, fun tag' g' h1 h2 h3 => ?_⟩, fun tag' g' hs => ?_, fun k g hσ hk => ?_⟩
  · rw [j3.stored w hw, k1.same.stored]
  · rw [j3.read tag' g' h1 h2 h3, k1.same.loose tag' g' h1 h2]
  · rw [← k1.same.preFixed tag' g' hs]
    exact getPreplacedFixed_kept j4 (hpre ▸ hs)
  · rw [← k1.same.preStored k g hσ hk]
    exact j4.stretchy k g hσ (hpre ▸ hk) (by omega)

theorem GrownTo.bigHole {F : Fix} {sch : Option Schema} {s u : RW} {op : Op} (k : GrownTo F sch s u) (ho : OpOk (schOf sch) s.pre op)
    (hb : BigHole u op) : BigHole s op := by
  cases op with
  | set tag g v => exact Nat.lt_of_lt_of_le hb (k.freed tag ho.1)
  | insert tag g v => exact hb.elim
  | erase tag => exact Nat.lt_of_lt_of_le hb (k.freed tag ho)

/-- Three attempts suffice for a modification whose only failure is the lack of space. -/
theorem completes {F : Fix} {sch : Option Schema} {E : Env} {S : Nat → Supply} {op : Op} {n : Nat} {s : RW} (h : History F sch s) (hE : EnvOk E sch)
    (ho : OpOk (schOf sch) s.pre op) (hb : GrowBenign F E s op) (hd : preBytesOf sch = 0 ∨ preBytesOf sch + 8 * (n + s.lim) + 168 ≤ 262136)
    (hidx : s.pivot - s.head ≤ 8190) (hpay : s.tail - s.pivot + n ≤ 57343) (hsmall : ¬ BigHole s op) (hbuf : ∀ k, E.overhead + (S k).extra ≤ 229372)
    (hx : ∀ u, GrownTo F sch s u → StepBenign F u op →
      (∀ e s', step F u op = .exc e s' → ∃ i, e = .insufficientSpace i n ∧ i ≤ 1 ∧ (i = 0 → u.lim - u.tail < n)) ∧
      (n ≤ u.lim - u.tail → 0 < u.head → ∃ t, step F u op = .ok () t)) :
    ∃ t, managed E S (fun s => step F s op) 3 s = some (.ok () t) := by
  have hsame : ∀ u, GrownTo F sch s u → u.pre = s.pre := fun u k => k.history.pre.trans h.pre.symm
  have hop : ∀ u, GrownTo F sch s u → OpOk (schOf sch) u.pre op := fun u k => by rw [hsame u k]; exact ho
  have hub : ∀ u, GrownTo F sch s u → GrowBenign F E u op → step F u op ≠ .ub := fun u k b e => by
    have hk := step_spec k.history.made.wf op (hop u k) b.step
    rw [e] at hk
    exact hsmall (k.bigHole ho hk)
  have one : ∀ u, GrownTo F sch s u → GrowBenign F E u op → ∀ i, i ≤ 1 → ∀ k,
      (i + n ≤ u.lim - (u.tail - u.head) ∨ preBytesOf sch = 0 ∨ preBytesOf sch + 8 * (n + u.lim) + 168 ≤ 262136) →
      ∃ t, manage E (S k) i n u = .ok () t ∧ GrownTo F sch s t ∧ GrowBenign F E t op ∧ i ≤ t.head ∧ n ≤ t.lim - t.tail ∧
        (preBytesOf sch = 0 ∨ preBytesOf sch + 8 * (n + u.lim) + 168 ≤ 262136 →
          1 + n ≤ t.lim - (t.tail - t.head) ∨ preBytesOf sch = 0 ∨ preBytesOf sch + 8 * (n + t.lim) + 168 ≤ 262136) := by
    intro u g b i hi k hr
    have a1 := g.payload
    have a2 := g.index
    have a3 := hsame u g
    by_cases c : i + n ≤ u.jv + u.jc + (u.lim - (u.tail - u.head))
    · obtain ⟨t, e, g', k1, k2, k3, k4⟩ := C33_shift_partial (S := S k) g.history hE (by omega) c b.compact
      have k4 : t.jv + t.jc = 0 := k4
      have k2 : n ≤ t.lim - t.tail := k2
      have k3 : t.lim = u.lim := by
        unfold capacity units2bytes at k3
        rw [Nat.shiftLeft_eq, Nat.shiftLeft_eq] at k3
        omega
      exact ⟨t, e, g.trans h g', b.next fun _ _ => ⟨by omega, by omega⟩, k1, k2, fun q => by omega⟩
    · have hd' : preBytesOf sch = 0 ∨ preBytesOf sch + 8 * (n + (u.lim - u.pivot)) + 168 ≤ 262136 := by omega
      obtain ⟨t, e, g', k1, k2, k3, k4⟩ := C33_grow_partial (S := S k) g.history hE c b.compact (b.junk.imp id Or.inl) hd'
        (by omega) (by omega) (hbuf k)
      refine ⟨t, e, g.trans h g', b.next k3, k1, k2, fun q => ?_⟩
      rcases q with q | q
      · exact Or.inr (Or.inl q)
      · exact Or.inl (k4 (by omega) (by omega))
  -- the first attempt
  have fails : ∀ u, GrownTo F sch s u → GrowBenign F E u op → (∃ t, step F u op = .ok () t) ∨
      ∃ i, step F u op = .exc (.insufficientSpace i n) u ∧ i ≤ 1 ∧ (i = 0 → u.lim - u.tail < n) := by
    intro u g b
    cases hs : step F u op with
    | ub => exact absurd hs (hub u g b)
    | ok v t => exact Or.inl ⟨t, rfl⟩
    | exc e s' =>
      have := C13_failed_partial g.history.made (hop u g) b.step hs
      obtain ⟨i, e1, e2, e3⟩ := (hx u g b.step).1 e s' hs
      rw [this, e1]
      exact Or.inr ⟨i, rfl, e2, e3⟩
  rcases fails s (.refl h) hb with ⟨t, e⟩ | ⟨i, e, e1, e2⟩
  · exact ⟨t, managed_done e⟩
  obtain ⟨u, m, g, b, k1, k2, k3⟩ := one s (.refl h) hb i e1 2 (Or.inr hd)
  rcases fails u g b with ⟨t, e'⟩ | ⟨i', e', e1', e2'⟩
  · exact ⟨t, by rw [managed_deficit e, m]; exact managed_done e'⟩
  have hi' : i' = 1 := by
    by_contra hc
    have := e2' (by omega)
    omega
  subst hi'
  obtain ⟨u', m', g', b', k1', k2', _⟩ := one u g b 1 le_rfl 1 (k3 hd)
  obtain ⟨t, e''⟩ := (hx u' g' b'.step).2 k2' k1'
  exact ⟨t, by
    rw [managed_deficit e, m]
    show managed _ _ _ 2 u = _
    rw [managed_deficit e', m']
    exact managed_done e''⟩

/-- **C33 (growth completes an assignment, partial).** A tuple with at most 8190 index entries, whose preplaced fields, payload and the new value together have at most
57343 units, and whose junk and old values of the field have at most 2047 units: the assignment of the value completes with at most two
growths. If there are preplaced fields, twice the capacity and the value together must be below the size limit. Missing: larger
tuples (`C33_overlap_refuted`, `C12_big_hole_refuted`, `C33_preplaced_refuted`). -/
theorem C33_set_completes_partial {F : Fix} {sch : Option Schema} {E : Env} {S : Nat → Supply} {tag n : Nat} {g : Genus} {v : Val} {s : RW}
    (h : History F sch s) (hE : EnvOk E sch) (hl : isLoose tag = true) (hc : isLooseCollection tag = false) (hg : tag2genus tag = g) (hv : v.fits g = true)
    (hb : GrowBenign F E s (.set tag g v)) (hd : preBytesOf sch = 0 ∨ preBytesOf sch + 8 * (n + s.lim) + 168 ≤ 262136)
    (hidx : s.pivot - s.head ≤ 8190) (hu : unitsFor g v = some n) (hpay : s.tail - s.pivot + n ≤ 57343) (hsmall : s.jv + occupied s tag ≤ 2047)
    (hbuf : ∀ k, E.overhead + (S k).extra ≤ 229372) :
    ∃ t, managed E S (fun s => step F s (.set tag g v)) 3 s = some (.ok () t) := by
  have ht : ∀ pre, TokenOk (schOf sch) pre tag := fun pre =>
    ⟨by rw [hg]; exact fits_not_hole hv, fun k => by rw [preplaced_not_loose, hl] at k; cases k⟩
  refine completes h hE ⟨ht _, hv⟩ hb hd hidx hpay (Nat.not_lt.2 hsmall) hbuf fun u k b => ?_
  obtain ⟨c1, c2⟩ := C15_set_partial k.history.made hv hg hc (ht _) b
  refine ⟨fun e s' he => ?_, fun h1 h2 => c2 n hu h1 h2 ?_⟩
  · rcases c1 e s' he with h1 | ⟨m, h1, h2, _⟩ | ⟨h1, _⟩
    · rw [hu] at h1; cases h1
    · rw [hu] at h1
      rw [Option.some.inj h1]
      exact h2
    · rw [hl] at h1; cases h1
  · exact (k.freed tag (ht _)).trans hsmall

/-- **C33 (growth completes an insertion, partial).** The same for insertions into collections. -/
theorem C33_insert_completes_partial {F : Fix} {sch : Option Schema} {E : Env} {S : Nat → Supply} {tag n : Nat} {g : Genus} {v : Val} {s : RW}
    (h : History F sch s) (hE : EnvOk E sch) (hc : isLooseCollection tag = true) (hg : tag2genus tag = g) (hv : v.fits g = true)
    (hb : GrowBenign F E s (.insert tag g v)) (hd : preBytesOf sch = 0 ∨ preBytesOf sch + 8 * (n + s.lim) + 168 ≤ 262136)
    (hidx : s.pivot - s.head ≤ 8190) (hu : unitsFor g v = some n) (hpay : s.tail - s.pivot + n ≤ 57343) (hbuf : ∀ k, E.overhead + (S k).extra ≤ 229372) :
    ∃ t, managed E S (fun s => step F s (.insert tag g v)) 3 s = some (.ok () t) := by
  have hl : isLoose tag = true := by
    unfold isLooseCollection at hc
    unfold isLoose
    have k := of_decide_eq_true hc
    have : looseThreshold ≤ collectionThreshold := by decide
    exact decide_eq_true (by omega)
  have ht : ∀ pre, TokenOk (schOf sch) pre tag := fun pre =>
    ⟨by rw [hg]; exact fits_not_hole hv, fun k => by rw [preplaced_not_loose, hl] at k; cases k⟩
  refine completes h hE ⟨ht _, hv⟩ hb hd hidx hpay (fun k => k) hbuf fun u k b => ?_
  obtain ⟨c1, c2⟩ := C15_insert_partial k.history.made hv hg hc b
  refine ⟨fun e s' he => ?_, fun h1 h2 => ?_⟩
  · have he : insertField F u tag g v = .exc e s' := by
      change (insertField F u tag g v).bind _ = _ at he
      cases hi : insertField F u tag g v with
      | ok r w => rw [hi] at he; cases he
      | exc x w => rw [hi] at he; injection he with h1 h2; rw [h1, h2]
      | ub => rw [hi] at he; cases he
    rcases c1 e s' he with h1 | ⟨m, h1, h2, _⟩
    · rw [hu] at h1; cases h1
    · rw [hu] at h1
      rw [Option.some.inj h1]
      exact h2
  · obtain ⟨r, w, e⟩ := c2 n hu h1 h2
    refine ⟨w, ?_⟩
    show (insertField F u tag g v).bind _ = _
    rw [e]
    rfl

/-- **C33 (growth completes an assignment of a preplaced field, partial).** The same for preplaced fields of variable size, also when the value is
dropped. Missing: as above; for the code as it is `C33_drop_refuted`. -/
theorem C33_preplaced_completes_partial {F : Fix} {sch : Option Schema} {E : Env} {S : Nat → Supply} {tag n : Nat} {g : Genus} {v : Val} {s : RW}
    (h : History F sch s) (hE : EnvOk E sch) (hl : isLoose tag = false) (ht : TokenOk (schOf sch) s.pre tag) (hg : tag2genus tag = g) (hv : v.fits g = true)
    (hb : GrowBenign F E s (.set tag g v)) (hd : preBytesOf sch = 0 ∨ preBytesOf sch + 8 * (n + s.lim) + 168 ≤ 262136)
    (hidx : s.pivot - s.head ≤ 8190) (hu : unitsFor g v = some n) (hpay : s.tail - s.pivot + n ≤ 57343) (hsmall : s.jv + occupied s tag ≤ 2047)
    (hbuf : ∀ k, E.overhead + (S k).extra ≤ 229372) :
    ∃ t, managed E S (fun s => step F s (.set tag g v)) 3 s = some (.ok () t) := by
  have hc : isLooseCollection tag = false := by
    unfold isLoose at hl
    unfold isLooseCollection
    have k := of_decide_eq_false hl
    have : looseThreshold ≤ collectionThreshold := by decide
    exact decide_eq_false (by omega)
  have ht' : ∀ u, GrownTo F sch s u → TokenOk (schOf sch) u.pre tag := fun u k => by rw [k.history.pre.trans h.pre.symm]; exact ht
  by_cases hdr : dropped tag g v
  · refine completes (n := 0) h hE ⟨ht, hv⟩ hb (by omega) hidx (by omega) (Nat.not_lt.2 hsmall) hbuf fun u k b => ?_
    obtain ⟨c1, c2⟩ := C15_set_partial k.history.made hv hg hc (ht' u k) b
    refine ⟨fun e s' he => ?_, fun h1 h2 => ?_⟩
    · rcases c1 e s' he with h1 | ⟨m, h1, h2, _, h3⟩ | ⟨h1, _, h3, _⟩
      · rw [hu] at h1; cases h1
      · exact absurd hdr (h3 hl)
      · exact ⟨1, h3, le_rfl, fun h => by cases h⟩
    · have hk := step_spec k.history.made.wf (.set tag g v) ⟨ht' u k, hv⟩ b
      cases hs : step F u (.set tag g v) with
      | ok x t => exact ⟨t, rfl⟩
      | ub =>
        rw [hs] at hk
        exact absurd hk (Nat.not_lt.2 ((k.freed tag ht).trans hsmall))
      | exc e t =>
        rcases c1 e t hs with h1 | ⟨m, h1, h2, _, h3⟩ | ⟨h1, _, h3, h4⟩
        · rw [hu] at h1; cases h1
        · exact absurd hdr (h3 hl)
        · rcases h4 with ⟨h4, _⟩ | ⟨h4, _⟩ <;> omega
  · refine completes h hE ⟨ht, hv⟩ hb hd hidx hpay (Nat.not_lt.2 hsmall) hbuf fun u k b => ?_
    obtain ⟨c1, c2⟩ := C15_set_partial k.history.made hv hg hc (ht' u k) b
    refine ⟨fun e s' he => ?_, fun h1 h2 => c2 n hu h1 h2 ?_⟩
    · rcases c1 e s' he with h1 | ⟨m, h1, h2, _⟩ | ⟨_, h1, _⟩
      · rw [hu] at h1; cases h1
      · rw [hu] at h1
        rw [Option.some.inj h1]
        exact h2
      · exact absurd h1 hdr
    · exact (k.freed tag ht).trans hsmall

/-! ## The defects, and concrete cases -/

/-- A concrete `std::sort`. -/
def itemSort : List Item → List Item := List.insertionSort fun a b => a.start ≤ b.start

theorem itemSort_ok : Sorter itemSort := fun l =>
  ⟨List.perm_insertionSort _ l, by
    haveI : Std.Total (fun a b : Item => a.start ≤ b.start) := ⟨fun a b => Nat.le_total _ _⟩
    haveI : IsTrans Item (fun a b : Item => a.start ≤ b.start) := ⟨fun a b c h1 h2 => Nat.le_trans h1 h2⟩
    exact List.pairwise_insertionSort _ l⟩

/-- The code as it is. -/
def codeEnv : Env := ⟨44, 10, false, false, false, itemSort, schOf none, 0, []⟩
def zeroSupply : Supply := ⟨fun _ => .zero, 0⟩

theorem codeEnv_ok : EnvOk codeEnv none := ⟨rfl, rfl, itemSort_ok, rfl⟩

/-- **C33 (refuted: the new buffer forgets the junk).** Three nested tuples, one erased; the growth into a new buffer does not copy
the junk counters, so that the tuple then reports one field more than it has. -/
theorem C33_junk_refuted {F : Fix} (hF : F = .code ∨ F = .repaired) : ∃ s t, History F none s ∧ manage codeEnv zeroSupply 1 12 s = .ok () t ∧
    looseCount s = 2 ∧ (liveSet t).card = 2 ∧ looseCount t = 3 := by
  have ho : ∀ op ∈ [setN 1 3, setN 2 4, setN 3 2, eraseN 2], OpOk (schOf none) 0 op := opOk_of (by decide +kernel)
  have hb : RunBenign F (fresh 3 14) [setN 1 3, setN 2 4, setN 3 2, eraseN 2] := runBenign_of (by rcases hF with rfl | rfl <;> decide +kernel)
  obtain ⟨s, hr, hp⟩ := run_decide (F := F) (s := fresh 3 14) (ops := [setN 1 3, setN 2 4, setN 3 2, eraseN 2])
    (fun s => decide (looseCount s = 2) && match manage codeEnv zeroSupply 1 12 s with
      | .ok _ t => decide ((liveSet t).card = 2 ∧ looseCount t = 3)
      | _ => false) (by rcases hF with rfl | rfl <;> decide +kernel)
  rw [Bool.and_eq_true] at hp
  obtain ⟨hp1, hp⟩ := hp
  have hH : History F none s := .of_run (mem := fun _ => .zero) (items := 3) (lim := 14) (image := []) (fun S h => (by cases h)) rfl
    (by decide) (by decide) (fun k g h => (by cases h)) ho hb hr
  cases e : manage codeEnv zeroSupply 1 12 s with
  | ub => rw [e] at hp; cases hp
  | exc x y => rw [e] at hp; cases hp
  | ok u t =>
    rw [e] at hp
    obtain ⟨q1, q2⟩ := of_decide_eq_true hp
    exact ⟨s, t, hH, e, of_decide_eq_true hp1, q1, q2⟩

/-- **C33 (refuted: erasing a preplaced field damages another one).** A preplaced and a loose nested tuple, no free index slot. Unsetting
the preplaced one counts its units as junk and then throws for lack of an index slot. The growth cuts the end of the
payload by that junk: after the managed unset, the loose nested tuple is not what it was. -/
theorem C33_drop_refuted : ∃ s t, Reachable .code onePre s ∧
    managed { codeEnv with σ := onePre, preBytes := 4, image := [.zero] } (fun _ => zeroSupply)
      (fun s => step .code s (.set preTok .nested (.nested none))) 3 s = some (.ok () t) ∧
    getLoose s (nst 1) .nested = .ok (some (nstVal 4 1)) ∧ getLoose t (nst 1) .nested = .ok (some (nstVal 4 0)) := by
  have tok : TokenOk onePre 1 preTok := ⟨by decide +kernel, fun _ => by
    rw [if_neg (by decide +kernel)]
    exact ⟨by decide +kernel, by decide +kernel⟩⟩
  have ho : ∀ op ∈ [Op.set preTok .nested (nstVal 3 5), setN 1 4], OpOk onePre 1 op := by
    intro op hop
    rw [List.mem_cons, List.mem_singleton] at hop
    rcases hop with rfl | rfl
    · exact ⟨tok, by decide +kernel⟩
    · exact ⟨⟨by decide +kernel, fun h => absurd h (by decide +kernel)⟩, by decide +kernel⟩
  have hb : RunBenign .code (create (fun _ => .zero) 1 1 40 [.zero]) [Op.set preTok .nested (nstVal 3 5), setN 1 4] :=
    runBenign_of (by decide +kernel)
  obtain ⟨s, hr, hp⟩ := run_decide (F := .code) (s := create (fun _ => .zero) 1 1 40 [.zero]) (ops := [Op.set preTok .nested (nstVal 3 5), setN 1 4])
    (fun s => decide (getLoose s (nst 1) .nested = .ok (some (nstVal 4 1))) &&
      match managed { codeEnv with σ := onePre, preBytes := 4, image := [.zero] } (fun _ => zeroSupply)
        (fun s => step .code s (.set preTok .nested (.nested none))) 3 s with
      | some (.ok _ t) => decide (getLoose t (nst 1) .nested = .ok (some (nstVal 4 0)))
      | _ => false) (by decide +kernel)
  rw [Bool.and_eq_true] at hp
  obtain ⟨hp1, hp⟩ := hp
  have hR := onePre_fresh.reachable ho hb hr
  cases e : managed { codeEnv with σ := onePre, preBytes := 4, image := [.zero] } (fun _ => zeroSupply)
      (fun s => step .code s (.set preTok .nested (.nested none))) 3 s with
  | none => rw [e] at hp; cases hp
  | some o =>
    cases o with
    | ub => rw [e] at hp; cases hp
    | exc x y => rw [e] at hp; cases hp
    | ok u t =>
      rw [e] at hp
      exact ⟨s, t, hR, e, of_decide_eq_true hp1, of_decide_eq_true hp⟩

/-- **C33 (refuted: `realloc`).** A tuple without a buffer object: after the growth the end of the buffer is far outside. -/
theorem C33_realloc_refuted {F : Fix} (hF : F = .code ∨ F = .repaired) : ∃ s t, History F none s ∧
    manage { codeEnv with legacy := true } zeroSupply 1 20 s = .ok () t ∧ capacity s = 32 ∧ t.lim = 4294967286 := by
  have ho : ∀ op ∈ [setN 1 3], OpOk (schOf none) 0 op := opOk_of (by decide +kernel)
  have hb : RunBenign F (fresh 1 8) [setN 1 3] := runBenign_of (by rcases hF with rfl | rfl <;> decide +kernel)
  obtain ⟨s, hr, hp⟩ := run_decide (F := F) (s := fresh 1 8) (ops := [setN 1 3])
    (fun s => decide (capacity s = 32) && match manage { codeEnv with legacy := true } zeroSupply 1 20 s with
      | .ok _ t => decide (t.lim = 4294967286)
      | _ => false) (by rcases hF with rfl | rfl <;> decide +kernel)
  rw [Bool.and_eq_true] at hp
  obtain ⟨hp1, hp⟩ := hp
  have hH : History F none s := .of_run (mem := fun _ => .zero) (items := 1) (lim := 8) (image := []) (fun S h => (by cases h)) rfl
    (by decide) (by decide) (fun k g h => (by cases h)) ho hb hr
  cases e : manage { codeEnv with legacy := true } zeroSupply 1 20 s with
  | ub => rw [e] at hp; cases hp
  | exc x y => rw [e] at hp; cases hp
  | ok u t =>
    rw [e] at hp
    exact ⟨s, t, hH, e, of_decide_eq_true hp1, of_decide_eq_true hp⟩

/-- **C33 (refuted: a growth makes `reset` impossible).** One field in a large buffer; a growth by one index slot moves the content to
the middle of the buffer, and after that `reset` throws `tuple_bad`. -/
theorem C33_reset_refuted {F : Fix} (hF : F = .code ∨ F = .repaired) : ∃ s t, History F none s ∧ manage codeEnv zeroSupply 1 0 s = .ok () t ∧
    (∃ r, reset s [] = .ok r) ∧ reset t [] = .error .tupleBad := by
  have ho : ∀ op ∈ [setN 1 2], OpOk (schOf none) 0 op := opOk_of (by decide +kernel)
  have hb : RunBenign F (fresh 1 60000) [setN 1 2] := runBenign_of (by rcases hF with rfl | rfl <;> decide +kernel)
  obtain ⟨s, hr, hp⟩ := run_decide (F := F) (s := fresh 1 60000) (ops := [setN 1 2])
    (fun s => (match reset s [] with | .ok _ => true | _ => false) && match manage codeEnv zeroSupply 1 0 s with
      | .ok _ t => (match reset t [] with | .error .tupleBad => true | _ => false)
      | _ => false) (by rcases hF with rfl | rfl <;> decide +kernel)
  rw [Bool.and_eq_true] at hp
  obtain ⟨hp1, hp⟩ := hp
  have hH : History F none s := .of_run (mem := fun _ => .zero) (items := 1) (lim := 60000) (image := []) (fun S h => (by cases h)) rfl
    (by decide) (by decide) (fun k g h => (by cases h)) ho hb hr
  cases e : manage codeEnv zeroSupply 1 0 s with
  | ub => rw [e] at hp; cases hp
  | exc x y => rw [e] at hp; cases hp
  | ok u t =>
    rw [e] at hp
    dsimp only at hp
    refine ⟨s, t, hH, e, ?_, ?_⟩
    · cases k : reset s [] with
      | ok r => exact ⟨r, rfl⟩
      | error x => rw [k] at hp1; cases hp1
    · cases k : reset t [] with
      | ok r => rw [k] at hp; cases hp
      | error x =>
        rw [k] at hp
        cases x <;> first | rfl | cases hp

/-- **C33 (refuted: preplaced fields near a quarter of the limit).** A tuple with one preplaced field and a buffer of 20000 units, otherwise
empty: a growth by 20001 units throws `tuple_too_large`, although the result is far below the limit of 65534 units. Without
preplaced fields the same growth succeeds. -/
theorem C33_preplaced_refuted {F : Fix} : ∃ s, History F (some oneStretchy) s ∧ s.tail - s.head = 1 ∧
    ∀ srt S, manage { codeEnv with σ := schOf (some oneStretchy), preBytes := 4, image := [.zero], srt := srt } S 1 20001 s = .exc .tupleTooLarge s := by
  refine ⟨create (fun _ => .zero) 1 1 20000 [.zero], .of_run (mem := fun _ => .zero) (items := 1) (lim := 20000) (image := [.zero]) (ops := [])
    (fun S h => ?_) (by decide +kernel) (by decide) (by decide) (fun k g h hk => ?_) (fun _ h => (by cases h)) trivial rfl, rfl, fun srt S => ?_⟩
  · injection h with h
    rw [← h]; exact oneStretchy_ok
  · have : k = 0 := by have hk : k < 1 := hk; omega
    subst this; rfl
  · unfold manage
    rw [if_neg (by decide +kernel), if_neg (by decide +kernel)]
    rw [growPath_eq, if_neg (by decide +kernel)]
    show freshBuffer { codeEnv with σ := schOf (some oneStretchy), preBytes := 4, image := [.zero], srt := srt } S 1 20001
      (create (fun _ => .zero) 1 1 20000 [.zero]) = _
    refine freshBuffer_fails ?_
    rfl

theorem overlap_at {s : RW} {E : Env} {S : Supply} (h1 : s.head = 0) (h2 : s.pivot = 1) (h3 : s.tail = 65532) (h4 : s.lim = 65532) (h5 : s.jc = 0)
    (h6 : s.jv = 0) (e1 : E.overhead = 44) (e2 : E.preBytes = 0) (e3 : E.legacy = false) (hx : S.extra ≤ 229328) : manage E S 1 0 s = .ub := by
  unfold manage
  rw [growPath_eq, h1, h3, h4, h5, h6, if_neg (by decide), if_neg (by decide), if_neg (by decide)]
  show freshBuffer E S 1 0 s = .ub
  unfold freshBuffer
  have g1 : growthIndex s 1 = 4 := by
    unfold growthIndex
    rw [h1, h2]; rfl
  have g2 : growthData s 0 = 262136 := by
    unfold growthData
    rw [h2, h3, h4]; rfl
  rw [g1, g2, e1, e2, show estimate 44 4 262136 0 false = .ok 262196 from rfl]
  simp only []
  rw [e3, if_neg (by decide), show granulate 44 0 262196 scales = .ok 294944 from rfl]
  simp only []
  have hb : bufLimit = 524272 := rfl
  have hc : construct 44 S.mem (294944 + S.extra) 4 0 E.image = .ok (create S.mem 4 0 (min maxUnitsNetto ((294944 + S.extra - 44) / 4)) E.image) := by
    unfold construct
    rw [show estimate 44 4 0 0 false = .ok 60 from rfl]
    exact if_neg (by omega)
  unfold transfer
  rw [e1, e2, hc]
  simp only []
  rw [if_pos]
  right
  show min 65534 ((294944 + S.extra - 44) / 4) < 4 + (s.tail - s.pivot)
  rw [h2, h3]
  omega

/-- **C33 (refuted: the content does not fit the new buffer).** One field of 65531 units in a full buffer; room for one more index slot
is within the limits, but the new buffer reserves four index slots, and the payload is copied beyond its end. -/
theorem C33_overlap_refuted {F : Fix} : ∃ s, History F none s ∧
    run F (create (fun _ => .zero) 1 0 65532 []) [.insert nestTok .nested (nstVal 65531 0)] = some s ∧ s.tail - s.head + 1 ≤ 65534 ∧
    ∀ S : Supply, S.extra ≤ 229328 → manage codeEnv S 1 0 s = .ub := by
  obtain ⟨s, h1, h2, h3, h4, h5, h6, h7, h8⟩ := one_nested_in F (sch := none) (n := 65531) (pre := 0) (items := 0) (image := []) (lim := 65532)
    (fun S h => by cases h) (fun k => rfl) rfl rfl (by omega) (by omega) (by omega)
  refine ⟨s, h2, h1, (by omega), fun S hS => overlap_at h3 h4 h5 h6 h7 h8 rfl rfl rfl hS⟩

/-- A concrete case of the two ways to grow: two nested tuples of five units in a buffer of 14 units. -/
example : ∃ s, History .code none s ∧ looseCount s = 2 ∧
    (∃ t, manage codeEnv zeroSupply 1 1 s = .ok () t ∧ GrownTo .code none s t ∧ 1 ≤ headSpace t ∧ 1 ≤ tailSpaceUnits t ∧ capacity t = 56) ∧
    (∃ t, manage codeEnv zeroSupply 1 50 s = .ok () t ∧ GrownTo .code none s t ∧ 1 ≤ headSpace t ∧ 50 ≤ tailSpaceUnits t) ∧
    (∃ t, manage codeEnv zeroSupply 1 65522 s = .exc .tupleOverflow t) ∧
    (∃ t, managed codeEnv (fun _ => zeroSupply) (fun s => step .code s (setN 3 60)) 3 s = some (.ok () t) ∧
      getLoose t (nst 3) .nested = .ok (some (nstVal 60 3))) := by
  have ho : ∀ op ∈ [setN 1 5, setN 2 5], OpOk (schOf none) 0 op := opOk_of (by decide +kernel)
  have hb : RunBenign .code (fresh 2 14) [setN 1 5, setN 2 5] := runBenign_of (by decide +kernel)
  obtain ⟨s, hr, hp⟩ := run_decide (F := .code) (s := fresh 2 14) (ops := [setN 1 5, setN 2 5])
    (fun s => decide (looseCount s = 2 ∧ s.head = 0 ∧ s.pivot = 2 ∧ s.tail = 12 ∧ s.lim = 14 ∧ s.jc = 0 ∧ s.jv = 0)) (by decide +kernel)
  obtain ⟨p1, p2, p3, p4, p5, p6, p7⟩ := of_decide_eq_true hp
  have hH : History .code none s := .of_run (mem := fun _ => .zero) (items := 2) (lim := 14) (image := []) (fun S h => (by cases h)) rfl
    (by decide) (by decide) (fun k g h => (by cases h)) ho hb hr
  have hc : CompactOk codeEnv s := Or.inr ⟨Or.inl p6, Or.inl p7⟩
  have hbn : GrowBenign .code codeEnv s (setN 3 60) := Or.inr ⟨p6, p7, by show isLoose (nst 3) = true; decide +kernel⟩
  refine ⟨s, hH, p1, ?_, ?_, ?_, ?_⟩
  · obtain ⟨t, k1, k2, k3, k4, k5, _⟩ := C33_shift_partial (S := zeroSupply) (i := 1) (n := 1) hH codeEnv_ok (by omega) (by omega) hc
    refine ⟨t, k1, k2, k3, k4, ?_⟩
    rw [k5]; unfold capacity; rw [p5]; rfl
  · obtain ⟨t, k1, k2, k3, k4, _⟩ := C33_grow_partial (S := zeroSupply) (i := 1) (n := 50) hH codeEnv_ok (by omega) hc (Or.inr (Or.inl ⟨p6, p7⟩))
      (Or.inl rfl) (by omega) (by omega) (by decide)
    exact ⟨t, k1, k2, k3, k4⟩
  · exact (C33_failed (S := zeroSupply) (i := 1) (n := 65522) hH codeEnv_ok).2.1.2 (Or.inl (by
      have : junkUnits s = s.jv + s.jc := rfl
      omega))
  · obtain ⟨t, e⟩ := C33_set_completes_partial (F := .code) (S := fun _ => zeroSupply) (tag := nst 3) (g := .nested) (v := nstVal 60 3) (n := 60)
      hH codeEnv_ok (by decide +kernel) (by decide +kernel) (by decide +kernel) (by decide +kernel) hbn (Or.inl rfl) (by omega) (by decide +kernel)
      (by omega) (by
        have := occupied_le (tag := nst 3) hH.made.wf ⟨by decide +kernel, fun h => absurd h (by decide +kernel)⟩
        omega) (fun _ => by decide)
    refine ⟨t, e, ?_⟩
    exact (C33_set_partial (k := 3) hH codeEnv_ok ⟨⟨by decide +kernel, fun h => absurd h (by decide +kernel)⟩, by decide +kernel⟩ hbn
      (by decide +kernel) (by unfold dropped; decide +kernel) e).1 (by decide)

/-- The same with a preplaced field, everything repaired: an assignment of the preplaced field and one of a loose field, both in a buffer of
six units. -/
example (S : Nat → Memory) : ∃ s, History .repaired (some oneStretchy) s ∧ looseCount s = 1 ∧
    let E : Env := { codeEnv with σ := schOf (some oneStretchy), preBytes := 4, image := [.zero], guard := true, keepJunk := true }
    (∃ t, managed E (fun k => ⟨S k, 0⟩) (fun s => step .repaired s (.set preTok .nested (nstVal 30 5))) 3 s = some (.ok () t)) ∧
    (∃ t, managed E (fun k => ⟨S k, 0⟩) (fun s => step .repaired s (setN 2 40)) 3 s = some (.ok () t)) := by
  have ho : ∀ op ∈ [setN 1 3], OpOk (schOf (some oneStretchy)) 1 op := opOk_of (by decide +kernel)
  have hb : RunBenign .repaired (create (fun _ => .zero) 1 1 6 [.zero]) [setN 1 3] := runBenign_of (by decide +kernel)
  obtain ⟨s, hr, hp⟩ := run_decide (F := .repaired) (s := create (fun _ => .zero) 1 1 6 [.zero]) (ops := [setN 1 3])
    (fun s => decide (looseCount s = 1 ∧ s.head = 0 ∧ s.pivot = 1 ∧ s.tail = 5 ∧ s.lim = 6 ∧ s.pre = 1)) (by decide +kernel)
  obtain ⟨p1, p2, p3, p4, p5, p6⟩ := of_decide_eq_true hp
  have hH : History .repaired (some oneStretchy) s := .of_run (mem := fun _ => .zero) (items := 1) (lim := 6) (image := [.zero])
    (fun S h => by injection h with h; rw [← h]; exact oneStretchy_ok) (by decide +kernel) (by decide) (by decide)
    (fun k g h hk => by have hk : k < 1 := hk; have : k = 0 := by omega
                        subst this; rfl) ho hb hr
  have hE : EnvOk { codeEnv with σ := schOf (some oneStretchy), preBytes := 4, image := [.zero], guard := true, keepJunk := true } (some oneStretchy) :=
    ⟨rfl, rfl, itemSort_ok, rfl⟩
  have h4 : preBytesOf (some oneStretchy) = 4 := rfl
  refine ⟨s, hH, p1, ?_, ?_⟩
  · have ht : TokenOk (schOf (some oneStretchy)) s.pre preTok := ⟨by decide +kernel, fun _ => by
      rw [p6, if_neg (by decide +kernel)]
      exact ⟨by decide +kernel, by decide +kernel⟩⟩
    have := occupied_le hH.made.wf ht
    exact C33_preplaced_completes_partial (n := 30) hH hE (by decide +kernel) ht (by decide +kernel) (by decide +kernel)
      (Or.inl ⟨rfl, rfl, rfl⟩) (Or.inr (by omega)) (by omega) (by decide +kernel) (by omega) (by omega) (fun _ => by show 44 + 0 ≤ 229372; decide)
  · exact C33_set_completes_partial (n := 40) hH hE (by decide +kernel) (by decide +kernel) (by decide +kernel) (by decide +kernel)
      (Or.inl ⟨rfl, rfl, rfl⟩) (Or.inr (by omega)) (by omega) (by decide +kernel) (by omega) (by
        have := occupied_le (tag := nst 2) hH.made.wf ⟨by decide +kernel, fun h => absurd h (by decide +kernel)⟩
        omega) (fun _ => by show 44 + 0 ≤ 229372; decide)

/-- A tuple of more than 3700 units of payload, full, grows when its shorter field gets 5000 units. -/
example : ∃ s t, History .code none s ∧ s.tail = s.base + 3700 ∧ s.tail = s.lim ∧
    managed codeEnv (fun _ => zeroSupply) (fun s => step .code s (setN 2 5000)) 3 s = some (.ok () t) := by
  have ho : ∀ op ∈ [setN 1 2500, setN 2 1200], OpOk (schOf none) 0 op := opOk_of (by decide +kernel)
  have hb : RunBenign .code (fresh 2 3702) [setN 1 2500, setN 2 1200] := runBenign_of (by decide +kernel)
  obtain ⟨s, hr, hp⟩ := run_decide (F := .code) (s := fresh 2 3702) (ops := [setN 1 2500, setN 2 1200])
    (fun s => decide (s.head = 0 ∧ s.pivot = 2 ∧ s.tail = 3702 ∧ s.lim = 3702 ∧ s.jc = 0 ∧ s.jv = 0 ∧ s.pre = 0 ∧ occupied s (nst 2) = 1200)) (by decide +kernel)
  obtain ⟨p1, p2, p3, p4, p5, p6, p7, p8⟩ := of_decide_eq_true hp
  have hH : History .code none s := .of_run (mem := fun _ => .zero) (items := 2) (lim := 3702) (image := []) (fun S h => (by cases h)) rfl
    (by decide) (by decide) (fun k g h => (by cases h)) ho hb hr
  have hbase : s.base = s.pivot + s.pre := rfl
  obtain ⟨t, e⟩ := C33_set_completes_partial (F := .code) (S := fun _ => zeroSupply) (tag := nst 2) (g := .nested) (v := nstVal 5000 2) (n := 5000)
    hH codeEnv_ok (by decide +kernel) (by decide +kernel) (by decide +kernel) (by decide +kernel)
    (Or.inr ⟨p5, p6, by show isLoose (nst 2) = true; decide +kernel⟩) (Or.inl rfl) (by omega) (by decide +kernel) (by omega) (by omega) (fun _ => by decide)
  exact ⟨s, t, hH, by omega, by omega, e⟩

end Fptu.Props
