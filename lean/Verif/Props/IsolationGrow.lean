import Verif.Props.Isolation
import Verif.Props.Grow

/-!
C69, continued: the automatic growth and the sorting of the index touch only the memory of the tuple.

The growth takes new memory from the allocator. Whatever it contains, and whatever the free space of the old buffer contained, the
tuple in the new buffer has the same used part, and nothing behind the end of the buffer is changed.
-/

namespace Fptu.Props

open Fptu Fptu.Gear Fptu.Rw Fptu.Audit Fptu.Serial Fptu.Compact Fptu.Grow

/-- Behind the end of the buffer of `t`, the memory is `m`. -/
def Around (m : Memory) (t : RW) : Prop := ∀ u, t.lim ≤ u → t.mem u = m u

/-- Both runs end in the same way, with the same used part, in buffers around which the memory is one of `ms`, or of `ms'`. -/
def AlikeIn {α : Type} (ms ms' : Memory → Prop) : Out α → Out α → Prop
  | .ok a t, .ok a' t' => a' = a ∧ SameUsed t t' ∧ (∃ m, ms m ∧ Around m t) ∧ ∃ m, ms' m ∧ Around m t'
  | .exc e t, .exc e' t' => e' = e ∧ SameUsed t t' ∧ (∃ m, ms m ∧ Around m t) ∧ ∃ m, ms' m ∧ Around m t'
  | .ub, .ub => True
  | _, _ => False

theorem AlikeIn.mono {α : Type} {ms ms' ns ns' : Memory → Prop} {o o' : Out α} (h : AlikeIn ms ms' o o') (h1 : ∀ m, ms m → ns m)
    (h2 : ∀ m, ms' m → ns' m) : AlikeIn ns ns' o o' := by
  cases o <;> cases o' <;> first | exact h.elim | skip
  · obtain ⟨e, k, ⟨m, k1, k2⟩, m', k3, k4⟩ := h
    exact ⟨e, k, ⟨m, h1 m k1, k2⟩, m', h2 m' k3, k4⟩
  · obtain ⟨e, k, ⟨m, k1, k2⟩, m', k3, k4⟩ := h
    exact ⟨e, k, ⟨m, h1 m k1, k2⟩, m', h2 m' k3, k4⟩
  · trivial

theorem Around.of_inside {m : Memory} {s t : RW} (h : Around m s) (hl : t.lim = s.lim) (hi : Inside s t) : Around m t :=
  fun u hu => (hi u (by omega)).trans (h u (by omega))

/-! ## Sorting the index -/

private theorem writeIndex_alike {head : Nat} : ∀ (cs : List Cell) (m m' : Memory) (a : Nat),
    match writeIndex head cs m a, writeIndex head cs m' a with
    | some r, some r' => (∀ u, (m' u = m u ∨ a ≤ u ∧ u < a + cs.length) → r' u = r u) ∧
        (∀ u, a + cs.length ≤ u → r u = m u ∧ r' u = m' u)
    | none, none => True
    | _, _ => False := by
  intro cs
  induction cs with
  | nil =>
    intro m m' a
    refine ⟨fun u hu => ?_, fun _ _ => ⟨rfl, rfl⟩⟩
    rcases hu with hu | ⟨h1, h2⟩
    · exact hu
    · simp at h2; omega
  | cons c cs ih =>
    intro m m' a
    have step : ∀ d : Cell, match writeIndex head cs (m.set a d) (a + 1), writeIndex head cs (m'.set a d) (a + 1) with
        | some r, some r' => (∀ u, (m' u = m u ∨ a ≤ u ∧ u < a + (c :: cs).length) → r' u = r u) ∧
            (∀ u, a + (c :: cs).length ≤ u → r u = m u ∧ r' u = m' u)
        | none, none => True
        | _, _ => False := by
      intro d
      have k := ih (m.set a d) (m'.set a d) (a + 1)
      cases e : writeIndex head cs (m.set a d) (a + 1) <;> cases e' : writeIndex head cs (m'.set a d) (a + 1) <;> rw [e, e'] at k <;>
        first | exact k.elim | skip
      · trivial
      · obtain ⟨k1, k2⟩ := k
        have hlen : (c :: cs).length = cs.length + 1 := List.length_cons
        refine ⟨fun u hu => k1 u ?_, fun u hu => ?_⟩
        · by_cases hua : u = a
          · subst hua; left; rw [Memory.set_same, Memory.set_same]
          · rcases hu with hu | ⟨h1, h2⟩
            · left; rw [Memory.set_apply, Memory.set_apply, if_neg hua, if_neg hua]; exact hu
            · right; omega
        · obtain ⟨j1, j2⟩ := k2 u (by omega)
          rw [Memory.set_apply, if_neg (show ¬ u = a by omega)] at j1 j2
          exact ⟨j1, j2⟩
    unfold writeIndex
    split_ifs
    · exact step c
    · trivial
    · exact step _

/-- **C69 (sorting the index).** The outcome of sorting, by the code as it is (`presized`) or repaired, depends on the used part of the
tuple only; the used parts are the same afterwards, and nothing behind the end of the buffer is changed. -/
theorem C69_sort {F : Fix} {σ : Sch} {presized : Bool} {gsrt : List Cell → List Cell} {s s' : RW} (h : Reachable F σ s) (hs : SameUsed s s')
    (hg : GidSorter gsrt) : AlikeIn (· = s.mem) (· = s'.mem) (sortWith presized gsrt s) (sortWith presized gsrt s') := by
  have w1 := h.wf.inv.hp
  have w2 := h.wf.inv.bt
  have hb : s.base = s.pivot + s.pre := rfl
  have cell : ∀ a, s.head ≤ a → a < s.pivot → s'.mem a = s.mem a := fun a h1 h2 => hs.used a h1 (by omega)
  have e1 : indexSorted s' = indexSorted s := by
    unfold indexSorted
    rw [hs.pivot, hs.head]
    rw [Bool.eq_iff_iff, List.all_eq_true, List.all_eq_true]
    refine forall_congr' fun i => forall_congr' fun hi => ?_
    rw [List.mem_range] at hi
    rw [cell _ (by omega) (by omega), cell _ (by omega) (by omega)]
  have e2 : (List.range (s'.pivot - s'.head)).map (fun i => sortItem s' (s'.head + i)) =
      (List.range (s.pivot - s.head)).map fun i => sortItem s (s.head + i) := by
    rw [hs.pivot, hs.head]
    refine List.map_congr_left fun i hi => ?_
    rw [List.mem_range] at hi
    unfold sortItem RW.start
    rw [cell _ (by omega) (by omega), hs.head]
  unfold sortWith
  rw [e1]
  by_cases c : indexSorted s = true
  · rw [if_pos c, if_pos c]
    exact ⟨rfl, hs, ⟨_, rfl, fun _ _ => rfl⟩, _, rfl, fun _ _ => rfl⟩
  · rw [if_neg c, if_neg c]
    simp only
    rw [e2, hs.pivot, hs.head, hs.lim]
    generalize hl : (if presized = true then List.replicate (s.pivot - s.head) (⟨0, 0⟩ : Cell) else []) ++
      (List.range (s.pivot - s.head)).map (fun i => sortItem s (s.head + i)) = items
    by_cases c2 : s.head + items.length > s.lim
    · rw [if_pos c2, if_pos c2]; trivial
    · rw [if_neg c2, if_neg c2]
      have k := writeIndex_alike (head := s.head) (gsrt items) s.mem s'.mem s.head
      have hlen : (gsrt items).length = items.length := (hg items).1.length_eq
      cases e : writeIndex s.head (gsrt items) s.mem s.head <;> cases e' : writeIndex s.head (gsrt items) s'.mem s.head <;> rw [e, e'] at k <;>
        first | exact k.elim | skip
      · trivial
      · obtain ⟨k1, k2⟩ := k
        refine ⟨rfl, ⟨rfl, rfl, hs.pre, hs.tail, rfl, hs.jc, hs.jv, fun u h1 h2 => ?_⟩, ⟨_, rfl, fun u hu => ?_⟩, _, rfl, fun u hu => ?_⟩
        · exact k1 u (Or.inl (hs.used u h1 h2))
        · have hu : s.lim ≤ u := hu
          exact (k2 u (by omega)).1
        · have hu : s.lim ≤ u := hu
          exact (k2 u (by omega)).2

/-! ## Growth -/

private theorem shift_alike {s s' : RW} {d : Int} {m m' : Memory} (hp : s.head ≤ s.tail) (hs : SameUsed s s') (h1 : Around m s) (h2 : Around m' s')
    (h3 : (s.tail : Int) + d ≤ s.lim) (h4 : 0 ≤ (s.head : Int) + d) :
    SameUsed (shiftBy s d) (shiftBy s' d) ∧ Around m (shiftBy s d) ∧ Around m' (shiftBy s' d) := by
  have hc : s'.mem.readCells s'.head (s'.tail - s'.head) = s.mem.readCells s.head (s.tail - s.head) := by
    rw [hs.head, hs.tail]
    exact Memory.readCells_congr fun i hi => hs.used _ (by omega) (by omega)
  refine ⟨⟨?_, ?_, hs.pre, ?_, hs.lim, hs.jc, hs.jv, fun u k1 k2 => ?_⟩, fun u k => ?_, fun u k => ?_⟩
  · show ((s'.head : Int) + d).toNat = ((s.head : Int) + d).toNat; rw [hs.head]
  · show ((s'.pivot : Int) + d).toNat = ((s.pivot : Int) + d).toNat; rw [hs.pivot]
  · show ((s'.tail : Int) + d).toNat = ((s.tail : Int) + d).toNat; rw [hs.tail]
  · have k1 : ((s.head : Int) + d).toNat ≤ u := k1
    have k2 : u < ((s.tail : Int) + d).toNat := k2
    show s'.mem.writeCells ((s'.head : Int) + d).toNat _ u = s.mem.writeCells ((s.head : Int) + d).toNat _ u
    rw [hc, hs.head, Memory.writeCells_apply, Memory.writeCells_apply, Memory.length_readCells, if_pos (by omega), if_pos (by omega)]
  · have k : s.lim ≤ u := k
    show s.mem.writeCells ((s.head : Int) + d).toNat _ u = m u
    rw [Memory.writeCells_apply, Memory.length_readCells, if_neg (by omega)]
    exact h1 u k
  · have k : s'.lim ≤ u := k
    show s'.mem.writeCells ((s'.head : Int) + d).toNat _ u = m' u
    rw [Memory.writeCells_apply, Memory.length_readCells, hs.head, hs.tail, if_neg (by rw [hs.lim] at k; omega)]
    exact h2 u k

private theorem compact_alike {F : Fix} {guard : Bool} {σ : Sch} {srt : List Item → List Item} {s s' : RW} {m m' : Memory} (h : Reachable F σ s)
    (hs : SameUsed s s') (hsrt : Sorter srt) (h1 : Around m s) (h2 : Around m' s') :
    (compactifyWith guard srt σ s = .ub ∧ compactifyWith guard srt σ s' = .ub) ∨ ∃ t t', compactifyWith guard srt σ s = .ok () t ∧
      compactifyWith guard srt σ s' = .ok () t' ∧ Reachable F σ t ∧ SameUsed t t' ∧ Around m t ∧ Around m' t' ∧ t.pre = s.pre := by
  have k := C69_compact (guard := guard) h hs hsrt
  cases hr : compactifyWith guard srt σ s with
  | ub => cases hr' : compactifyWith guard srt σ s' <;> rw [hr, hr'] at k <;> first | exact k.elim | exact Or.inl ⟨rfl, rfl⟩
  | exc e t => exact absurd hr compactify_not_exc
  | ok u t =>
    cases hr' : compactifyWith guard srt σ s' with
    | ub => rw [hr, hr'] at k; exact k.elim
    | exc e t' => rw [hr, hr'] at k; exact k.elim
    | ok u' t' =>
      rw [hr, hr'] at k
      obtain ⟨k1, k2, k3⟩ := k
      obtain ⟨_, _, _, _, _, j3, _, j5, _⟩ := compactify_ok hsrt h.wf hr
      exact Or.inr ⟨t, t', rfl, rfl, h.compactify hsrt hr, k1, h1.of_inside j5 k2, h2.of_inside (by rw [k1.lim, j5, hs.lim]) k3, j3⟩

private theorem transfer_alike {E : Env} {S S' : Supply} {index size : Nat} {s s' : RW} {m m' : Memory} (hp : s.head ≤ s.pivot) (ht : s.pivot ≤ s.tail)
    (him : E.image.length ≤ s.tail - s.pivot) (hs : SameUsed s s') (h1 : Around m s) (h2 : Around m' s') :
    AlikeIn (fun k => k = m ∨ k = S.mem) (fun k => k = m' ∨ k = S'.mem) (transfer E S index size s) (transfer E S' index size s') := by
  unfold transfer construct
  cases hq : estimate E.overhead index 0 E.preBytes false with
  | error e => exact ⟨rfl, hs, ⟨m, Or.inl rfl, h1⟩, m', Or.inl rfl, h2⟩
  | ok required =>
    simp only [Except.bind]
    by_cases c : required > size ∨ size > bufLimit
    · rw [if_pos c, if_pos c]
      exact ⟨rfl, hs, ⟨m, Or.inl rfl, h1⟩, m', Or.inl rfl, h2⟩
    · rw [if_neg c, if_neg c]
      simp only
      generalize hlim : min maxUnitsNetto ((size - E.overhead) / 4) = lim
      have hc : s'.mem.readCells s'.head (s'.tail - s'.head) = s.mem.readCells s.head (s.tail - s.head) := by
        rw [hs.head, hs.tail]
        exact Memory.readCells_congr fun i hi => hs.used _ (by omega) (by omega)
      by_cases c2 : index < s.pivot - s.head ∨ lim < index + (s.tail - s.pivot)
      · rw [if_pos (show (create S.mem index (bytes2units E.preBytes) lim E.image).pivot < s.pivot - s.head ∨ (create S.mem index (bytes2units E.preBytes) lim E.image).lim <
          (create S.mem index (bytes2units E.preBytes) lim E.image).pivot + (s.tail - s.pivot) from c2), if_pos (show (create S'.mem index (bytes2units E.preBytes) lim E.image).pivot < s'.pivot - s'.head ∨ (create S'.mem index (bytes2units E.preBytes) lim E.image).lim <
          (create S'.mem index (bytes2units E.preBytes) lim E.image).pivot + (s'.tail - s'.pivot) from (by rw [hs.pivot, hs.head, hs.tail]; exact c2))]
        trivial
      · rw [if_neg (show ¬ ((create S.mem index (bytes2units E.preBytes) lim E.image).pivot < s.pivot - s.head ∨ (create S.mem index (bytes2units E.preBytes) lim E.image).lim <
          (create S.mem index (bytes2units E.preBytes) lim E.image).pivot + (s.tail - s.pivot)) from c2), if_neg (show ¬ ((create S'.mem index (bytes2units E.preBytes) lim E.image).pivot < s'.pivot - s'.head ∨ (create S'.mem index (bytes2units E.preBytes) lim E.image).lim <
          (create S'.mem index (bytes2units E.preBytes) lim E.image).pivot + (s'.tail - s'.pivot)) from (by rw [hs.pivot, hs.head, hs.tail]; exact c2)), hc, hs.pivot, hs.head, hs.tail, hs.jc, hs.jv]
        have c3 := not_or.1 c2
        refine ⟨rfl, ⟨rfl, rfl, rfl, rfl, rfl, rfl, rfl, fun u k1 k2 => ?_⟩, ⟨S.mem, Or.inr rfl, fun u k => ?_⟩, S'.mem, Or.inr rfl, fun u k => ?_⟩
        · have k1 : index - (s.pivot - s.head) ≤ u := k1
          have k2 : u < index + (s.tail - s.pivot) := k2
          show (S'.mem.writeCells index E.image).writeCells (index - (s.pivot - s.head)) _ u = (S.mem.writeCells index E.image).writeCells (index - (s.pivot - s.head)) _ u
          rw [Memory.writeCells_apply, Memory.writeCells_apply _ (index - (s.pivot - s.head)), Memory.length_readCells, if_pos (by omega), if_pos (by omega)]
        · have k : lim ≤ u := k
          show (S.mem.writeCells index E.image).writeCells (index - (s.pivot - s.head)) _ u = S.mem u
          rw [Memory.writeCells_apply, Memory.length_readCells, if_neg (by omega), Memory.writeCells_apply, if_neg (by omega)]
        · have k : lim ≤ u := k
          show (S'.mem.writeCells index E.image).writeCells (index - (s.pivot - s.head)) _ u = S'.mem u
          rw [Memory.writeCells_apply, Memory.length_readCells, if_neg (by omega), Memory.writeCells_apply, if_neg (by omega)]

private theorem freshBuffer_alike {E : Env} {S S' : Supply} {i n : Nat} {s s' : RW} {m m' : Memory} (hp : s.head ≤ s.pivot) (ht : s.pivot ≤ s.tail)
    (him : E.image.length ≤ s.tail - s.pivot) (hl : E.legacy = false) (hx : S'.extra = S.extra) (hs : SameUsed s s') (h1 : Around m s)
    (h2 : Around m' s') :
    AlikeIn (fun k => k = m ∨ k = S.mem) (fun k => k = m' ∨ k = S'.mem) (freshBuffer E S i n s) (freshBuffer E S' i n s') := by
  have e1 : growthIndex s' i = growthIndex s i := by unfold growthIndex; rw [hs.head, hs.pivot]
  have e2 : growthData s' n = growthData s n := by unfold growthData; rw [hs.lim, hs.tail, hs.pivot]
  unfold freshBuffer
  rw [e1, e2, hl, hx]
  cases estimate E.overhead (growthIndex s i) (growthData s n) E.preBytes false with
  | error e => exact ⟨rfl, hs, ⟨m, Or.inl rfl, h1⟩, m', Or.inl rfl, h2⟩
  | ok space =>
    simp only [Bool.false_eq_true, if_false]
    cases granulate E.overhead E.preBytes space scales with
    | error e => exact ⟨rfl, hs, ⟨m, Or.inl rfl, h1⟩, m', Or.inl rfl, h2⟩
    | ok size => exact transfer_alike hp ht him hs h1 h2

private theorem manage_alike {F : Fix} {sch : Option Schema} {E : Env} {S S' : Supply} {i n : Nat} {s s' : RW} {m m' : Memory} (h : History F sch s)
    (hE : EnvOk E sch) (him : E.image.length = bytes2units E.preBytes) (hx : S'.extra = S.extra) (hs : SameUsed s s') (h1 : Around m s)
    (h2 : Around m' s') :
    AlikeIn (fun k => k = m ∨ k = S.mem) (fun k => k = m' ∨ k = S'.mem) (manage E S i n s) (manage E S' i n s') := by
  have him : E.image.length = s.pre := by rw [him, hE.preBytes, h.pre]
  have hr := h.made
  rw [← hE.sigma] at hr
  have geo : ∀ {t : RW}, Reachable F E.σ t → t.pre = s.pre → t.head ≤ t.pivot ∧ t.pivot ≤ t.tail ∧ E.image.length ≤ t.tail - t.pivot ∧ t.tail ≤ t.lim := by
    intro t ht hp
    have w1 := ht.wf.inv.hp
    have w2 := ht.wf.inv.bt
    have w3 := ht.wf.inv.tl
    have hb : t.base = t.pivot + t.pre := rfl
    omega
  unfold manage
  rw [hs.tail, hs.head, hs.jv, hs.jc, hs.lim]
  split_ifs
  · exact ⟨rfl, hs, ⟨m, Or.inl rfl, h1⟩, m', Or.inl rfl, h2⟩
  · unfold shiftPath
    rcases compact_alike (guard := E.guard) hr hs hE.srt h1 h2 with ⟨e, e'⟩ | ⟨t, t', e, e', k1, k2, k3, k4, k5⟩
    · rw [e, e']; trivial
    · rw [e, e']
      obtain ⟨g1, g2, g3, g4⟩ := geo k1 k5
      have hd : shiftOf t' i n = shiftOf t i n := by unfold shiftOf; rw [k2.lim, k2.tail, k2.head, k2.pivot]
      simp only [Out.bind]
      rw [k2.jv, k2.jc, k2.lim, k2.tail, k2.head, hd]
      split_ifs with c1 c2
      · trivial
      · trivial
      · have c3 := not_or.1 c2
        obtain ⟨q1, q2, q3⟩ := shift_alike (d := shiftOf t i n) (by omega) k2 k3 k4 (by omega) (by omega)
        exact ⟨rfl, q1, ⟨m, Or.inl rfl, q2⟩, m', Or.inl rfl, q3⟩
  · rw [growPath_eq, growPath_eq, hs.tail, hs.head, hs.jv, hs.jc]
    split_ifs
    · rcases compact_alike (guard := E.guard) hr hs hE.srt h1 h2 with ⟨e, e'⟩ | ⟨t, t', e, e', k1, k2, k3, k4, k5⟩
      · rw [e, e']; trivial
      · rw [e, e']
        obtain ⟨g1, g2, g3, g4⟩ := geo k1 k5
        exact freshBuffer_alike g1 g2 g3 hE.buffered hx k2 k3 k4
    · obtain ⟨g1, g2, g3, g4⟩ := geo hr rfl
      exact freshBuffer_alike g1 g2 g3 hE.buffered hx hs h1 h2

/-- **C69 (growth).** Growing two tuples with the same used part ends in the same way in both, with the same used part again,
whatever the old and the new buffers and the memory around them contain; nothing behind the end of the buffer in which the tuple
then lies is changed. -/
theorem C69_grow {F : Fix} {sch : Option Schema} {E : Env} {S S' : Supply} {i n : Nat} {s s' : RW} (h : History F sch s)
    (hE : EnvOk E sch) (him : E.image.length = bytes2units E.preBytes) (hx : S'.extra = S.extra) (hs : SameUsed s s') :
    AlikeIn (fun k => k = s.mem ∨ k = S.mem) (fun k => k = s'.mem ∨ k = S'.mem) (manage E S i n s) (manage E S' i n s') :=
  manage_alike h hE him hx hs (fun _ _ => rfl) fun _ _ => rfl

/-- Both loops end in the same way (or neither has ended yet). -/
def AlikeLoop {α : Type} (ms ms' : Memory → Prop) : Option (Out α) → Option (Out α) → Prop
  | some o, some o' => AlikeIn ms ms' o o'
  | none, none => True
  | _, _ => False

theorem AlikeLoop.mono {α : Type} {ms ms' ns ns' : Memory → Prop} {o o' : Option (Out α)} (h : AlikeLoop ms ms' o o') (h1 : ∀ m, ms m → ns m)
    (h2 : ∀ m, ms' m → ns' m) : AlikeLoop ns ns' o o' := by
  cases o <;> cases o' <;> first | exact h.elim | skip
  · trivial
  · exact AlikeIn.mono h h1 h2

/-- The memories a tuple can be in after a managed modification: where it was, or what the allocator provided. -/
def OneOf (m : Memory) (S : Nat → Supply) (k : Memory) : Prop := k = m ∨ ∃ r, k = (S r).mem

private theorem managed_alike {F : Fix} {sch : Option Schema} {E : Env} {S S' : Nat → Supply} {op : Op} (hE : EnvOk E sch)
    (him : E.image.length = bytes2units E.preBytes) (hx : ∀ r, (S' r).extra = (S r).extra) (ha : op.Aligned) (k : Nat) :
    ∀ {s s' : RW} {m m' : Memory}, History F sch s → OpOk (schOf sch) s.pre op → GrowBenign F E s op → SameUsed s s' → Around m s → Around m' s' →
    AlikeLoop (OneOf m S) (OneOf m' S') (managed E S (fun s => step F s op) k s) (managed E S' (fun s => step F s op) k s') := by
  induction k with
  | zero => intros; trivial
  | succ k ih =>
    intro s s' m m' h ho hb hs h1 h2
    have key := C69_step_partial h.made hs ho ha hb.step
    have sp := step_spec h.made.wf op ho hb.step
    cases hr : step F s op with
    | ub =>
      cases hr' : step F s' op <;> rw [hr, hr'] at key <;> first | exact key.elim | skip
      rw [managed_ub hr, managed_ub hr']; trivial
    | ok u t =>
      cases hr' : step F s' op <;> rw [hr, hr'] at key <;> first | exact key.elim | skip
      rw [managed_done hr, managed_done hr']
      rw [hr] at sp
      have sp : Keep (schOf sch) s t := sp
      obtain ⟨k1, k2, k3⟩ := key
      exact ⟨rfl, k1, ⟨m, Or.inl rfl, h1.of_inside sp.lim k2⟩, m', Or.inl rfl, h2.of_inside (by rw [k1.lim, sp.lim, hs.lim]) k3⟩
    | exc x t =>
      cases hr' : step F s' op <;> rw [hr, hr'] at key <;> first | exact key.elim | skip
      rename_i x' t'
      obtain ⟨e, k1, k2, k3⟩ := key
      subst e
      have ht := C13_failed_partial h.made ho hb.step hr
      subst ht
      have h2' : Around m' t' := h2.of_inside (by rw [k1.lim, hs.lim]) k3
      by_cases hd : ∃ i n, x' = .insufficientSpace i n
      · obtain ⟨i, n, rfl⟩ := hd
        rw [managed_deficit hr, managed_deficit hr']
        have g := manage_alike (i := i) (n := n) h hE him (hx k) k1 h1 h2'
        cases hm : manage E (S k) i n t with
        | ub => cases hm' : manage E (S' k) i n t' <;> rw [hm, hm'] at g <;> first | exact g.elim | trivial
        | exc y w =>
          cases hm' : manage E (S' k) i n t' <;> rw [hm, hm'] at g <;> first | exact g.elim | skip
          exact AlikeIn.mono (α := Unit) (o := .exc y w) g (fun q hq => hq.imp id fun e => ⟨k, e⟩) fun q hq => hq.imp id fun e => ⟨k, e⟩
        | ok v w =>
          cases hm' : manage E (S' k) i n t' <;> rw [hm, hm'] at g <;> first | exact g.elim | skip
          obtain ⟨_, g1, ⟨q, g2, g3⟩, q', g4, g5⟩ := g
          obtain ⟨c1, c2⟩ := C33_content_partial h hE hb.junk hm
          have key := ih c1.history (by rw [c1.history.pre.trans h.pre.symm]; exact ho) (hb.next c2) g1 g3 g5
          refine AlikeLoop.mono key (fun p hp => ?_) fun p hp => ?_
          · rcases hp with rfl | hp
            · exact g2.imp id fun e => ⟨k, e⟩
            · exact Or.inr hp
          · rcases hp with rfl | hp
            · exact g4.imp id fun e => ⟨k, e⟩
            · exact Or.inr hp
      · have hne : ∀ i n, x' ≠ .insufficientSpace i n := fun i n hh => hd ⟨i, n, hh⟩
        rw [managed_other hr hne, managed_other hr' hne]
        exact ⟨rfl, k1, ⟨m, Or.inl rfl, h1⟩, m', Or.inl rfl, h2'⟩

/-- **C69 (modifications with automatic growth, partial).** A modification of two tuples with the same used part, repeated after every
growth, ends in the same way in both after the same number of attempts, with the same used part again, whatever the old buffers
and all the new ones contain; nothing behind the end of the buffer in which the tuple then lies is changed. For the code as it is
restricted as `C33_loop_partial`. -/
theorem C69_managed_partial {F : Fix} {sch : Option Schema} {E : Env} {S S' : Nat → Supply} {op : Op} {k : Nat} {s s' : RW} (h : History F sch s)
    (hE : EnvOk E sch) (him : E.image.length = bytes2units E.preBytes) (hx : ∀ r, (S' r).extra = (S r).extra) (ha : op.Aligned)
    (ho : OpOk (schOf sch) s.pre op) (hb : GrowBenign F E s op) (hs : SameUsed s s') :
    AlikeLoop (OneOf s.mem S) (OneOf s'.mem S') (managed E S (fun s => step F s op) k s) (managed E S' (fun s => step F s op) k s') :=
  managed_alike hE him hx ha k h ho hb hs (fun _ _ => rfl) fun _ _ => rfl

/-! ## Whole lives -/

/-- A list of modifications with automatic growth, each making at most `k` attempts and with its own supply of memory, exceptions
being caught. -/
def grownLife (F : Fix) (E : Env) (k : Nat) : RW → List (Op × (Nat → Supply)) → Option (List (Option Exc) × RW)
  | s, [] => some ([], s)
  | s, (o, S) :: es => match managed E S (fun s => step F s o) k s with
    | some (.ok _ t) => (grownLife F E k t es).map fun p => (none :: p.1, p.2)
    | some (.exc e t) => (grownLife F E k t es).map fun p => (some e :: p.1, p.2)
    | _ => none

/-- The lists ask for the same modifications; the allocator gives as much memory in both, with any contents. -/
inductive SameAsked : List (Op × (Nat → Supply)) → List (Op × (Nat → Supply)) → Prop
  | nil : SameAsked [] []
  | cons {o : Op} {S S' : Nat → Supply} {es es' : List (Op × (Nat → Supply))} (hx : ∀ r, (S' r).extra = (S r).extra) (h : SameAsked es es') :
      SameAsked ((o, S) :: es) ((o, S') :: es')

/-- **C69 (whole lives with growth)** with the defects of the code repaired. Whatever sequence of modifications is applied to two tuples
with the same used part, growing whenever they have to: the same steps throw the same exceptions in both, and the used parts, and with
them the serialized forms, are the same at the end, although every buffer on the way had other contents. -/
theorem C69_grown_repaired {sch : Option Schema} {E : Env} {k : Nat} {es es' : List (Op × (Nat → Supply))} {s s' : RW} (h : History .repaired sch s)
    (hE : EnvOk E sch) (hg : E.guard = true) (hj : E.keepJunk = true) (him : E.image.length = bytes2units E.preBytes) (hx : SameAsked es es')
    (ha : ∀ e ∈ es, e.1.Aligned) (ho : ∀ e ∈ es, OpOk (schOf sch) s.pre e.1) (hs : SameUsed s s') :
    match grownLife .repaired E k s es, grownLife .repaired E k s' es' with
    | some (outs, t), some (outs', t') => outs' = outs ∧ SameUsed t t' ∧ ∀ sc, SameImage sc t t'
    | none, none => True
    | _, _ => False := by
  induction hx generalizing s s' with
  | nil => exact ⟨rfl, hs, fun sc => hs.image sc⟩
  | @cons o S S' es es' hx hr ih =>
    have hb : GrowBenign .repaired E s o := Or.inl ⟨rfl, hj, hg⟩
    have ho1 : OpOk (schOf sch) s.pre o := ho (o, S) (List.mem_cons_self ..)
    have key := C69_managed_partial (k := k) h hE him hx (ha (o, S) (List.mem_cons_self ..)) ho1 hb hs
    obtain ⟨p1, p2⟩ := C33_loop_partial (S := S) k h hE ho1 hb
    have next : ∀ {t t' : RW}, History .repaired sch t → SameUsed t t' → ∀ x : Option Exc,
        match (grownLife .repaired E k t es).map (fun p => (x :: p.1, p.2)), (grownLife .repaired E k t' es').map (fun p => (x :: p.1, p.2)) with
        | some (outs, t), some (outs', t') => outs' = outs ∧ SameUsed t t' ∧ ∀ sc, SameImage sc t t'
        | none, none => True
        | _, _ => False := by
      intro t t' ht hst x
      have q := ih ht (fun e he => ha e (List.mem_cons_of_mem _ he))
        (fun e he => by rw [ht.pre.trans h.pre.symm]; exact ho e (List.mem_cons_of_mem _ he)) hst
      cases e1 : grownLife .repaired E k t es <;> cases e2 : grownLife .repaired E k t' es' <;> rw [e1, e2] at q <;> first | exact q.elim | skip
      · trivial
      · obtain ⟨q1, q2, q3⟩ := q
        exact ⟨by rw [q1], q2, q3⟩
    unfold grownLife
    cases e1 : managed E S (fun s => step .repaired s o) k s with
    | none => cases e2 : managed E S' (fun s => step .repaired s o) k s' <;> rw [e1, e2] at key <;> first | exact key.elim | trivial
    | some r =>
      cases e2 : managed E S' (fun s => step .repaired s o) k s' with
      | none => rw [e1, e2] at key; exact key.elim
      | some r' =>
        rw [e1, e2] at key
        cases r with
        | ub => cases r' <;> first | exact key.elim | trivial
        | ok u t =>
          cases r' <;> first | exact key.elim | skip
          obtain ⟨_, _, _, _, hh⟩ := p1 t e1
          exact next hh key.2.1 none
        | exc x t =>
          cases r' <;> first | exact key.elim | skip
          rename_i x' t'
          obtain ⟨hx', hst, _⟩ := key
          subst hx'
          exact next (p2 _ _ e1).1.history hst _

/-! ## The hypotheses are met -/

/-- Everything repaired. -/
def repairedEnv : Env := { codeEnv with guard := true, keepJunk := true }

def grownOps : List Op := [setN 1 2, setN 2 4, setN 3 20, eraseN 2, setN 4 9]

/-- Five modifications of a tuple made with room for one field and three units, in memory full of anything: it grows, no step throws,
and the serialized form is the one obtained in cleared memory. -/
example (mem : Memory) (S : Nat → Memory) : ∃ t t', grownLife .repaired repairedEnv 3 (fresh 1 3) (grownOps.map fun o => (o, fun _ => zeroSupply)) =
      some ([none, none, none, none, none], t) ∧
    grownLife .repaired repairedEnv 3 (create mem 1 0 3 []) (grownOps.map fun o => (o, fun r => ⟨S r, 0⟩)) = some ([none, none, none, none, none], t') ∧
    3 < t.lim ∧ looseCount t = 3 ∧ 0 < t.jc ∧ SameImage none t t' := by
  have hd : (match grownLife .repaired repairedEnv 3 (fresh 1 3) (grownOps.map fun o => (o, fun _ => zeroSupply)) with
      | some (outs, t) => decide (outs = [none, none, none, none, none] ∧ 3 < t.lim ∧ looseCount t = 3 ∧ 0 < t.jc)
      | none => false) = true := by decide +kernel
  have hH : History .repaired none (fresh 1 3) := .of_run (mem := fun _ => .zero) (items := 1) (lim := 3) (image := []) (ops := []) (fun S h => (by cases h)) rfl
    (by decide) (by decide) (fun k g h => (by cases h)) (fun _ h => (by cases h)) trivial rfl
  have ask : ∀ l : List Op, SameAsked (l.map fun o => (o, fun _ => zeroSupply)) (l.map fun o => (o, fun r => ⟨S r, 0⟩)) := by
    intro l
    induction l with
    | nil => exact .nil
    | cons o l ih => exact .cons (fun _ => rfl) ih
  have key := C69_grown_repaired (k := 3) (E := repairedEnv) hH ⟨rfl, rfl, itemSort_ok, rfl⟩ rfl rfl rfl (ask grownOps)
    (by
      intro e he
      obtain ⟨o, ho, rfl⟩ := List.mem_map.1 he
      exact loose_aligned (es := grownOps.map .op) (by decide +kernel) (.op o) (List.mem_map.2 ⟨o, ho, rfl⟩))
    (by
      intro e he
      obtain ⟨o, ho, rfl⟩ := List.mem_map.1 he
      exact opOk_of (by decide +kernel) o ho)
    (create_sameUsed (fun _ => .zero) mem (items := 1) (lim := 3) (image := []) rfl)
  have key : match grownLife .repaired repairedEnv 3 (fresh 1 3) (grownOps.map fun o => (o, fun _ => zeroSupply)),
      grownLife .repaired repairedEnv 3 (create mem 1 0 3 []) (grownOps.map fun o => (o, fun r => ⟨S r, 0⟩)) with
    | some (outs, t), some (outs', t') => outs' = outs ∧ SameUsed t t' ∧ ∀ sc, SameImage sc t t'
    | none, none => True
    | _, _ => False := key
  cases e : grownLife .repaired repairedEnv 3 (fresh 1 3) (grownOps.map fun o => (o, fun _ => zeroSupply)) with
  | none => rw [e] at hd; cases hd
  | some x =>
    obtain ⟨outs, t⟩ := x
    rw [e] at hd key
    obtain ⟨d1, d2, d3, d4⟩ := of_decide_eq_true hd
    cases e' : grownLife .repaired repairedEnv 3 (create mem 1 0 3 []) (grownOps.map fun o => (o, fun r => ⟨S r, 0⟩)) with
    | none => rw [e'] at key; exact key.elim
    | some y =>
      obtain ⟨outs', t'⟩ := y
      rw [e'] at key
      obtain ⟨k1, _, k3⟩ := key
      have d1 : outs = [none, none, none, none, none] := d1
      rw [k1, d1]
      exact ⟨t, t', rfl, rfl, d2, d3, d4, k3 none⟩

/-- Two fields in the wrong order are sorted; the memory around the tuple does not matter. -/
example : ∃ s, Reachable .code (schOf none) s ∧ indexSorted s = false ∧ ∀ s', SameUsed s s' →
    ∃ t t', sortWith false gidSort s = .ok true t ∧ sortWith false gidSort s' = .ok true t' ∧ SameUsed t t' ∧ Around s'.mem t' := by
  have ho : ∀ op ∈ sortOps, OpOk (schOf none) 0 op := opOk_of (by decide +kernel)
  have hb : RunBenign .code (fresh 2 40) sortOps := runBenign_of (by decide +kernel)
  obtain ⟨s, hr, hp⟩ := run_decide (F := .code) (s := fresh 2 40) (ops := sortOps)
    (fun s => match sortWith false gidSort s with
      | .ok true _ => decide (indexSorted s = false)
      | _ => false) (by decide +kernel)
  have hR : Reachable .code (schOf none) s := (fresh_ok (by decide) (by decide)).reachable ho hb hr
  split at hp
  · rename_i t e
    refine ⟨s, hR, of_decide_eq_true hp, fun s' hs => ?_⟩
    have key := C69_sort (presized := false) hR hs gidSort_ok
    rw [e] at key
    cases e' : sortWith false gidSort s' with
    | ub => rw [e'] at key; exact key.elim
    | exc x y => rw [e'] at key; exact key.elim
    | ok b t' =>
      rw [e'] at key
      obtain ⟨k1, k2, _, m, k3, k4⟩ := key
      have k3 : m = s'.mem := k3
      subst k3
      exact ⟨t, t', e, by rw [k1], k2, k4⟩
  · cases hp

/-- The code as it is: a field that needs a bigger buffer; what the new buffer contained does not matter. -/
example (S : Nat → Memory) : ∃ s, History .code none s ∧ looseCount s = 1 ∧ ∀ s', SameUsed s s' →
    ∃ t t', managed codeEnv (fun _ => zeroSupply) (fun s => step .code s (setN 2 4)) 3 s = some (.ok () t) ∧
      managed codeEnv (fun r => ⟨S r, 0⟩) (fun s => step .code s (setN 2 4)) 3 s' = some (.ok () t') ∧ capacity s < capacity t ∧ SameUsed t t' := by
  have ho : ∀ op ∈ [setN 1 2], OpOk (schOf none) 0 op := opOk_of (by decide +kernel)
  have hb : RunBenign .code (fresh 1 3) [setN 1 2] := runBenign_of (by decide +kernel)
  obtain ⟨s, hr, hp⟩ := run_decide (F := .code) (s := fresh 1 3) (ops := [setN 1 2])
    (fun s => match managed codeEnv (fun _ => zeroSupply) (fun s => step .code s (setN 2 4)) 3 s with
      | some (.ok () t) => decide (capacity s < capacity t ∧ looseCount s = 1 ∧ s.jc = 0 ∧ s.jv = 0 ∧ s.pre = 0)
      | _ => false) (by decide +kernel)
  have hH : History .code none s := .of_run (mem := fun _ => .zero) (items := 1) (lim := 3) (image := []) (fun S h => (by cases h)) rfl
    (by decide) (by decide) (fun k g h => (by cases h)) ho hb hr
  split at hp
  · rename_i t e
    obtain ⟨p1, p2, p3, p4, p5⟩ := of_decide_eq_true hp
    refine ⟨s, hH, p2, fun s' hs => ?_⟩
    have key := C69_managed_partial (k := 3) (E := codeEnv) (S := fun _ => zeroSupply) (S' := fun r => ⟨S r, 0⟩) (op := setN 2 4) hH
      codeEnv_ok rfl (fun _ => rfl) (loose_aligned (es := [.op (setN 2 4)]) (by decide +kernel) (.op (setN 2 4)) (List.mem_singleton.2 rfl))
      (by rw [p5]; exact opOk_of (ops := [setN 2 4]) (by decide +kernel) _ (List.mem_singleton.2 rfl)) (Or.inr ⟨p3, p4, by show isLoose (nst 2) = true; decide +kernel⟩) hs
    rw [e] at key
    cases e' : managed codeEnv (fun r => ⟨S r, 0⟩) (fun s => step .code s (setN 2 4)) 3 s' with
    | none => rw [e'] at key; exact key.elim
    | some o =>
      rw [e'] at key
      cases o with
      | ub => exact key.elim
      | exc x y => exact key.elim
      | ok b t' => exact ⟨t, t', e, rfl, p1, key.2.1⟩
  · cases hp

end Fptu.Props
