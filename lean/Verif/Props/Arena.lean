import Verif.Model.Arena
import Mathlib.Data.List.Pairwise
/-!
# C56: the arena of short-lived allocations
-/
namespace Fptu.Props
open Fptu.Arena

/-- The blocks within the arena. -/
def insideOf (l : List (Place × Nat)) : List (Nat × Nat) := l.filterMap fun b => match b.1 with
  | .inside o => some (o, b.2)
  | .outside => none

/-- Two blocks with no common byte. -/
def apart (x y : Nat × Nat) : Prop := x.1 + x.2 ≤ y.1 ∨ y.1 + y.2 ≤ x.1 ∨ x.2 = 0 ∨ y.2 = 0

/-- Requests that do not wrap around when they are rounded up. -/
def Fits (align : Nat) : Op → Prop
  | .take n => n + (align - 1) < 2 ^ 64
  | .give _ => True

theorem alignUp_spec {align n : Nat} (ha : 0 < align) (h : n + (align - 1) < 2 ^ 64) :
    n ≤ alignUp align n ∧ alignUp align n < n + align ∧ align ∣ alignUp align n ∧ (n = 0 → alignUp align n = 0) := by
  unfold alignUp
  rw [Nat.mod_eq_of_lt h]
  have h1 := Nat.div_add_mod (n + (align - 1)) align
  have h2 := Nat.mod_lt (n + (align - 1)) ha
  rw [Nat.mul_comm] at h1
  refine ⟨by omega, by omega, Nat.dvd_mul_left _ _, ?_⟩
  rintro rfl
  rw [Nat.zero_add, Nat.div_eq_of_lt (by omega), Nat.zero_mul]

/-- What holds after every history: blocks are whole, aligned, apart after rounding, and below the free space unless empty. -/
structure Tidy (size align : Nat) (c : Client) : Prop where
  sizeEq : c.arena.size = size
  alignEq : c.arena.align = align
  ptr : c.arena.ptr ≤ size
  ptrAlign : align ∣ c.arena.ptr
  each : ∀ b ∈ insideOf c.blocks, align ∣ b.1 ∧ b.1 < size ∧ b.2 + (align - 1) < 2 ^ 64 ∧ (b.2 ≠ 0 → b.1 + alignUp align b.2 ≤ c.arena.ptr)
  pairs : (insideOf c.blocks).Pairwise fun x y => apart (x.1, alignUp align x.2) (y.1, alignUp align y.2)

theorem insideOf_cons (p : Place) (n : Nat) (l : List (Place × Nat)) :
    insideOf ((p, n) :: l) = match p with
      | .inside o => (o, n) :: insideOf l
      | .outside => insideOf l := by
  unfold insideOf
  cases p <;> rfl

theorem insideOf_sublist {l l' : List (Place × Nat)} (h : l'.Sublist l) : (insideOf l').Sublist (insideOf l) := h.filterMap _

theorem insideOf_erase {l : List (Place × Nat)} {i o n : Nat} (h : l[i]? = some (.inside o, n)) :
    ∃ a b, insideOf l = a ++ (o, n) :: b ∧ insideOf (l.eraseIdx i) = a ++ b := by
  induction l generalizing i with
  | nil => cases h
  | cons x l ih =>
    cases i with
    | zero =>
      have : x = (.inside o, n) := Option.some.inj h
      subst this
      exact ⟨[], insideOf l, rfl, rfl⟩
    | succ i =>
      obtain ⟨a, b, e1, e2⟩ := ih (i := i) h
      obtain ⟨p, k⟩ := x
      rw [List.eraseIdx_cons_succ, insideOf_cons, insideOf_cons, e1, e2]
      cases p with
      | inside q => exact ⟨(q, k) :: a, b, rfl, rfl⟩
      | outside => exact ⟨a, b, rfl, rfl⟩

theorem Tidy.step {size align : Nat} {c : Client} {op : Op} (ha : 0 < align) (hd : align ∣ size) (h : Tidy size align c) (hf : Fits align op) :
    Tidy size align (c.step op) := by
  cases op with
  | take n =>
    have hn : n + (align - 1) < 2 ^ 64 := hf
    obtain ⟨u1, u2, u3, u4⟩ := alignUp_spec ha hn
    unfold Client.step allocate
    dsimp only
    by_cases g : c.arena.ptr < c.arena.size ∧ alignUp c.arena.align n ≤ c.arena.size - c.arena.ptr
    · rw [if_pos g]
      have hs := h.sizeEq
      have hal := h.alignEq
      rw [hal] at g ⊢
      rw [hs] at g
      refine ⟨hs, rfl, by dsimp only; omega, Nat.dvd_add h.ptrAlign u3, ?_, ?_⟩
      · intro b hb
        rw [insideOf_cons] at hb
        rcases List.mem_cons.1 hb with rfl | hb
        · exact ⟨h.ptrAlign, g.1, hn, fun _ => Nat.le_refl _⟩
        · obtain ⟨q1, q2, q3, q4⟩ := h.each b hb
          exact ⟨q1, q2, q3, fun hne => Nat.le_trans (q4 hne) (Nat.le_add_right _ _)⟩
      · dsimp only
        rw [insideOf_cons]
        refine List.Pairwise.cons ?_ h.pairs
        intro b hb
        obtain ⟨q1, q2, q3, q4⟩ := h.each b hb
        by_cases z : b.2 = 0
        · exact .inr (.inr (.inr (by rw [z]; exact (alignUp_spec ha (by omega)).2.2.2 rfl)))
        · exact .inr (.inl (q4 z))
    · rw [if_neg g]
      exact ⟨h.sizeEq, h.alignEq, h.ptr, h.ptrAlign, h.each, h.pairs⟩
  | give i =>
    unfold Client.step
    dsimp only
    cases e : c.blocks[i]? with
    | none => exact h
    | some b =>
      obtain ⟨p, n⟩ := b
      dsimp only
      have sub := insideOf_sublist (List.eraseIdx_sublist (l := c.blocks) (k := i))
      unfold deallocate
      cases p with
      | outside =>
        exact ⟨h.sizeEq, h.alignEq, h.ptr, h.ptrAlign, fun b hb => h.each b (sub.subset hb), h.pairs.sublist sub⟩
      | inside o =>
        dsimp only
        obtain ⟨x, y, e1, e2⟩ := insideOf_erase e
        have hmem : (o, n) ∈ insideOf c.blocks := by rw [e1]; exact List.mem_append_right _ (List.mem_cons_self ..)
        obtain ⟨r1, r2, r3, r4⟩ := h.each (o, n) hmem
        have hal := h.alignEq
        rw [hal]
        by_cases g : o < c.arena.size ∧ o + alignUp align n = c.arena.ptr
        · rw [if_pos g]
          have hp := h.ptr
          refine ⟨h.sizeEq, rfl, by dsimp only; omega, r1, ?_, h.pairs.sublist sub⟩
          intro b hb
          obtain ⟨q1, q2, q3, q4⟩ := h.each b (sub.subset hb)
          refine ⟨q1, q2, q3, fun hne => ?_⟩
          have q5 := q4 hne
          obtain ⟨v1, v2, v3, v4⟩ := alignUp_spec ha q3
          obtain ⟨w1, w2, w3, w4⟩ := alignUp_spec (n := n) ha r3
          dsimp only
          have pw := h.pairs
          rw [e1] at pw
          rw [e2] at hb
          have ap : apart (b.1, alignUp align b.2) (o, alignUp align n) ∨ apart (o, alignUp align n) (b.1, alignUp align b.2) := by
            rcases List.mem_append.1 hb with hb | hb
            · exact .inl ((List.pairwise_append.1 pw).2.2 b hb (o, n) (List.mem_cons_self ..))
            · exact .inr ((List.pairwise_cons.1 (List.pairwise_append.1 pw).2.1).1 b hb)
          unfold apart at ap
          dsimp only at ap
          omega
        · rw [if_neg g]
          exact ⟨h.sizeEq, hal, h.ptr, h.ptrAlign, fun b hb => h.each b (sub.subset hb), h.pairs.sublist sub⟩

theorem tidy_run {size align : Nat} (ha : 0 < align) (hd : align ∣ size) (ops : List Op) (hf : ∀ op ∈ ops, Fits align op) :
    Tidy size align (run size align ops) := by
  unfold run
  have start : Tidy size align ⟨⟨size, align, 0⟩, []⟩ := ⟨rfl, rfl, Nat.zero_le _, Nat.dvd_zero _, (by intro b hb; cases hb), List.Pairwise.nil⟩
  generalize (⟨⟨size, align, 0⟩, []⟩ : Client) = c at start
  induction ops generalizing c with
  | nil => exact start
  | cons op ops ih =>
    exact ih (fun o ho => hf o (List.mem_cons_of_mem _ ho)) _ (start.step ha hd (hf op (List.mem_cons_self ..)))

/-- **C56 (partial).** Whatever blocks a client takes and gives back, and in whatever order: the blocks it has within the arena are
aligned, lie entirely within it and have no common byte. Missing: requests that wrap around when they are rounded up, see
`C56_huge_refuted`. -/
theorem C56_disjoint_partial {size align : Nat} (ha : 0 < align) (hd : align ∣ size) (ops : List Op) (hf : ∀ op ∈ ops, Fits align op) :
    (∀ b ∈ insideOf (run size align ops).blocks, align ∣ b.1 ∧ b.1 + b.2 ≤ size) ∧
    (insideOf (run size align ops).blocks).Pairwise apart ∧ used (run size align ops).arena ≤ size := by
  have h := tidy_run ha hd ops hf
  refine ⟨?_, ?_, h.ptr⟩
  · intro b hb
    obtain ⟨q1, q2, q3, q4⟩ := h.each b hb
    have := (alignUp_spec ha q3).1
    have hp := h.ptr
    refine ⟨q1, ?_⟩
    by_cases z : b.2 = 0
    · omega
    · have := q4 z; omega
  · refine List.Pairwise.imp_of_mem ?_ h.pairs
    intro x y hx hy hap
    obtain ⟨-, -, q3, -⟩ := h.each x hx
    obtain ⟨-, -, r3, -⟩ := h.each y hy
    obtain ⟨u1, u2, u3, u4⟩ := alignUp_spec ha q3
    obtain ⟨v1, v2, v3, v4⟩ := alignUp_spec ha r3
    unfold apart at hap ⊢
    dsimp only at hap
    omega

/-- Blocks given back out of order, one that does not fit, and an empty one. -/
def arenaOps : List Op := [.take 40, .take 24, .give 1, .take 0, .take 2000, .take 16, .give 2, .take 8]

example : (∀ op ∈ arenaOps, Fits 16 op) ∧ 16 ∣ 2048 ∧ insideOf (run 2048 16 arenaOps).blocks = [(96, 8), (80, 16), (48, 24)] ∧
    used (run 2048 16 arenaOps).arena = 112 := by
  refine ⟨?_, by decide, by decide, by decide⟩
  unfold arenaOps
  simp [Fits]

/-- The bytes the blocks occupy within the arena. -/
def occupied (align : Nat) (l : List (Place × Nat)) : Nat := ((insideOf l).map fun b => alignUp align b.2).sum

/-- A client that gives back only the latest of its blocks. -/
def Lifo : Op → Prop
  | .take _ => True
  | .give i => i = 0

/-- In the order of a stack, each block within the arena begins where the earlier ones end. -/
def Stacked (align : Nat) : List (Place × Nat) → Prop
  | [] => True
  | (.inside o, _) :: l => o = occupied align l ∧ Stacked align l
  | (.outside, _) :: l => Stacked align l

theorem lifo_step {size align : Nat} {c : Client} {op : Op} (hs : c.arena.align = align) (hz : c.arena.size = size)
    (hi : ∀ b ∈ insideOf c.blocks, b.1 < size)
    (h1 : Stacked align c.blocks) (h2 : c.arena.ptr = occupied align c.blocks) (hf : Lifo op) :
    (c.step op).arena.align = align ∧ (c.step op).arena.size = size ∧ (∀ b ∈ insideOf (c.step op).blocks, b.1 < size) ∧
      Stacked align (c.step op).blocks ∧ (c.step op).arena.ptr = occupied align (c.step op).blocks := by
  cases op with
  | take n =>
    unfold Client.step allocate
    dsimp only
    by_cases g : c.arena.ptr < c.arena.size ∧ alignUp c.arena.align n ≤ c.arena.size - c.arena.ptr
    · rw [if_pos g]
      refine ⟨hs, hz, ?_, ⟨h2, h1⟩, ?_⟩
      · intro b hb
        rw [insideOf_cons] at hb
        rcases List.mem_cons.1 hb with rfl | hb
        · rw [← hz]; exact g.1
        · exact hi b hb
      · dsimp only
        unfold occupied
        rw [insideOf_cons, List.map_cons, List.sum_cons, hs, h2]
        unfold occupied
        dsimp only
        omega
    · rw [if_neg g]
      exact ⟨hs, hz, hi, h1, h2⟩
  | give i =>
    have : i = 0 := hf
    subst this
    unfold Client.step
    obtain ⟨a, l⟩ := c
    cases l with
    | nil => exact ⟨hs, hz, hi, h1, h2⟩
    | cons x l =>
      obtain ⟨p, n⟩ := x
      dsimp only [List.getElem?_cons_zero, List.eraseIdx_cons_zero] at *
      cases p with
      | outside => exact ⟨hs, hz, hi, h1, h2⟩
      | inside o =>
        unfold deallocate
        dsimp only
        have e : occupied align ((.inside o, n) :: l) = alignUp align n + occupied align l := by
          unfold occupied; rw [insideOf_cons, List.map_cons, List.sum_cons]
        have o1 : o < a.size := by rw [hz]; exact hi (o, n) (by rw [insideOf_cons]; exact List.mem_cons_self ..)
        rw [hs, if_pos ⟨o1, by rw [h2, e, h1.1]; omega⟩]
        refine ⟨rfl, hz, fun b hb => hi b (by rw [insideOf_cons]; exact List.mem_cons_of_mem _ hb), h1.2, h1.1⟩

/-- **C56 (partial).** If blocks are given back in the order of a stack, the arena uses exactly the (rounded) bytes of the blocks that are
held; when all are given back it is empty again. Missing: other orders, see `C56_order_refuted`. -/
theorem C56_lifo_partial {size align : Nat} (ops : List Op) (hf : ∀ op ∈ ops, Lifo op) :
    used (run size align ops).arena = occupied align (run size align ops).blocks ∧
    ((run size align ops).blocks = [] → used (run size align ops).arena = 0) := by
  have main : used (run size align ops).arena = occupied align (run size align ops).blocks := by
    unfold run
    suffices h : ∀ c : Client, c.arena.align = align → c.arena.size = size → (∀ b ∈ insideOf c.blocks, b.1 < size) → Stacked align c.blocks →
        c.arena.ptr = occupied align c.blocks → used (ops.foldl Client.step c).arena = occupied align (ops.foldl Client.step c).blocks from
      h ⟨⟨size, align, 0⟩, []⟩ rfl rfl (by intro b hb; cases hb) trivial rfl
    induction ops with
    | nil => intro c _ _ _ _ h; exact h
    | cons op ops ih =>
      intro c a1 a2 a3 a4 a5
      obtain ⟨b1, b2, b3, b4, b5⟩ := lifo_step a1 a2 a3 a4 a5 (hf op (List.mem_cons_self ..))
      exact ih (fun o ho => hf o (List.mem_cons_of_mem _ ho)) _ b1 b2 b3 b4 b5
  exact ⟨main, fun h => by rw [main, h]; rfl⟩

example : (∀ op ∈ [Op.take 40, .take 24, .give 0, .take 8, .give 0, .give 0], Lifo op) ∧
    (run 2048 16 [.take 40, .take 24, .give 0, .take 8, .give 0, .give 0]).blocks = [] ∧
    used (run 2048 16 [.take 40, .take 24, .give 0, .take 8]).arena = 64 := by
  refine ⟨?_, by decide, by decide⟩
  simp [Lifo]

/-- **C56, refuted part.** Given back in the order they were taken, blocks leave the arena in use although nobody holds any. -/
theorem C56_order_refuted : (run 2048 16 [.take 16, .take 16, .give 1, .give 0]).blocks = [] ∧
    used (run 2048 16 [.take 16, .take 16, .give 1, .give 0]).arena = 16 := by decide

/-- **C56 (partial).** A request is served from the arena if and only if there is room for it: the free space is not empty and not less than
the rounded request; `reset` makes all of it free again. -/
theorem C56_room_partial (a : Arena) (n : Nat) :
    ((∃ o, (allocate a n).1 = .inside o) ↔ a.ptr < a.size ∧ a.ptr + alignUp a.align n ≤ a.size) ∧
    (∀ o, (allocate a n).1 = .inside o → o = used a ∧ used (allocate a n).2 = used a + alignUp a.align n) ∧
    ((allocate a n).1 = .outside → (allocate a n).2 = a) ∧ used (reset a) = 0 := by
  unfold allocate used reset
  by_cases g : a.ptr < a.size ∧ alignUp a.align n ≤ a.size - a.ptr
  · rw [if_pos g]
    refine ⟨⟨fun _ => by omega, fun _ => ⟨_, rfl⟩⟩, fun o h => ?_, fun h => (by cases h), rfl⟩
    cases h
    exact ⟨rfl, rfl⟩
  · rw [if_neg g]
    refine ⟨⟨fun ⟨o, h⟩ => (by cases h), fun h => absurd ⟨h.1, by omega⟩ g⟩, fun o h => (by cases h), fun _ => rfl, rfl⟩

/-- **C56, refuted part.** A request so large that it wraps around when rounded up is "served": the block starts within the arena and
does not fit in, and the next one overlaps with it. The same happens with an array whose size in bytes wraps around. -/
theorem C56_huge_refuted : ∃ n, (allocate ⟨2048, 16, 0⟩ n).1 = .inside 0 ∧ n > 2048 ∧
    (allocate (allocate ⟨2048, 16, 0⟩ n).2 32).1 = .inside 0 ∧
    ∃ count, (allocateItems ⟨2048, 16, 0⟩ 8 count).1 = .inside 0 ∧ count * 8 > 2048 := by
  exact ⟨2 ^ 64 - 1, by decide, by decide, by decide, 2 ^ 61 + 1, by decide, by decide⟩

end Fptu.Props
