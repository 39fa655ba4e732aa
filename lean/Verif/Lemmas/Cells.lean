import Verif.Model.Cells
/-! # Helper lemmas about tuple memory -/
namespace Fptu.Memory

theorem set_same (m : Memory) (a : Nat) (c : Cell) : m.set a c a = c := if_pos rfl
theorem set_ne (m : Memory) {a x : Nat} (c : Cell) (h : x ≠ a) : m.set a c x = m x := if_neg h
theorem set_apply (m : Memory) (a x : Nat) (c : Cell) : m.set a c x = if x = a then c else m x := rfl

theorem byte_lt (m : Memory) (k : Nat) : m.byte k < 256 := by
  unfold byte; simp only
  split <;> omega

theorem byte_congr {m m' : Memory} {k : Nat} (h : m (k / 4) = m' (k / 4)) : m.byte k = m'.byte k := by
  unfold byte; rw [h]

theorem byte_set_ne (m : Memory) {a k : Nat} (c : Cell) (h : k / 4 ≠ a) : (m.set a c).byte k = m.byte k :=
  byte_congr (set_ne m c h)

theorem byte_set_zero (m : Memory) {a k : Nat} (h : k / 4 = a) : (m.set a .zero).byte k = 0 := by
  unfold byte
  rw [h, set_same]
  simp [Cell.zero]

theorem setByte_cell_ne (m : Memory) {k v x : Nat} (h : x ≠ k / 4) : m.setByte k v x = m x :=
  set_ne m _ h

theorem byte_setByte (m : Memory) (k v j : Nat) (hv : v < 256) :
    (m.setByte k v).byte j = if j = k then v else m.byte j := by
  by_cases hc : j / 4 = k / 4
  · unfold setByte byte
    simp only [hc, set_same]
    by_cases h1 : j % 4 < 2 <;> by_cases h2 : k % 4 < 2 <;> by_cases h3 : j % 2 = 0 <;>
      by_cases h4 : k % 2 = 0 <;> simp only [h1, h2, h3, h4, if_true, if_false] <;>
      by_cases h5 : j = k <;> simp only [h5, if_true, if_false] <;> omega
  · rw [if_neg (fun h => hc (by rw [h]))]
    exact byte_congr (setByte_cell_ne m hc)

theorem writeBytes_cell (m : Memory) (k : Nat) (vs : List Nat) (x : Nat)
    (h : x < k / 4 ∨ (k + vs.length + 3) / 4 ≤ x) : m.writeBytes k vs x = m x := by
  induction vs generalizing m k with
  | nil => rfl
  | cons v vs ih =>
    rw [writeBytes, ih]
    · exact setByte_cell_ne m (by simp only [List.length_cons] at h; omega)
    · simp only [List.length_cons] at h; omega

theorem byte_writeBytes (m : Memory) (k : Nat) (vs : List Nat) (hv : ∀ v ∈ vs, v < 256) (j : Nat) :
    (m.writeBytes k vs).byte j = if k ≤ j ∧ j < k + vs.length then vs.getD (j - k) 0 else m.byte j := by
  induction vs generalizing m k with
  | nil => rw [writeBytes, if_neg (by simp only [List.length_nil]; omega)]
  | cons v vs ih =>
    rw [writeBytes, ih _ _ (fun x hx => hv x (List.mem_cons_of_mem _ hx)),
      byte_setByte _ _ _ _ (hv v List.mem_cons_self)]
    simp only [List.length_cons]
    by_cases h1 : k + 1 ≤ j ∧ j < k + 1 + vs.length
    · rw [if_pos h1, if_pos (by omega), show j - k = (j - (k + 1)) + 1 by omega, List.getD_cons_succ]
    · rw [if_neg h1]
      by_cases h2 : j = k
      · rw [if_pos h2, if_pos (by omega), h2, Nat.sub_self, List.getD_cons_zero]
      · rw [if_neg h2, if_neg (by omega)]

theorem readBytes_writeBytes (m : Memory) (k : Nat) (vs : List Nat) (hv : ∀ v ∈ vs, v < 256) :
    (m.writeBytes k vs).readBytes k vs.length = vs := by
  unfold readBytes
  apply List.ext_getElem
  · simp
  · intro i h1 h2
    simp only [List.getElem_map, List.getElem_range]
    rw [byte_writeBytes _ _ _ hv, if_pos (by omega), Nat.add_sub_cancel_left]
    simp [h2]

theorem readBytes_congr {m m' : Memory} {k n : Nat} (h : ∀ i, i < n → m.byte (k + i) = m'.byte (k + i)) :
    m.readBytes k n = m'.readBytes k n := by
  unfold readBytes
  apply List.map_congr_left
  intro i hi
  exact h i (List.mem_range.1 hi)

theorem length_readBytes (m : Memory) (k n : Nat) : (m.readBytes k n).length = n := by simp [readBytes]
theorem length_readCells (m : Memory) (k n : Nat) : (m.readCells k n).length = n := by simp [readCells]

theorem writeCells_apply (m : Memory) (a : Nat) (cs : List Cell) (x : Nat) :
    m.writeCells a cs x = if a ≤ x ∧ x < a + cs.length then cs.getD (x - a) .zero else m x := by
  induction cs generalizing m a with
  | nil => rw [writeCells, if_neg (by simp only [List.length_nil]; omega)]
  | cons c cs ih =>
    rw [writeCells, ih, set_apply]
    simp only [List.length_cons]
    by_cases h1 : a + 1 ≤ x ∧ x < a + 1 + cs.length
    · rw [if_pos h1, if_pos (by omega), show x - a = (x - (a + 1)) + 1 by omega, List.getD_cons_succ]
    · rw [if_neg h1]
      by_cases h2 : x = a
      · rw [if_pos h2, if_pos (by omega), h2, Nat.sub_self, List.getD_cons_zero]
      · rw [if_neg h2, if_neg (by omega)]

theorem readCells_writeCells (m : Memory) (a : Nat) (cs : List Cell) :
    (m.writeCells a cs).readCells a cs.length = cs := by
  unfold readCells
  apply List.ext_getElem
  · simp
  · intro i h1 h2
    simp only [List.getElem_map, List.getElem_range]
    rw [writeCells_apply, if_pos (by omega), Nat.add_sub_cancel_left]
    simp [h2]

theorem readCells_congr {m m' : Memory} {k n : Nat} (h : ∀ i, i < n → m (k + i) = m' (k + i)) :
    m.readCells k n = m'.readCells k n := by
  unfold readCells
  apply List.map_congr_left
  intro i hi
  exact h i (List.mem_range.1 hi)

end Fptu.Memory
