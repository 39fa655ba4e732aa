import Verif.Lemmas.Guard
/-!
# Damage of one byte of a guard mark, and the memory of marks
-/
namespace Fptu.Guard

theorem wrap_top {x d : Nat} (hd : 1 ≤ d) (hd' : d < 256) (hx : x < 2 ^ 32) (h : x + d ≥ 2 ^ 32) : fold x ≠ fold (x + d - 2 ^ 32) := by
  have := allBelow_spec (allBelow_spec wrapping (i := d - 1) (by omega)) (i := 2 ^ 32 - 1 - x) (by omega)
  rw [show 2 ^ 32 - 1 - (2 ^ 32 - 1 - x) = x by omega, show d - 1 - (2 ^ 32 - 1 - x) = x + d - 2 ^ 32 by omega] at this
  rw [Bool.or_eq_true, decide_eq_true_eq] at this
  intro e
  rcases this with g | g
  · rw [e] at g
    have : Nat.beq (fold (x + d - 2 ^ 32)) (fold (x + d - 2 ^ 32)) = true := Nat.beq_refl _
    rw [this] at g
    cases g
  · omega

theorem low_lt {d : Nat} (h : 1 ≤ d) (h' : d < 256) : 0 < 0xD0C3DFD7 * d % 2 ^ 32 := by omega

theorem runOf_spec {d c : Nat} (hd : 1 ≤ d) (hd' : d < 256) (hc : c < 2) :
    runOf d c < 32 ∧ 2 ^ runOf d c ≤ if c = 0 then 0xD0C3DFD7 * d % 2 ^ 32 else 2 ^ 32 - 0xD0C3DFD7 * d % 2 ^ 32 := by
  have h1 := low_lt hd hd'
  unfold runOf
  have h2 : 0 < if c = 0 then 0xD0C3DFD7 * d % 2 ^ 32 else 2 ^ 32 - 0xD0C3DFD7 * d % 2 ^ 32 := by split <;> omega
  have h3 : (if c = 0 then 0xD0C3DFD7 * d % 2 ^ 32 else 2 ^ 32 - 0xD0C3DFD7 * d % 2 ^ 32) < 2 ^ 32 := by split <;> omega
  generalize (if c = 0 then 0xD0C3DFD7 * d % 2 ^ 32 else 2 ^ 32 - 0xD0C3DFD7 * d % 2 ^ 32) = v at *
  exact ⟨(Nat.log2_lt (by omega)).2 h3, Nat.log2_self_le (by omega)⟩

theorem steps_small : allBelow 255 (fun d => allBelow 2 fun c => Nat.ble (stepOf (d + 1) c) (2 ^ runOf (d + 1) c)) = true := by decide +kernel

theorem run_low {x d c : Nat} (hd : 1 ≤ d) (hd' : d < 256) (hc : c < 2) (hx : x < 2 ^ 32)
    (hr : reach 32 (((0xD0C3DFD7 * d % 2 ^ 32 : Nat) : Int) - ((c * 2 ^ 32 : Nat) : Int)) ((stepOf d c : Nat) : Int) = true)
    (h : 0xD0C3DFD7 * x / 2 ^ 32 % 2 ^ runOf d c + stepOf d c ≥ 2 ^ runOf d c) : fold x ≠ fold (x + d) := by
  obtain ⟨H, hH⟩ : ∃ H, 0xD0C3DFD7 * x / 2 ^ 32 = H := ⟨_, rfl⟩
  obtain ⟨e, e1, e2⟩ := near hH
  rw [hH] at h
  have hl : H < 2 ^ 32 := by omega
  have key := allBelow_spec (running (d := d - 1) (by omega)) (i := c) hc
  have ss := allBelow_spec (allBelow_spec steps_small (i := d - 1) (by omega)) (i := c) hc
  obtain ⟨r1, -⟩ := runOf_spec hd hd' hc
  rw [show d - 1 + 1 = d by omega] at key ss
  rw [hr, Bool.not_true, Bool.false_or] at key
  have ss := Nat.le_of_ble_eq_true ss
  generalize runOf d c = t at *
  generalize stepOf d c = s at *
  have dm := Nat.div_add_mod H (2 ^ t)
  have m := Nat.mod_lt H (show 2 ^ t > 0 by positivity)
  have q : H / 2 ^ t < 2 ^ (32 - t) := by
    rw [Nat.div_lt_iff_lt_mul (by positivity), ← pow_add, show 32 - t + t = 32 by omega]; exact hl
  have := allBelow_spec (allBelow_spec (allBelow_spec key q) (i := H % 2 ^ t + s - 2 ^ t) (by omega)) e1
  rw [show H / 2 ^ t * 2 ^ t + 2 ^ t - s + (H % 2 ^ t + s - 2 ^ t) = H by rw [Nat.mul_comm (H / _)]; omega, ← e2] at this
  intro e
  rw [e] at this
  have k : Nat.beq (fold (x + d)) (fold (x + d)) = true := Nat.beq_refl _
  rw [k] at this
  cases this

/-- **A change confined to one byte of the sum changes the digest.** -/
theorem fold_byte {x d i : Nat} (hx : x < 2 ^ 32) (hi : i < 4) (hd : 1 ≤ d) (hd' : d < 256) : fold x ≠ fold ((x + d * 2 ^ (8 * i)) % 2 ^ 32) := by
  intro he
  have hp : d * 2 ^ (8 * i) < 2 ^ 32 := by
    have : 2 ^ (8 * i) ≤ 2 ^ 24 := Nat.pow_le_pow_right (by norm_num) (by omega)
    calc d * 2 ^ (8 * i) ≤ d * 2 ^ 24 := Nat.mul_le_mul_left _ this
      _ < 2 ^ 32 := by omega
  obtain ⟨w, hw, hwe⟩ : ∃ w : Nat, w < 2 ∧ (x + d * 2 ^ (8 * i)) % 2 ^ 32 + w * 2 ^ 32 = x + d * 2 ^ (8 * i) := by
    rcases Nat.lt_or_ge (x + d * 2 ^ (8 * i)) (2 ^ 32) with g | g
    · exact ⟨0, by norm_num, by rw [Nat.mod_eq_of_lt g]; omega⟩
    · exact ⟨1, by norm_num, by rw [Nat.mod_eq_sub_mod g, Nat.mod_eq_of_lt (by omega)]; omega⟩
  have hx' : (x + d * 2 ^ (8 * i)) % 2 ^ 32 < 2 ^ 32 := Nat.mod_lt _ (by norm_num)
  have hl : 0xD0C3DFD7 * x / 2 ^ 32 < 2 ^ 32 := by omega
  have hl' : 0xD0C3DFD7 * ((x + d * 2 ^ (8 * i)) % 2 ^ 32) / 2 ^ 32 < 2 ^ 32 := by omega
  have eq : 0xD0C3DFD7 * ((x + d * 2 ^ (8 * i)) % 2 ^ 32) + w * 0xD0C3DFD7 * 2 ^ 32 = 0xD0C3DFD7 * x + 0xD0C3DFD7 * (d * 2 ^ (8 * i)) := by
    generalize (x + d * 2 ^ (8 * i)) % 2 ^ 32 = x' at hwe ⊢
    rw [← Nat.mul_add, ← hwe]; ring
  obtain ⟨c, hc, c1, c2⟩ := carries eq
  have hxor : 0xD0C3DFD7 * x % 2 ^ 32 ^^^ 0xD0C3DFD7 * ((x + d * 2 ^ (8 * i)) % 2 ^ 32) % 2 ^ 32 =
      0xD0C3DFD7 * x / 2 ^ 32 ^^^ 0xD0C3DFD7 * ((x + d * 2 ^ (8 * i)) % 2 ^ 32) / 2 ^ 32 := by
    have sw : ∀ a b c d : Nat, a ^^^ b = c ^^^ d → a ^^^ c = b ^^^ d := by
      intro a b c d h
      have : a = c ^^^ d ^^^ b := by rw [← h, Nat.xor_assoc, Nat.xor_self, Nat.xor_zero]
      rw [this, Nat.xor_comm c d, Nat.xor_assoc, Nat.xor_assoc, Nat.xor_comm b c, ← Nat.xor_assoc c, Nat.xor_self, Nat.zero_xor, Nat.xor_comm]
    unfold fold at he
    exact sw _ _ _ _ he
  have r := xor_reach (n := 32) (Nat.mod_lt _ (by norm_num)) (Nat.mod_lt _ (by norm_num)) hl hl' hxor
  rw [c1, c2] at r
  rcases Nat.eq_zero_or_pos i with rfl | i0
  · rw [Nat.mul_zero, pow_zero, Nat.mul_one] at *
    rcases (show w = 0 ∨ w = 1 by omega) with rfl | rfl
    · have e0 : (x + d) % 2 ^ 32 = x + d := by omega
      rw [show ((0xD0C3DFD7 * d / 2 ^ 32 : Nat) : Int) + (c : Int) - ((0 * 0xD0C3DFD7 : Nat) : Int) = ((stepOf d c : Nat) : Int) by
        unfold stepOf; omega] at r
      obtain ⟨-, r2⟩ := runOf_spec hd hd' hc
      refine run_low hd hd' hc hx r (long_run hxor ?_ ?_) ?_
      · unfold stepOf; omega
      · rcases (show c = 0 ∨ c = 1 by omega) with rfl | rfl
        · rw [if_pos rfl] at r2; right; omega
        · rw [if_neg (by norm_num)] at r2; left; omega
      · rw [← e0]; exact he
    · refine wrap_top hd hd' hx (by omega) ?_
      rw [show x + d - 2 ^ 32 = (x + d) % 2 ^ 32 by omega]
      exact he
  · have s := allBelow_spec (allBelow_spec (allBelow_spec (allBelow_spec separated (i := i - 1) (by omega)) (i := d - 1) (by omega)) hw) hc
    rw [show d - 1 + 1 = d by omega, show i - 1 + 1 = i by omega, r] at s
    cases s

/-! ## Memory -/

theorem load_lt (m : Mem) (a n : Nat) : load m a n < 256 ^ n := by
  induction n generalizing a with
  | zero => rw [load]; norm_num
  | succ n ih => rw [load, pow_succ]; have := ih (a + 1); have := Nat.mod_lt (m a) (show 256 > 0 by norm_num); omega

theorem load_congr {m m' : Mem} {a n : Nat} (h : ∀ x, a ≤ x → x < a + n → m' x = m x) : load m' a n = load m a n := by
  induction n generalizing a with
  | zero => rfl
  | succ n ih => rw [load, load, h a (by omega) (by omega), ih fun x h1 h2 => h x (by omega) (by omega)]

theorem store_other {m : Mem} {a n v x : Nat} (h : x < a ∨ a + n ≤ x) : store m a n v x = m x := by
  unfold store; rw [if_neg (by omega)]

theorem load_store (m : Mem) (a n v : Nat) (h : v < 256 ^ n) : load (store m a n v) a n = v := by
  have key : ∀ (n a : Nat) (m' : Mem) (v : Nat), v < 256 ^ n → (∀ i < n, m' (a + i) = v / 256 ^ i % 256) → load m' a n = v := by
    intro n
    induction n with
    | zero => intro a m' v hv _; rw [pow_zero] at hv; rw [load]; omega
    | succ n ih =>
      intro a m' v hv hm
      rw [load, ih (a + 1) m' (v / 256) (by rw [pow_succ] at hv; omega) ?_]
      · have := hm 0 (by omega)
        rw [Nat.add_zero, pow_zero, Nat.div_one] at this
        rw [this]; omega
      · intro i hi
        rw [show a + 1 + i = a + (i + 1) by omega, hm (i + 1) (by omega), pow_succ, Nat.mul_comm, Nat.div_div_eq_div_mul]
  refine key n a _ v h fun i hi => ?_
  unfold store
  rw [if_pos (by omega), Nat.add_sub_cancel_left]

theorem markAt_congr {m m' : Mem} {a : Nat} (h : ∀ x, a ≤ x → x < a + 8 → m' x = m x) : markAt m' a = markAt m a := by
  unfold markAt
  rw [load_congr fun x h1 h2 => h x h1 (by omega), load_congr fun x h1 h2 => h x (by omega) (by omega)]

theorem putMark_other {m : Mem} {a x : Nat} {k : Mark} (h : x < a ∨ a + 8 ≤ x) : putMark m a k x = m x := by
  unfold putMark
  rw [store_other (by omega), store_other (by omega)]

theorem markAt_putMark (m : Mem) (a : Nat) (k : Mark) (h1 : k.chirp < 2 ^ 32) (h2 : k.mesh < 2 ^ 32) : markAt (putMark m a k) a = k := by
  unfold markAt putMark
  rw [load_store _ _ _ _ (by norm_num; omega), load_congr (m := store m a 4 k.chirp) fun x a1 a2 => store_other (by omega),
    load_store _ _ _ _ (by norm_num; omega)]

theorem load_byte {m m' : Mem} {a n i : Nat} (hi : i < n) (h : ∀ x, x ≠ a + i → m' x = m x) :
    load m' a n + m (a + i) % 256 * 256 ^ i = load m a n + m' (a + i) % 256 * 256 ^ i := by
  induction n generalizing a i with
  | zero => omega
  | succ n ih =>
    rw [load, load]
    cases i with
    | zero =>
      rw [load_congr (m := m) (m' := m') fun x h1 h2 => h x (by omega)]
      simp only [Nat.add_zero, pow_zero]
      omega
    | succ i =>
      have := ih (a := a + 1) (i := i) (by omega) fun x hx => h x (by omega)
      rw [show a + 1 + i = a + (i + 1) by omega] at this
      rw [h a (by omega), pow_succ]
      generalize m (a + (i + 1)) % 256 = u at *
      generalize m' (a + (i + 1)) % 256 = v at *
      generalize 256 ^ i = w at *
      have e1 : u * (w * 256) = 256 * (u * w) := by ring
      have e2 : v * (w * 256) = 256 * (v * w) := by ring
      rw [e1, e2]
      omega

theorem probe_true {k : Mark} {s : Nat} (h : probe false k s = true) : fairly k.chirp = true ∧ fairly k.mesh = true ∧ k.mesh = mixup k.chirp s := by
  unfold probe at h
  rw [if_neg (by decide)] at h
  cases h1 : fairly k.chirp <;> cases h2 : fairly k.mesh <;> rw [h1, h2] at h
  · cases h
  · cases h
  · cases h
  · exact ⟨rfl, rfl, by simpa using h⟩

theorem probe_of {off : Bool} {k : Mark} {s : Nat} (h1 : fairly k.chirp = true) (h2 : fairly k.mesh = true) (h3 : k.mesh = mixup k.chirp s) :
    probe off k s = true := by
  unfold probe
  rw [h1, h2]
  cases off
  · simp [h3]
  · rfl

/-- Sums that differ in one byte have different digests. -/
theorem mixup_byte {u v s d i : Nat} (hi : i < 4) (hd : 1 ≤ d) (hd' : d < 256) (h : v = u + d * 2 ^ (8 * i)) : mixup u s ≠ mixup v s := by
  rw [mixup_fold, mixup_fold, h]
  have := fold_byte (x := (u + s) % 2 ^ 32) (Nat.mod_lt _ (by norm_num)) hi hd hd'
  rwa [show ((u + s) % 2 ^ 32 + d * 2 ^ (8 * i)) % 2 ^ 32 = (u + d * 2 ^ (8 * i) + s) % 2 ^ 32 by omega] at this

theorem probe_byte {m m' : Mem} {a b s : Nat} (hp : probe false (markAt m a) s = true) (h1 : a ≤ b) (h2 : b < a + 8)
    (h : ∀ x, x ≠ b → m' x = m x) (hb : m' b % 256 ≠ m b % 256) : probe false (markAt m' a) s = false := by
  obtain ⟨f1, f2, f3⟩ := probe_true hp
  by_contra c
  rw [Bool.not_eq_false] at c
  obtain ⟨g1, g2, g3⟩ := probe_true c
  have l1 := Nat.mod_lt (m b) (show 256 > 0 by norm_num)
  have l2 := Nat.mod_lt (m' b) (show 256 > 0 by norm_num)
  rcases Nat.lt_or_ge b (a + 4) with q | q
  · have e1 := load_byte (n := 4) (a := a) (i := b - a) (m := m) (m' := m') (by omega) (by rw [show a + (b - a) = b by omega]; exact h)
    rw [show a + (b - a) = b by omega, show (256 : Nat) = 2 ^ 8 by norm_num, ← pow_mul] at e1
    have e2 : load m' (a + 4) 4 = load m (a + 4) 4 := load_congr fun x _ _ => h x (by omega)
    have e3 : mixup (load m a 4) s = mixup (load m' a 4) s := by
      unfold markAt at f3 g3
      exact f3.symm.trans (e2.symm.trans g3)
    norm_num at l1 l2 hb e1
    have w0 : 0 < 2 ^ (8 * (b - a)) := by positivity
    rcases Nat.lt_or_gt_of_ne hb with lt | gt
    · refine mixup_byte (u := load m' a 4) (v := load m a 4) (i := b - a) (d := m b % 256 - m' b % 256) (by omega) (by omega) (by omega) ?_ e3.symm
      rw [Nat.sub_mul]
      have := Nat.mul_le_mul_right (2 ^ (8 * (b - a))) (Nat.le_of_lt lt)
      omega
    · refine mixup_byte (u := load m a 4) (v := load m' a 4) (i := b - a) (d := m' b % 256 - m b % 256) (by omega) (by omega) (by omega) ?_ e3
      rw [Nat.sub_mul]
      have := Nat.mul_le_mul_right (2 ^ (8 * (b - a))) (Nat.le_of_lt gt)
      omega
  · have e1 : load m' a 4 = load m a 4 := load_congr fun x _ _ => h x (by omega)
    have e2 := load_byte (n := 4) (a := a + 4) (i := b - (a + 4)) (m := m) (m' := m') (by omega) (by rw [show a + 4 + (b - (a + 4)) = b by omega]; exact h)
    rw [show a + 4 + (b - (a + 4)) = b by omega] at e2
    unfold markAt at f3 g3
    rw [e1, ← f3] at g3
    dsimp only at g3
    rw [g3] at e2
    have := Nat.eq_of_mul_eq_mul_right (show 0 < 256 ^ (b - (a + 4)) by positivity) (Nat.add_left_cancel e2)
    exact hb this.symm

end Fptu.Guard
