import Verif.Lemmas.TupleSet
/-!
# What a stored value leaves in memory does not depend on what was there before
-/
namespace Fptu.Memory

theorem cell_ext {m m' : Memory} {u : Nat} (h1 : (m u).lo < 65536 ∧ (m u).hi < 65536) (h2 : (m' u).lo < 65536 ∧ (m' u).hi < 65536)
    (hb : ∀ j, j / 4 = u → m.byte j = m'.byte j) : m u = m' u := by
  have b0 := hb (4 * u) (by omega)
  have b1 := hb (4 * u + 1) (by omega)
  have b2 := hb (4 * u + 2) (by omega)
  have b3 := hb (4 * u + 3) (by omega)
  unfold byte at b0 b1 b2 b3
  simp only [show 4 * u / 4 = u by omega, show (4 * u + 1) / 4 = u by omega, show (4 * u + 2) / 4 = u by omega, show (4 * u + 3) / 4 = u by omega,
    show 4 * u % 4 = 0 by omega, show (4 * u + 1) % 4 = 1 by omega, show (4 * u + 2) % 4 = 2 by omega, show (4 * u + 3) % 4 = 3 by omega,
    show 4 * u % 2 = 0 by omega, show (4 * u + 1) % 2 = 1 by omega, show (4 * u + 2) % 2 = 0 by omega, show (4 * u + 3) % 2 = 1 by omega] at b0 b1 b2 b3
  simp only [show (0 : Nat) < 2 by decide, show (1 : Nat) < 2 by decide, show ¬ (2 : Nat) < 2 by decide, show ¬ (3 : Nat) < 2 by decide,
    if_true, if_false, one_ne_zero] at b0 b1 b2 b3
  cases hc : m u with
  | mk lo hi =>
    cases hc' : m' u with
    | mk lo' hi' =>
      rw [hc] at b0 b1 b2 b3 h1
      rw [hc'] at b0 b1 b2 b3 h2
      simp only at b0 b1 b2 b3 h1 h2
      have e1 : lo = lo' := by omega
      have e2 : hi = hi' := by omega
      rw [e1, e2]

theorem setByte_lo (m : Memory) {k v u : Nat} (hv : v < 256) (h : (m u).lo < 65536 ∨ k = 4 * u + 1) : (m.setByte k v u).lo < 65536 := by
  by_cases hu : u = k / 4
  · unfold setByte
    simp only
    rw [hu, set_same]
    rw [hu] at h
    split_ifs with c1 c2
    · simp only
      rcases h with h | h
      · omega
      · omega
    · simp only; omega
    · simp only
      rcases h with h | h
      · exact h
      · omega
    · simp only
      rcases h with h | h
      · exact h
      · omega
  · rw [setByte_cell_ne m hu]
    rcases h with h | h
    · exact h
    · omega

theorem setByte_hi (m : Memory) {k v u : Nat} (hv : v < 256) (h : (m u).hi < 65536 ∨ k = 4 * u + 3) : (m.setByte k v u).hi < 65536 := by
  by_cases hu : u = k / 4
  · unfold setByte
    simp only
    rw [hu, set_same]
    rw [hu] at h
    split_ifs with c1 c2 c3
    · simp only
      rcases h with h | h
      · exact h
      · omega
    · simp only
      rcases h with h | h
      · exact h
      · omega
    · simp only
      rcases h with h | h
      · omega
      · omega
    · simp only; omega
  · rw [setByte_cell_ne m hu]
    rcases h with h | h
    · exact h
    · omega

theorem writeBytes_lo (m : Memory) (k : Nat) (bs : List Nat) (hb : ∀ b ∈ bs, b < 256) (u : Nat)
    (h : (m u).lo < 65536 ∨ (k ≤ 4 * u + 1 ∧ 4 * u + 1 < k + bs.length)) : (m.writeBytes k bs u).lo < 65536 := by
  induction bs generalizing m k with
  | nil =>
    rcases h with h | h
    · exact h
    · simp only [List.length_nil] at h; omega
  | cons b bs ih =>
    refine ih _ _ (fun x hx => hb x (List.mem_cons_of_mem _ hx)) ?_
    have hb0 := hb b List.mem_cons_self
    simp only [List.length_cons] at h
    by_cases c : k = 4 * u + 1
    · exact Or.inl (setByte_lo m hb0 (Or.inr c))
    · rcases h with h | h
      · exact Or.inl (setByte_lo m hb0 (Or.inl h))
      · exact Or.inr (by omega)

theorem writeBytes_hi (m : Memory) (k : Nat) (bs : List Nat) (hb : ∀ b ∈ bs, b < 256) (u : Nat)
    (h : (m u).hi < 65536 ∨ (k ≤ 4 * u + 3 ∧ 4 * u + 3 < k + bs.length)) : (m.writeBytes k bs u).hi < 65536 := by
  induction bs generalizing m k with
  | nil =>
    rcases h with h | h
    · exact h
    · simp only [List.length_nil] at h; omega
  | cons b bs ih =>
    refine ih _ _ (fun x hx => hb x (List.mem_cons_of_mem _ hx)) ?_
    have hb0 := hb b List.mem_cons_self
    simp only [List.length_cons] at h
    by_cases c : k = 4 * u + 3
    · exact Or.inl (setByte_hi m hb0 (Or.inr c))
    · rcases h with h | h
      · exact Or.inl (setByte_hi m hb0 (Or.inl h))
      · exact Or.inr (by omega)

/-- Bytes written from a unit boundary, the last unit having been cleared. -/
theorem writeBytes_det {M M' : Memory} {q : Nat} {bs : List Nat} (hb : ∀ b ∈ bs, b < 256) {u : Nat} (h1 : q ≤ u)
    (h2 : u < q + (bs.length + 3) / 4) (hl : u + 1 = q + (bs.length + 3) / 4 → M u = .zero ∧ M' u = .zero) :
    M.writeBytes (4 * q) bs u = M'.writeBytes (4 * q) bs u := by
  by_cases c : u + 1 = q + (bs.length + 3) / 4
  · obtain ⟨z1, z2⟩ := hl c
    have l0 : (0 : Nat) < 65536 := by decide
    refine cell_ext ⟨writeBytes_lo _ _ _ hb _ (Or.inl (by rw [z1]; exact l0)), writeBytes_hi _ _ _ hb _ (Or.inl (by rw [z1]; exact l0))⟩
      ⟨writeBytes_lo _ _ _ hb _ (Or.inl (by rw [z2]; exact l0)), writeBytes_hi _ _ _ hb _ (Or.inl (by rw [z2]; exact l0))⟩ (fun j hj => ?_)
    rw [byte_writeBytes _ _ _ hb, byte_writeBytes _ _ _ hb]
    congr 1
    exact byte_congr (by rw [hj, z1, z2])
  · refine cell_ext ⟨writeBytes_lo _ _ _ hb _ (Or.inr (by omega)), writeBytes_hi _ _ _ hb _ (Or.inr (by omega))⟩
      ⟨writeBytes_lo _ _ _ hb _ (Or.inr (by omega)), writeBytes_hi _ _ _ hb _ (Or.inr (by omega))⟩ (fun j hj => ?_)
    rw [byte_writeBytes _ _ _ hb, byte_writeBytes _ _ _ hb, if_pos (by omega), if_pos (by omega)]

theorem setByte_congr {m m' : Memory} {k v u : Nat} (h : m u = m' u) : m.setByte k v u = m'.setByte k v u := by
  by_cases hu : u = k / 4
  · unfold setByte
    simp only
    rw [hu, set_same, set_same, ← hu, h]
  · rw [setByte_cell_ne m hu, setByte_cell_ne m' hu, h]

theorem writeBytes_congr {m m' : Memory} {k u : Nat} (bs : List Nat) (h : m u = m' u) : m.writeBytes k bs u = m'.writeBytes k bs u := by
  induction bs generalizing m m' k with
  | nil => exact h
  | cons b bs ih => exact ih (setByte_congr h)

theorem setByte_twice (m : Memory) {k x v : Nat} (hx : x < 256) : (m.setByte k x).setByte k v = m.setByte k v := by
  have e1 : ∀ h : Nat, (h / 256 * 256 + x) / 256 * 256 + v = h / 256 * 256 + v := by intro h; omega
  have e2 : ∀ h : Nat, v * 256 + (x * 256 + h % 256) % 256 = v * 256 + h % 256 := by intro h; omega
  unfold setByte
  simp only [set_same]
  funext u
  by_cases hu : u = k / 4
  · rw [hu, set_same, set_same]
    by_cases c1 : k % 4 < 2
    · simp only [c1, if_true]
      by_cases c2 : k % 2 = 0
      · simp only [c2, if_true, e1]
      · simp only [c2, if_false, e2]
    · simp only [c1, if_false]
      by_cases c2 : k % 2 = 0
      · simp only [c2, if_true, e1]
      · simp only [c2, if_false, e2]
  · rw [set_ne _ _ hu, set_ne _ _ hu, set_ne _ _ hu]

end Fptu.Memory

namespace Fptu.Rw
open Fptu.Gear

theorem str_store (p : Nat) (v : List Nat) : ∃ hdr : List Nat, (∀ b ∈ hdr, b < 256) ∧
    hdr.length = (if v.length < Str.tinyThreshold then 1 else 3) ∧
    ∀ m : Memory, Str.store m p v = (m.set (p + (bytes2units (v.length + if v.length < Str.tinyThreshold then 1 else 3) - 1)) .zero).writeBytes (4 * p) (hdr ++ v) := by
  by_cases c : v.length < Str.tinyThreshold
  · refine ⟨[v.length % 256], ?_, by rw [if_pos c]; rfl, fun m => ?_⟩
    · intro b hb
      rw [List.mem_singleton.1 hb]
      omega
    · unfold Str.store
      simp only
      rw [if_neg (by omega)]
      rfl
  · refine ⟨[(Str.tinyThreshold + v.length % 2) % 256, ((v.length - (Str.tinyThreshold + v.length % 2) % 256) / 2) % 65536 % 256,
      ((v.length - (Str.tinyThreshold + v.length % 2) % 256) / 2) % 65536 / 256], ?_, by rw [if_neg c]; rfl, fun m => ?_⟩
    · intro b hb
      simp only [List.mem_cons, List.not_mem_nil, or_false] at hb
      rcases hb with hb | hb | hb <;> rw [hb] <;> omega
    · unfold Str.store
      simp only
      rw [if_pos (by omega), Memory.setByte_twice _ (by omega)]
      rfl

/-- Storing a value sets each of its units to something that depends on the value only. -/
theorem write_det {g : Genus} {v : Val} {n : Nat} (hf : v.fits g) (hn : needs g v n) (h0 : 0 < n) (m m' : Memory) (p : Nat) {u : Nat}
    (h1 : p ≤ u) (h2 : u < p + n) : v.write m p u = v.write m' p u := by
  cases v with
  | inline x =>
    obtain ⟨k1, k2, k3, _⟩ := fits_inline hf
    unfold needs at hn
    rw [k2, if_pos rfl] at hn
    omega
  | units cs =>
    obtain ⟨_, k2, k3, _⟩ := fits_units hf
    unfold needs at hn
    rw [k2, if_pos rfl] at hn
    show m.writeCells p cs u = m'.writeCells p cs u
    rw [Memory.writeCells_apply, Memory.writeCells_apply, if_pos (by omega), if_pos (by omega)]
  | text v =>
    have hfg : g = .text := by
      simp only [Val.fits, Bool.and_eq_true, decide_eq_true_eq] at hf; exact hf.1
    subst hfg
    simp only [Val.fits, Bool.and_eq_true, decide_eq_true_eq, List.all_eq_true] at hf
    have hn : Str.estimate v.length = .ok n := hn
    obtain ⟨hdr, b1, b2, b3⟩ := str_store p v
    have hun : n = bytes2units (v.length + if v.length < Str.tinyThreshold then 1 else 3) := by
      unfold Str.estimate at hn
      by_cases c : v.length > Str.maxLength
      · rw [if_pos c] at hn; cases hn
      · rw [if_neg c] at hn; exact (Except.ok.inj hn).symm
    have hlen : (hdr ++ v).length = v.length + if v.length < Str.tinyThreshold then 1 else 3 := by rw [List.length_append, b2]; omega
    have hq : n = ((hdr ++ v).length + 3) / 4 := by
      rw [hun, hlen]
      unfold bytes2units
      rw [Nat.shiftRight_eq_div_pow]
      generalize v.length + _ = x
      omega
    show Str.store m p v u = Str.store m' p v u
    rw [b3, b3, ← hun]
    refine Memory.writeBytes_det ?_ h1 (by rw [← hq]; exact h2) (fun e => ?_)
    · intro b hb
      rcases List.mem_append.1 hb with hb | hb
      · exact b1 b hb
      · exact hf.2 b hb
    · rw [← hq] at e
      have : u = p + (n - 1) := by omega
      rw [this]
      exact ⟨Memory.set_same _ _ _, Memory.set_same _ _ _⟩
  | varbin v =>
    have hfg : g = .varbin := by
      simp only [Val.fits, Bool.and_eq_true, decide_eq_true_eq] at hf; exact hf.1
    subst hfg
    simp only [Val.fits, Bool.and_eq_true, decide_eq_true_eq, List.all_eq_true] at hf
    have hn : Varbin.estimate v.length = .ok n := hn
    have hun : n = bytes2units v.length + 1 := by
      unfold Varbin.estimate at hn
      simp only at hn
      split_ifs at hn
      exact (Except.ok.inj hn).symm
    have hq : bytes2units v.length = (v.length + 3) / 4 := by
      unfold bytes2units
      rw [Nat.shiftRight_eq_div_pow]
      generalize v.length = x
      omega
    show Varbin.store m p v u = Varbin.store m' p v u
    unfold Varbin.store
    by_cases c : u = p
    · refine Memory.writeBytes_congr _ ?_
      rw [c, Memory.set_same, Memory.set_same, Memory.set_same, Memory.set_same]
    · refine Memory.writeBytes_det hf.2 (by omega) (by omega) (fun e => ?_)
      have : u = p + (bytes2units v.length + 1 - 1) := by omega
      rw [Memory.set_ne _ _ c, Memory.set_ne _ _ c, Memory.set_ne _ _ c, Memory.set_ne _ _ c, this]
      exact ⟨Memory.set_same _ _ _, Memory.set_same _ _ _⟩
  | property v id =>
    have hfg : g = .property := by
      simp only [Val.fits, Bool.and_eq_true, decide_eq_true_eq] at hf; exact hf.1.1
    subst hfg
    simp only [Val.fits, Bool.and_eq_true, decide_eq_true_eq, List.all_eq_true] at hf
    have hn : Property.estimate v.length = .ok n := hn
    have hun : n = bytes2units (v.length + 2) := by
      unfold Property.estimate at hn
      split_ifs at hn
      exact (Except.ok.inj hn).symm
    have hlen : ([v.length % 256, id] ++ v).length = v.length + 2 := by rw [List.length_append]; simp only [List.length_cons, List.length_nil]; omega
    have hq : n = (([v.length % 256, id] ++ v).length + 3) / 4 := by
      rw [hun, hlen]
      unfold bytes2units
      rw [Nat.shiftRight_eq_div_pow]
      generalize v.length + _ = x
      omega
    have e3 : ∀ m : Memory, Property.store m p v id = (m.set (p + (n - 1)) .zero).writeBytes (4 * p) ([v.length % 256, id] ++ v) := by
      intro m; rw [hun]; rfl
    show Property.store m p v id u = Property.store m' p v id u
    rw [e3, e3]
    refine Memory.writeBytes_det ?_ h1 (by rw [← hq]; exact h2) (fun e => ?_)
    · intro b hb
      simp only [List.cons_append, List.nil_append, List.mem_cons] at hb
      rcases hb with hb | hb | hb
      · omega
      · rw [hb]; exact hf.2
      · exact hf.1.2 b hb
    · rw [← hq] at e
      have : u = p + (n - 1) := by omega
      rw [this]
      exact ⟨Memory.set_same _ _ _, Memory.set_same _ _ _⟩
  | nested v =>
    cases v with
    | none =>
      have hfg := nested_none_genus hf
      subst hfg
      have hn : (Except.ok 0 : Except Exc Nat) = .ok n := hn
      have := Except.ok.inj hn
      omega
    | some v =>
      simp only [Val.fits, Bool.and_eq_true, decide_eq_true_eq] at hf
      obtain ⟨⟨hfg, _, hl⟩, _⟩ := hf
      subst hfg
      have hn : (Except.ok (v.headD .zero).lo : Except Exc Nat) = .ok n := hn
      have hn := Except.ok.inj hn
      show (m.set p .zero).writeCells p (v.take (v.headD .zero).lo) u = (m'.set p .zero).writeCells p (v.take (v.headD .zero).lo) u
      have hlen : (v.take (v.headD .zero).lo).length = n := by rw [List.length_take, hl]; omega
      rw [Memory.writeCells_apply, Memory.writeCells_apply, if_pos (by omega), if_pos (by omega)]

end Fptu.Rw
