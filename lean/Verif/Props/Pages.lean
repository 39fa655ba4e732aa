import Verif.Model.Pages
import Mathlib.Tactic.Ring
import Mathlib.Tactic.NormNum
/-!
# C87: probing memory touches the pages of the range, stays inside of it and changes nothing
-/
namespace Fptu.Props
open Fptu.Pages

private theorem probe_mem {rw : Bool} {env : Nat → Mem → Mem} {addr bytes step offset t : Nat} {m : Mem} {a : Nat} (hs : 0 < step) :
    a ∈ (probeLoop rw env addr bytes step offset t m).1 ↔ ∃ k, a = addr + (offset + k * step) ∧ offset + k * step < bytes := by
  fun_induction probeLoop rw env addr bytes step offset t m with
  | case1 offset t m h m1 probe m2 m3 r ih =>
    rw [List.mem_cons, ih]
    constructor
    · rintro (h1 | ⟨k, h1, h2⟩)
      · exact ⟨0, by omega, by omega⟩
      · refine ⟨k + 1, ?_, ?_⟩ <;> rw [Nat.add_mul, Nat.one_mul] <;> omega
    · rintro ⟨k, h1, h2⟩
      cases k with
      | zero => left; omega
      | succ k =>
        right
        rw [Nat.add_mul, Nat.one_mul] at h1 h2
        exact ⟨k, by omega, by omega⟩
  | case2 offset t m h =>
    constructor
    · intro k; cases k
    · rintro ⟨k, _, h2⟩
      exact absurd ⟨by omega, hs⟩ h

/-- What the other threads do to the memory in the moments from `t` on, `n` of them. -/
def meanwhile (env : Nat → Mem → Mem) : Nat → Nat → Mem → Mem
  | _, 0, m => m
  | t, n + 1, m => meanwhile env (t + 1) n (env t m)

private theorem cas_same (m : Mem) (a v : Nat) : cas m a v v = m := by
  unfold cas
  split
  · rename_i h; rw [← h, Function.update_eq_self]
  · rfl

private theorem probe_state {rw : Bool} {env : Nat → Mem → Mem} {addr bytes step offset t : Nat} {m : Mem} :
    (probeLoop rw env addr bytes step offset t m).2 = meanwhile env t (2 * (probeLoop rw env addr bytes step offset t m).1.length) m := by
  fun_induction probeLoop rw env addr bytes step offset t m with
  | case1 offset t m h m1 probe m2 m3 r ih =>
    have e : m3 = m2 := by
      show (if rw = true then cas m2 (addr + offset) probe probe else m2) = m2
      rw [cas_same]; exact ite_self _
    show r.2 = meanwhile env t (2 * (r.1.length + 1)) m
    rw [show 2 * (r.1.length + 1) = 2 * r.1.length + 1 + 1 by ring]
    show r.2 = meanwhile env (t + 1 + 1) (2 * r.1.length) (env (t + 1) (env t m))
    have ih' : r.2 = meanwhile env (t + 2) (2 * r.1.length) m3 := ih
    rw [ih', e]
  | case2 offset t m h => rfl

/-- **C87 (bounds).** `probe_pages` accesses only bytes of the range it is given, for every range and step; it does not end exactly when the
step is zero and the range is not empty; an empty or negative range is not accessed. -/
theorem C87_inside (rw : Bool) (env : Nat → Mem → Mem) (addr : Nat) (bytes : Int) (step : Nat) (m : Mem) :
    (probePages rw env addr bytes step m = none ↔ 0 < bytes ∧ step = 0) ∧
    ∀ l m', probePages rw env addr bytes step m = some (l, m') → (∀ a ∈ l, addr ≤ a ∧ (a : Int) < addr + bytes) ∧ (0 < bytes → addr ∈ l) := by
  unfold probePages
  by_cases h : 0 < bytes ∧ step = 0
  · rw [if_pos h]
    exact ⟨⟨fun _ => h, fun _ => rfl⟩, fun l m' k => by cases k⟩
  · rw [if_neg h]
    refine ⟨⟨fun k => (by cases k), fun k => absurd k h⟩, fun l m' k => ?_⟩
    have e := Option.some.inj k
    by_cases hb : 0 < bytes
    · have hs : 0 < step := by omega
      have hl : l = (probeLoop rw env addr bytes.toNat step 0 0 m).1 := by rw [e]
      subst hl
      refine ⟨fun a ha => ?_, fun _ => (probe_mem hs).2 ⟨0, by omega, by omega⟩⟩
      obtain ⟨k, h1, h2⟩ := (probe_mem hs).1 ha
      omega
    · have hz : bytes.toNat = 0 := by omega
      rw [hz, probeLoop, dif_neg (by omega)] at e
      injection e with e1 e2
      subst e1
      exact ⟨fun a ha => (by cases ha), fun k => absurd k hb⟩

/-- **C87 (contents).** `probe_pages` never changes the memory, also when it "writes", and also when other threads change the probed bytes between
its load and its exchange: what is there afterwards is what the other threads alone have made of it. -/
theorem C87_unchanged {rw : Bool} {env : Nat → Mem → Mem} {addr : Nat} {bytes : Int} {step : Nat} {m m' : Mem} {l : List Nat}
    (h : probePages rw env addr bytes step m = some (l, m')) : m' = meanwhile env 0 (2 * l.length) m := by
  unfold probePages at h
  split at h
  · cases h
  · have e := Option.some.inj h
    have := probe_state (rw := rw) (env := env) (addr := addr) (bytes := bytes.toNat) (step := step) (offset := 0) (t := 0) (m := m)
    rw [e] at this
    exact this

/-- Every page (of `page` bytes) of which a byte is in the range has been accessed. -/
def AllPages (page addr : Nat) (bytes : Int) (l : List Nat) : Prop :=
  ∀ x : Nat, addr ≤ x → (x : Int) < addr + bytes → ∃ a ∈ l, a / page = x / page

private theorem page_of {addr page k : Nat} (hp : 0 < page) : (addr + k * page) / page = addr / page + k := Nat.add_mul_div_right _ _ hp

/-- **C87 (pages).** Called with the page size, `probe_pages` accesses every page of the range exactly when the last page of the range is as far from the first
one as it would be for a range of the same length at the start of a page. -/
theorem C87_pages {rw : Bool} {env : Nat → Mem → Mem} {addr page : Nat} {bytes : Int} {m m' : Mem} {l : List Nat} (hp : 0 < page) (hb : 0 < bytes)
    (h : probePages rw env addr bytes page m = some (l, m')) :
    AllPages page addr bytes l ↔ (addr % page + (bytes.toNat - 1)) / page = (bytes.toNat - 1) / page := by
  have hl : l = (probeLoop rw env addr bytes.toNat page 0 0 m).1 := by
    unfold probePages at h
    rw [if_neg (by omega)] at h
    rw [Option.some.inj h]
  obtain ⟨n, hn⟩ : ∃ n : Nat, bytes = n + 1 := ⟨bytes.toNat - 1, by omega⟩
  have ht : bytes.toNat = n + 1 := by omega
  rw [ht] at hl ⊢
  subst hn
  have hmem : ∀ a, a ∈ l ↔ ∃ k, a = addr + k * page ∧ k ≤ n / page := by
    intro a
    rw [hl, probe_mem hp]
    constructor
    · rintro ⟨k, h1, h2⟩
      exact ⟨k, by omega, (Nat.le_div_iff_mul_le hp).2 (by omega)⟩
    · rintro ⟨k, h1, h2⟩
      have := (Nat.le_div_iff_mul_le hp).1 h2
      exact ⟨k, by omega, by omega⟩
  have hlast : ∀ j, (addr + j) / page = addr / page + (addr % page + j) / page := by
    intro j
    conv_lhs => rw [← Nat.div_add_mod addr page, Nat.add_assoc, Nat.mul_add_div hp]
  rw [Nat.add_sub_cancel]
  constructor
  · intro ha
    obtain ⟨a, h1, h2⟩ := ha (addr + n) (by omega) (by omega)
    obtain ⟨k, rfl, h3⟩ := (hmem a).1 h1
    rw [page_of hp, hlast n] at h2
    have : n / page ≤ (addr % page + n) / page := Nat.div_le_div_right (by omega)
    omega
  · intro he x hx1 hx2
    obtain ⟨j, rfl⟩ : ∃ j, x = addr + j := ⟨x - addr, by omega⟩
    have hj : j ≤ n := by omega
    refine ⟨addr + (addr % page + j) / page * page, (hmem _).2 ⟨_, rfl, ?_⟩, ?_⟩
    · rw [← he]; exact Nat.div_le_div_right (by omega)
    · rw [page_of hp, hlast j]

/-- **C87 (partial: aligned ranges).** For a range that begins at a page, every page of the range is accessed. In full, for every range, it is
false (`C87_pages_refuted`). -/
theorem C87_aligned_partial {rw : Bool} {env : Nat → Mem → Mem} {addr page : Nat} {bytes : Int} {m m' : Mem} {l : List Nat} (hp : 0 < page) (ha : addr % page = 0)
    (h : probePages rw env addr bytes page m = some (l, m')) : AllPages page addr bytes l := by
  by_cases hb : 0 < bytes
  · rw [C87_pages hp hb h, ha, Nat.zero_add]
  · intro x hx1 hx2; omega

/-- **C87 (refuted in full).** The payload of a buffer does not begin at a page. A deep check of a buffer with 8192 bytes, 48 bytes behind the
start of a page, does not access its last page, wherever that page is; neither does a check of 2 bytes on both sides of a page boundary. -/
theorem C87_pages_refuted (rw : Bool) (env : Nat → Mem → Mem) (m : Mem) :
    (∀ base l m', probePages rw env (4096 * base + 48) 8192 4096 m = some (l, m') → ¬ AllPages 4096 (4096 * base + 48) 8192 l) ∧
    ∀ base l m', probePages rw env (4096 * base + 4095) 2 4096 m = some (l, m') → ¬ AllPages 4096 (4096 * base + 4095) 2 l := by
  constructor
  · intro base l m' h
    rw [C87_pages (by decide) (by decide) h, show (4096 * base + 48) % 4096 = 48 by omega]
    decide
  · intro base l m' h
    rw [C87_pages (by decide) (by decide) h, show (4096 * base + 4095) % 4096 = 4095 by omega]
    decide

/-! ## `prefault_oomsafe` -/

private theorem batch_spec (addr bytes step : Nat) (hs : 0 < step) (n offset : Nat) :
    (batch addr bytes step n offset).2 = offset + (batch addr bytes step n offset).1.length * step ∧
    (batch addr bytes step n offset).1.length ≤ n ∧
    (0 < n → offset < bytes → (batch addr bytes step n offset).1 ≠ []) ∧
    (∀ a, a ∈ (batch addr bytes step n offset).1 ↔ ∃ k, k < n ∧ a = addr + (offset + k * step) ∧ offset + k * step < bytes) ∧
    (∀ k, offset + k * step < bytes → n ≤ k → (batch addr bytes step n offset).1.length = n) := by
  induction n generalizing offset with
  | zero =>
    refine ⟨by simp [batch], by simp [batch], fun h => by omega, fun a => ⟨fun h => by simp [batch] at h, ?_⟩, fun _ _ _ => rfl⟩
    rintro ⟨k, h, _⟩; omega
  | succ n ih =>
    obtain ⟨h1, h2, h3, h4, h5⟩ := ih (offset + step)
    by_cases c : offset < bytes
    · have e : batch addr bytes step (n + 1) offset =
          ((addr + offset) :: (batch addr bytes step n (offset + step)).1, (batch addr bytes step n (offset + step)).2) := by
        rw [batch, if_pos c]
      rw [e]
      dsimp only
      refine ⟨?_, ?_, ?_, ?_, ?_⟩
      · rw [h1, List.length_cons, Nat.add_mul, Nat.one_mul]; omega
      · rw [List.length_cons]; omega
      · exact fun _ _ => List.cons_ne_nil _ _
      · intro a
        rw [List.mem_cons, h4]
        constructor
        · rintro (k | ⟨k, k1, k2, k3⟩)
          · exact ⟨0, by omega, by omega, by omega⟩
          · refine ⟨k + 1, by omega, ?_, ?_⟩ <;> rw [Nat.add_mul, Nat.one_mul] <;> omega
        · rintro ⟨k, k1, k2, k3⟩
          cases k with
          | zero => left; omega
          | succ k =>
            right
            rw [Nat.add_mul, Nat.one_mul] at k2 k3
            exact ⟨k, by omega, by omega, by omega⟩
      · intro k k1 k2
        obtain ⟨j, rfl⟩ := Nat.exists_eq_add_of_le' (show 1 ≤ k by omega)
        rw [Nat.add_mul, Nat.one_mul] at k1
        rw [List.length_cons, h5 j (by omega) (by omega)]
    · have e : batch addr bytes step (n + 1) offset = ([], offset) := by rw [batch, if_neg c]
      rw [e]
      dsimp only
      refine ⟨by simp, by simp, fun _ h => absurd h c, fun a => ⟨fun h => (by cases h), ?_⟩, fun k h => by omega⟩
      rintro ⟨k, _, _, h⟩; omega

private theorem prefault_spec {writev : List Nat → Option Nat} {efault enomem limit addr bytes step offset : Nat} (hs : 0 < step) (hl : 0 < limit) :
    (∀ b ∈ (prefaultLoop writev efault enomem limit addr bytes step offset).1, b ≠ [] ∧ b.length ≤ limit ∧ ∀ a ∈ b, addr + offset ≤ a ∧ a < addr + bytes) ∧
    ((prefaultLoop writev efault enomem limit addr bytes step offset).2 = none →
      (∀ b ∈ (prefaultLoop writev efault enomem limit addr bytes step offset).1, writev b = none) ∧
      ∀ k, offset + k * step < bytes → ∃ b ∈ (prefaultLoop writev efault enomem limit addr bytes step offset).1, addr + (offset + k * step) ∈ b) ∧
    (∀ e, (prefaultLoop writev efault enomem limit addr bytes step offset).2 = some e →
      ∃ b x, (prefaultLoop writev efault enomem limit addr bytes step offset).1.getLast? = some b ∧ writev b = some x ∧
        e = if x = efault then enomem else x) := by
  fun_induction prefaultLoop writev efault enomem limit addr bytes step offset with
  | case1 offset h b x hx =>
    obtain ⟨b1, b2, b3, b4, b5⟩ := batch_spec addr bytes step hs limit offset
    refine ⟨fun c hc => ?_, fun k => (by cases k), fun e k => ⟨b.1, x, rfl, hx, (Option.some.inj k).symm⟩⟩
    rw [List.mem_singleton] at hc
    subst hc
    refine ⟨b3 hl h.1, b2, fun a ha => ?_⟩
    obtain ⟨k, _, k1, k2⟩ := (b4 a).1 ha
    omega
  | case2 offset h b hx r ih =>
    obtain ⟨i1, i2, i3⟩ := ih
    obtain ⟨b1, b2, b3, b4, b5⟩ := batch_spec addr bytes step hs limit offset
    refine ⟨fun c hc => ?_, fun hn => ⟨fun c hc => ?_, fun k hk => ?_⟩, fun e he => ?_⟩
    · rcases List.mem_cons.1 hc with rfl | hc
      · refine ⟨b3 hl h.1, b2, fun a ha => ?_⟩
        obtain ⟨k, _, k1, k2⟩ := (b4 a).1 ha
        omega
      · obtain ⟨j1, j2, j3⟩ := i1 c hc
        refine ⟨j1, j2, fun a ha => ?_⟩
        have := j3 a ha
        have : offset ≤ b.2 := batch_ge _ _ _ _ _
        omega
    · rcases List.mem_cons.1 hc with rfl | hc
      · exact hx
      · exact (i2 hn).1 c hc
    · by_cases hkl : k < limit
      · exact ⟨b.1, List.mem_cons_self, (b4 _).2 ⟨k, hkl, rfl, hk⟩⟩
      · have hlen := b5 k hk (by omega)
        obtain ⟨j, rfl⟩ := Nat.exists_eq_add_of_le (show limit ≤ k by omega)
        have e1 : b.2 = offset + limit * step := by
          show (batch addr bytes step limit offset).2 = _
          rw [b1, hlen]
        have e2 : offset + (limit + j) * step = b.2 + j * step := by rw [e1]; ring
        rw [e2] at hk ⊢
        obtain ⟨c, c1, c2⟩ := (i2 hn).2 j hk
        exact ⟨c, List.mem_cons_of_mem _ c1, c2⟩
    · obtain ⟨c, x, c1, c2, c3⟩ := i3 e he
      refine ⟨c, x, ?_, c2, c3⟩
      show (b.1 :: r.1).getLast? = some c
      rw [List.getLast?_cons, c1]; rfl
  | case3 offset h =>
    refine ⟨fun b hb => (by cases hb), fun _ => ⟨fun b hb => (by cases hb), fun k hk => ?_⟩, fun e he => (by cases he)⟩
    exact absurd ⟨by omega, hs, hl⟩ h

/-- **C87 (prefault).** `prefault_oomsafe` passes to the system only bytes of the range, in vectors that are not empty and not longer than the limit; if it returns 0,
the system has accepted all of them, and they contain every byte at a multiple of the step; if it returns -1, the last vector was rejected
(or the device could not be opened), and the error is the one of the system with "bad address" replaced by "no memory". -/
theorem C87_prefault {fd : Option Nat} {writev : List Nat → Option Nat} {efault enomem limit addr step : Nat} {bytes : Int} {l : List (List Nat)} {r : Option Nat}
    (hs : 0 < step) (hl : 0 < limit) (h : prefault fd writev efault enomem limit addr bytes step = some (l, r)) :
    (∀ b ∈ l, b ≠ [] ∧ b.length ≤ limit ∧ ∀ a ∈ b, addr ≤ a ∧ (a : Int) < addr + bytes) ∧
    (r = none → (∀ b ∈ l, writev b = none) ∧ ∀ k : Nat, ((k * step : Nat) : Int) < bytes → ∃ b ∈ l, addr + k * step ∈ b) ∧
    (∀ e, r = some e → fd = some e ∧ l = [] ∨ fd = none ∧ ∃ b x, l.getLast? = some b ∧ writev b = some x ∧ e = if x = efault then enomem else x) := by
  unfold prefault at h
  cases hfd : fd with
  | some x =>
    rw [hfd] at h
    injection h with h
    injection h with h1 h2
    subst h1 h2
    exact ⟨fun b hb => (by cases hb), fun k => (by cases k), fun e he => Or.inl ⟨he, rfl⟩⟩
  | none =>
    rw [hfd] at h
    simp only at h
    rw [if_neg (by omega)] at h
    have e := Option.some.inj h
    obtain ⟨i1, i2, i3⟩ := prefault_spec (writev := writev) (efault := efault) (enomem := enomem) (addr := addr) (bytes := bytes.toNat) (offset := 0) hs hl
    rw [e] at i1 i2 i3
    refine ⟨fun b hb => ?_, fun hr => ⟨(i2 hr).1, fun k hk => ?_⟩, fun x hx => Or.inr ⟨rfl, i3 x hx⟩⟩
    · obtain ⟨j1, j2, j3⟩ := i1 b hb
      exact ⟨j1, j2, fun a ha => by have := j3 a ha; omega⟩
    · have := (i2 hr).2 k (by omega)
      rwa [Nat.zero_add] at this

/-- **C87 (prefault, pages).** So a successful call prefaults exactly the pages that `probe_pages` accesses: all of them if the range begins at a page. -/
theorem C87_prefault_partial {writev : List Nat → Option Nat} {efault enomem limit addr page : Nat} {bytes : Int} {l : List (List Nat)}
    (hp : 0 < page) (hl : 0 < limit) (ha : addr % page = 0) (h : prefault none writev efault enomem limit addr bytes page = some (l, none)) :
    AllPages page addr bytes l.flatten := by
  obtain ⟨_, h2, _⟩ := C87_prefault hp hl h
  intro x hx1 hx2
  obtain ⟨b, b1, b2⟩ := (h2 rfl).2 ((x - addr) / page) (by
    have := Nat.div_mul_le_self (x - addr) page
    omega)
  refine ⟨_, List.mem_flatten.2 ⟨b, b1, b2⟩, ?_⟩
  obtain ⟨q, hq⟩ := Nat.dvd_of_mod_eq_zero ha
  rw [page_of hp]
  have : x = (x - addr) + q * page := by rw [Nat.mul_comm q]; omega
  conv_rhs => rw [this, Nat.add_mul_div_right _ _ hp]
  rw [hq, Nat.mul_div_cancel_left _ hp]
  omega

/-! ## Cases that meet the hypotheses -/

/-- Three pages, read and written, while another thread counts in the first byte. -/
example : (probePages true (fun _ m => Function.update m 8192 (m 8192 + 1)) 8192 9000 4096 (fun _ => 7)).map (fun r => (r.1, r.2 8192, r.2 8193)) =
    some ([8192, 12288, 16384], 13, 7) := by
  rw [probePages, if_neg (by decide)]
  simp [probeLoop, cas_same]

/-- Vectors of two bytes. The second one is rejected. -/
example : prefault none (fun b => if 16384 ∈ b then some 14 else none) 14 12 2 8192 20000 4096 = some ([[8192, 12288], [16384, 20480]], some 12) := by
  rw [prefault]
  simp [prefaultLoop, batch]

end Fptu.Props
