import Verif.Lemmas.Buffer
import Verif.Lemmas.Bits
/-! # C26, C27, C28: shared buffers, buffer tags, tagged pointers -/
namespace Fptu.Props
open Fptu.Buffer Finset

/-- Number of references owned by the first `n` threads: held ones plus those inside an unfinished
`detach` that has not dropped its reference yet. -/
def liveRefs (n : Nat) (s : Sys) : Nat :=
  ∑ t ∈ range n, (s.held t + if s.pc t = .start ∨ s.pc t = .dec then 1 else 0)

/-- Some thread is executing `add_reference`/`detach` code that will access the buffer. -/
def inUse (n : Nat) (s : Sys) : Prop :=
  ∃ t, t < n ∧ (0 < s.held t ∨ s.pc t ≠ .idle)

/-- Executions of `n` threads, any schedule.  The only environment assumption is that fewer than
2^31 - 1 references exist at a time (the counter is a 32-bit integer); `C26_counter_overflow` shows what happens
without it. -/
inductive Reach (n : Nat) : Sys → Prop
  | init : Reach n initial
  | step {s s' : Sys} {t : Nat} {a : Action} (h : Reach n s) (ht : t < n)
      (hu : ∀ u, a = .give u → u < n) (hb : liveRefs n s < 2147483647)
      (hs : step t a s = some s') : Reach n s'

theorem liveRefs_eq (n : Nat) (s : Sys) : liveRefs n s = Refs n s := by
  unfold liveRefs Refs Held Pend
  rw [sum_add_distrib]
  congr 1
  apply sum_congr rfl
  intro t _
  cases s.pc t <;> simp [pend]

theorem reach_inv {n : Nat} (hn : 0 < n) {s : Sys} (h : Reach n s) : Inv n s := by
  induction h with
  | init => exact inv_initial hn
  | step _ ht hu hb hs ih => exact inv_step ih ht hu (by rw [← liveRefs_eq]; exact hb) hs

/-- **C26 (safety).** For any number of threads and any interleaving: no access ever happens after the
buffer was handed back, it is handed back at most once, and while any reference is owned it has not
been handed back. -/
theorem C26_refcount_safe (n : Nat) (hn : 0 < n) (s : Sys) (h : Reach n s) :
    s.useAfterFree = false ∧ s.freed ≤ 1 ∧ (0 < liveRefs n s → s.freed = 0) := by
  have hi := reach_inv hn h
  refine ⟨hi.noUaf, by have := hi.once; omega, fun hp => ?_⟩
  rw [liveRefs_eq] at hp
  have h1 := hi.once
  have h2 := hi.dead
  omega

/-- **C26 (no leak).** Once no thread owns a reference or is inside `detach`, the buffer has been
handed back exactly once. -/
theorem C26_refcount_released (n : Nat) (hn : 0 < n) (s : Sys) (h : Reach n s) (hq : ¬ inUse n s) :
    s.freed = 1 := by
  have hi := reach_inv hn h
  have hz : ∀ t, t < n → s.held t = 0 ∧ s.pc t = .idle := by
    intro t ht
    constructor
    · rcases Nat.eq_zero_or_pos (s.held t) with e | e
      · exact e
      · exact absurd ⟨t, ht, Or.inl e⟩ hq
    · cases e : s.pc t <;> first | rfl | exact absurd ⟨t, ht, Or.inr (by rw [e]; decide)⟩ hq
  have e1 : Refs n s = 0 := by
    rw [← liveRefs_eq]
    apply sum_eq_zero
    intro t ht
    simp [hz t (mem_range.1 ht)]
  have e2 : Closing n s = 0 := by
    apply sum_eq_zero
    intro t ht
    simp [hz t (mem_range.1 ht), closing]
  have h3 := hi.live
  have h1 := hi.once
  rw [e2] at h3 h1
  omega

/-- **C26 (progress).** A thread inside `detach` can always take its next step, and after at most four
steps of its own it has left `detach`; hence every fair run reaches the state of
`C26_refcount_released`. -/
theorem C26_detach_terminates (t : Nat) (s : Sys) :
    s.pc t ≠ .idle → ∃ s', step t .run s = some s' ∧
      (match s'.pc t with | .idle => 0 | .repay => 1 | .drown => 2 | .dec => 3 | .start => 4) <
      (match s.pc t with | .idle => 0 | .repay => 1 | .drown => 2 | .dec => 3 | .start => 4) := by
  intro h
  cases e : s.pc t with
  | idle => exact absurd e h
  | start =>
    refine ⟨_, by simp only [step, e]; rfl, ?_⟩
    simp only [upd, if_true]
    by_cases h1 : s.cnt = 1 <;> simp [h1]
  | dec =>
    refine ⟨_, by simp only [step, e]; rfl, ?_⟩
    simp only [upd, if_true]
    by_cases h1 : wrap (s.cnt - 1) > 0 <;> simp [h1]
  | drown => exact ⟨_, by simp only [step, e]; rfl, by simp [upd]⟩
  | repay => exact ⟨_, by simp only [step, e]; rfl, by simp [upd]⟩

/-- **C26 (exclusive ownership).** `is_alterable()` (counter equal to one, read by an owner) means that
nobody else owns a reference. -/
theorem C26_alterable_exclusive (n : Nat) (hn : 0 < n) (s : Sys) (h : Reach n s) (t : Nat) (ht : t < n)
    (hown : 0 < s.held t) (hc : s.cnt = 1) :
    s.held t = 1 ∧ ∀ u, u < n → u ≠ t → s.held u = 0 ∧ s.pc u ≠ .start ∧ s.pc u ≠ .dec := by
  have hi := reach_inv hn h
  have h1 := hi.once
  have h2 := hi.dead
  have h3 := hi.live
  rw [← liveRefs_eq] at h2 h3
  have hle : ∀ u, u < n → u ≠ t →
      s.held t + (s.held u + if s.pc u = .start ∨ s.pc u = .dec then 1 else 0) ≤ liveRefs n s := by
    intro u hu hne
    unfold liveRefs
    rw [← add_sum_erase _ _ (mem_range.2 ht),
      ← add_sum_erase _ _ (mem_erase.2 ⟨hne, mem_range.2 hu⟩)]
    omega
  have ht' : s.held t ≤ liveRefs n s := by
    unfold liveRefs
    rw [← add_sum_erase _ _ (mem_range.2 ht)]
    omega
  have hl := h3 (by omega)
  refine ⟨by omega, fun u hu hne => ?_⟩
  have hh := hle u hu hne
  have : (if s.pc u = .start ∨ s.pc u = .dec then 1 else 0) = 0 := by omega
  refine ⟨by omega, ?_, ?_⟩ <;> intro e <;> simp [e] at this

/-- Run a schedule. -/
def runSched : List (Nat × Action) → Sys → Option Sys
  | [], s => some s
  | (t, a) :: r, s => (step t a s).bind (runSched r)

/-- A non-trivial execution: two threads, both drop their reference interleaved. -/
example : (runSched [(0, .addRef), (0, .give 1), (0, .detach), (1, .detach), (0, .run), (1, .run),
    (0, .run), (1, .run), (1, .run), (1, .run)] initial).map (fun s => (s.freed, s.useAfterFree)) =
    some (1, false) := by decide +kernel

/-- After `k` extra references taken by thread 0. -/
private theorem many_refs (k : Nat) :
    ∃ s, runSched (List.replicate k (0, .addRef)) initial = some s ∧
      s.cnt = wrap (1 + k) ∧ s.held 0 = 1 + k ∧ s.pc 0 = .idle ∧ s.freed = 0 := by
  induction k with
  | zero => exact ⟨initial, rfl, by decide, rfl, rfl, rfl⟩
  | succ k ih =>
    obtain ⟨s, h1, h2, h3, h4, h5⟩ := ih
    have app : ∀ (a b : List (Nat × Action)) (s0 : Sys),
        runSched (a ++ b) s0 = (runSched a s0).bind (runSched b) := by
      intro a b
      induction a with
      | nil => intro s0; rfl
      | cons x a iha =>
        intro s0
        obtain ⟨t, ac⟩ := x
        simp only [List.cons_append, runSched]
        cases step t ac s0 with
        | none => rfl
        | some s1 => simp only [Option.bind_some]; exact iha s1
    rw [List.replicate_succ', app, h1]
    refine ⟨_, by simp only [Option.bind_some, runSched, step, h4, h3, true_and, show 0 < 1 + k by omega, if_true]; rfl, ?_, ?_, ?_, ?_⟩
    · simp only [h2]; unfold wrap; push_cast; omega
    · simp [upd]; omega
    · simpa [touch] using h4
    · simpa [touch] using h5

/-- **C26, refuted without the counter bound.** With 2^32 references the 32-bit counter is back at one
and a single `detach` hands the buffer back although 2^32 references are still owned. -/
theorem C26_counter_overflow :
    ∃ sched s, runSched sched initial = some s ∧ s.freed = 1 ∧ s.held 0 = 2 ^ 32 := by
  obtain ⟨s, h1, h2, h3, h4, h5⟩ := many_refs (2 ^ 32)
  have hc : s.cnt = 1 := by rw [h2]; decide
  have app : ∀ (a b : List (Nat × Action)) (s0 : Sys),
      runSched (a ++ b) s0 = (runSched a s0).bind (runSched b) := by
    intro a b
    induction a with
    | nil => intro s0; rfl
    | cons x a iha =>
      intro s0
      obtain ⟨t, ac⟩ := x
      simp only [List.cons_append, runSched]
      cases step t ac s0 with
      | none => rfl
      | some s1 => simp only [Option.bind_some]; exact iha s1
  refine ⟨List.replicate (2 ^ 32) (0, .addRef) ++
    [(0, .detach), (0, .run), (0, .run), (0, .run)], ?_⟩
  rw [app, h1]
  have hp : 0 < s.held 0 := by omega
  refine ⟨_, by simp [runSched, step, h4, hp, hc, upd, touch]; rfl, ?_, ?_⟩
  · simp [h5]
  · simp [upd]; omega

/-! ## C27 -/

/-- **C27.** A tag built from identifiers gives each of them back, for every value in range, and two
tags are equal only if all attributes are. -/
theorem C27_tag_lossless (allot depot crate flags : Nat) (hf : flags < 2 ^ 4) (ha : allot < 2 ^ 28)
    (hd : depot < 2 ^ 16) (hc : crate < 2 ^ 16) :
    mkTag allot depot crate flags < 2 ^ 64 ∧
    tagFlags (mkTag allot depot crate flags) = flags ∧
    tagAllot (mkTag allot depot crate flags) = allot ∧
    tagDepot (mkTag allot depot crate flags) = depot ∧
    tagCrate (mkTag allot depot crate flags) = crate := by
  have e : mkTag allot depot crate flags =
      flags + 2 ^ 4 * allot + 2 ^ 32 * depot + 2 ^ 48 * crate := by
    simp only [mkTag, crateShift, depotShift, allotShift, flagsBits, allotBits, depotBits,
      Nat.shiftLeft_eq]
    have e1 : flags ||| allot * 2 ^ 4 = 2 ^ 4 * allot + flags := by
      rw [Nat.or_comm, Nat.mul_comm, ← Nat.two_pow_add_eq_or_of_lt hf]
    have e2 : (2 ^ 4 * allot + flags) ||| depot * 2 ^ (4 + 28) =
        2 ^ 32 * depot + (2 ^ 4 * allot + flags) := by
      rw [Nat.or_comm, Nat.mul_comm depot, ← Nat.two_pow_add_eq_or_of_lt (by omega)]
    have e3 : (2 ^ 32 * depot + (2 ^ 4 * allot + flags)) ||| crate * 2 ^ (4 + 28 + 16) =
        2 ^ 48 * crate + (2 ^ 32 * depot + (2 ^ 4 * allot + flags)) := by
      rw [Nat.or_comm, Nat.mul_comm crate, ← Nat.two_pow_add_eq_or_of_lt (by omega)]
    rw [e1, e2, e3]; omega
  rw [e]
  simp only [tagFlags, tagAllot, tagDepot, tagCrate, flagsMask, allotMask, depotMask, crateMask,
    crateShift, depotShift, allotShift, flagsBits, allotBits, depotBits, crateBits, Bits.and_low,
    Nat.shiftRight_eq_div_pow]
  omega

example : mkTag 0xABCDEF1 0x1234 0xBEEF 5 = 0xBEEF1234ABCDEF15 ∧
    tagAllot 0xBEEF1234ABCDEF15 = 0xABCDEF1 := by decide +kernel

/-- **C27 (local tags).** A tag built from a 16-byte aligned allotter address gives the address back,
is recognised as local, and reports the read-only flag it was given. -/
theorem C27_local_tag (p : Nat) (hp : p < 2 ^ 64) (hal : p % 16 = 0) (ro : Bool) :
    tagLocalAllot (mkLocalTag p ro) = p ∧
    tagTest (mkLocalTag p ro) flagLocalweak = true ∧
    tagTest (mkLocalTag p ro) flagReadonly = ro := by
  have e : ∀ f, f < 16 → p ||| f = p + f := by
    intro f hf
    have : p = 2 ^ 4 * (p / 16) := by omega
    rw [this, ← Nat.two_pow_add_eq_or_of_lt (by omega)]
  have hmask : ∀ f, f < 16 → (p + f) &&& (2 ^ 64 - 1 - 15) = p := by
    intro f hf
    rw [Bits.land_split 4 (p + f) (2 ^ 64 - 1 - 15)]
    have h1 : (p + f) / 2 ^ 4 = p / 16 := by omega
    have h2 : ((2 ^ 64 - 1 - 15 : Nat) / 2 ^ 4) = 2 ^ 60 - 1 := by decide
    have h3 : ((2 ^ 64 - 1 - 15 : Nat) % 2 ^ 4) = 0 := by decide
    rw [h1, h2, h3, Nat.and_zero, Bits.and_low]
    omega
  have htest : ∀ f m, f < 16 → m < 16 → (m &&& (p + f)) = m &&& f := by
    intro f m hf hm
    rw [Bits.land_split 4 m (p + f)]
    have h1 : m / 2 ^ 4 = 0 := by omega
    have h2 : (p + f) % 2 ^ 4 = f := by omega
    have h3 : m % 2 ^ 4 = m := by omega
    rw [h1, h2, h3, Nat.zero_and]; omega
  unfold tagLocalAllot mkLocalTag tagTest flagLocalweak flagReadonly flagsMask flagsBits
  cases ro
  · simp only [Bool.false_eq_true, if_false]
    rw [e 2 (by omega), htest 2 2 (by omega) (by omega), htest 2 1 (by omega) (by omega)]
    exact ⟨hmask 2 (by omega), by decide, by decide⟩
  · simp only [if_true]
    rw [show (2 ||| 1 : Nat) = 3 from rfl, e 3 (by omega), htest 3 2 (by omega) (by omega),
      htest 3 1 (by omega) (by omega)]
    exact ⟨hmask 3 (by omega), by decide, by decide⟩

example : mkLocalTag 0x7fff12345670 true = 0x7fff12345673 := by decide +kernel

/-- **C27 (flags).** A test for some flags succeeds exactly if one of them is set. A buffer says of itself that it is read-only exactly if bit 0 of its tag is
set, that it is local exactly if bit 1 is, and that it can be passed to other processes exactly if none of both is. -/
theorem C27_flags (t mask : Nat) :
    (tagTest t mask = true ↔ ∃ i, mask.testBit i = true ∧ t.testBit i = true) ∧
    isReadonly t = t.testBit 0 ∧ isLocalweak t = t.testBit 1 ∧
    (isWarpable t = true ↔ t.testBit 0 = false ∧ t.testBit 1 = false) := by
  have key : ∀ a b : Nat, a &&& b ≠ 0 ↔ ∃ i, a.testBit i = true ∧ b.testBit i = true := by
    intro a b
    constructor
    · intro h
      obtain ⟨i, hi⟩ := Nat.exists_testBit_of_ne_zero h
      rw [Nat.testBit_and, Bool.and_eq_true] at hi
      exact ⟨i, hi⟩
    · rintro ⟨i, h1, h2⟩ h0
      have : (a &&& b).testBit i = true := by rw [Nat.testBit_and, h1, h2]; rfl
      rw [h0, Nat.zero_testBit] at this
      cases this
  have t0 : t.testBit 0 = decide (t % 2 = 1) := Nat.testBit_zero t
  have t1 : t.testBit 1 = decide (t / 2 % 2 = 1) := by rw [Nat.testBit_succ, Nat.testBit_zero]
  have small : ∀ m, m < 4 → t &&& m = t % 4 &&& m := by
    intro m hm
    have h := Bits.land_split 2 t m
    have h1 : m / 2 ^ 2 = 0 := by omega
    have h2 : m % 2 ^ 2 = m := by omega
    rw [h1, h2, Nat.and_zero] at h
    simpa using h
  have h4 : t % 4 < 4 := Nat.mod_lt _ (by decide)
  have m1 : t &&& 1 = t % 2 := by
    rw [small 1 (by decide), show t % 2 = t % 4 % 2 by omega]
    generalize t % 4 = r at h4; revert r; decide
  have m2 : t &&& 2 = 2 * (t / 2 % 2) := by
    rw [small 2 (by decide), show t / 2 % 2 = t % 4 / 2 by omega]
    generalize t % 4 = r at h4; revert r; decide
  have m3 : t &&& (2 ||| 1) = t % 4 := by
    rw [small _ (by decide)]
    generalize t % 4 = r at h4; revert r; decide
  refine ⟨?_, ?_, ?_, ?_⟩
  · unfold tagTest
    rw [decide_eq_true_iff]; exact key mask t
  · rw [t0]
    exact decide_eq_decide.2 (by show t &&& 1 ≠ 0 ↔ _; rw [m1]; omega)
  · rw [t1]
    exact decide_eq_decide.2 (by show t &&& 2 ≠ 0 ↔ _; rw [m2]; omega)
  · unfold isWarpable
    rw [decide_eq_true_iff, t0, t1, decide_eq_false_iff_not, decide_eq_false_iff_not]
    show t &&& (2 ||| 1) = 0 ↔ _
    rw [m3]; omega

example : isReadonly (mkLocalTag 64 true) = true ∧ isWarpable (mkTag 1 2 3 0) = true ∧ isWarpable (mkLocalTag 64 false) = false ∧
    tagTest (mkLocalTag 64 false) (flagLocalweak ||| flagReadonly) = true := by decide +kernel

/-! ## C28 -/

/-- **C28, partial.** A handle with tag zero keeps its pointer, and replacing the pointer keeps the
tag bits.  For other tags the claim is false: `C28_tag_lost`. -/
theorem C28_pointer_partial (p : Nat) (hp : p < 2 ^ 48) :
    widePtr (wideMake p 0) = p ∧ wideTag (wideMake p 0) = 0 ∧
    (p % 16 = 0 → narrowPtr (narrowMake p 0) = p ∧ narrowTag (narrowMake p 0) = 0) ∧
    (∀ b, b < 2 ^ 64 → widePtr (wideSetPtr b p) = p ∧ wideTag (wideSetPtr b p) = wideTag b) ∧
    (∀ b, b < 2 ^ 64 → p % 16 = 0 →
      narrowPtr (narrowSetPtr b p) = p ∧ narrowTag (narrowSetPtr b p) = narrowTag b) := by
  refine ⟨?_, ?_, ?_, ?_, ?_⟩
  · simp only [widePtr, wideMake, Nat.zero_shiftLeft, Nat.zero_mod, Nat.or_zero, Bits.and_low]
    omega
  · simp only [wideTag, wideMake, Nat.zero_shiftLeft, Nat.zero_mod, Nat.or_zero,
      Nat.shiftRight_eq_div_pow]
    omega
  · intro hal
    simp only [narrowPtr, narrowTag, narrowMake, Nat.zero_shiftLeft, Nat.zero_mod, Nat.or_zero]
    constructor
    · rw [Bits.land_split 4]
      have h2 : ((2 ^ 64 - 1 - 15 : Nat) / 2 ^ 4) = 2 ^ 60 - 1 := by decide
      have h3 : ((2 ^ 64 - 1 - 15 : Nat) % 2 ^ 4) = 0 := by decide
      rw [h2, h3, Nat.and_zero, Bits.and_low]
      omega
    · rw [show (15 : Nat) = 2 ^ 4 - 1 from rfl, Bits.and_low]; omega
  · intro b hb
    have e : b &&& (2 ^ 64 - 2 ^ 48) = 2 ^ 48 * (b / 2 ^ 48) := by
      rw [Bits.land_split 48]
      have h2 : ((2 ^ 64 - 2 ^ 48 : Nat) / 2 ^ 48) = 2 ^ 16 - 1 := by decide
      have h3 : ((2 ^ 64 - 2 ^ 48 : Nat) % 2 ^ 48) = 0 := by decide
      rw [h2, h3, Nat.and_zero, Bits.and_low]
      omega
    unfold wideSetPtr widePtr wideTag
    rw [e, ← Nat.two_pow_add_eq_or_of_lt hp, Bits.and_low]
    simp only [Nat.shiftRight_eq_div_pow]
    omega
  · intro b _ hal
    have e : (b &&& 15) ||| p = 2 ^ 4 * (p / 2 ^ 4) + b % 2 ^ 4 := by
      rw [show (15 : Nat) = 2 ^ 4 - 1 from rfl, Bits.and_low, Nat.or_comm]
      have h1 : p = 2 ^ 4 * (p / 2 ^ 4) := by omega
      rw [Nat.two_pow_add_eq_or_of_lt (Nat.mod_lt _ (by decide)) (p / 2 ^ 4), ← h1]
    unfold narrowSetPtr narrowPtr narrowTag
    rw [e]
    constructor
    · rw [Bits.land_split 4]
      have h2 : ((2 ^ 64 - 1 - 15 : Nat) / 2 ^ 4) = 2 ^ 60 - 1 := by decide
      have h3 : ((2 ^ 64 - 1 - 15 : Nat) % 2 ^ 4) = 0 := by decide
      rw [h2, h3, Nat.and_zero, Bits.and_low]
      omega
    · rw [show (15 : Nat) = 2 ^ 4 - 1 from rfl, Bits.and_low, Bits.and_low]; omega

/-- **C28, refuted, in full generality.** *No* non-zero kind survives: the tag read back from a wide
handle is always zero, and for a null pointer the pointer read back is the shifted tag. -/
theorem C28_tag_lost (p tag : Nat) (hp : p < 2 ^ 48) (ht : tag < 2 ^ 16) :
    wideTag (wideMake p tag) = 0 ∧ widePtr (wideMake 0 tag) = tag * 2 ^ 16 ∧
    (p % 16 = 0 → narrowTag (narrowMake p tag) = 0) := by
  have hsh : (tag <<< 16) % 2 ^ 64 = tag * 2 ^ 16 := by
    rw [Nat.shiftLeft_eq]; omega
  refine ⟨?_, ?_, ?_⟩
  · unfold wideTag wideMake
    rw [hsh, Nat.shiftRight_eq_div_pow]
    apply Nat.div_eq_of_lt
    exact Nat.or_lt_two_pow hp (by omega)
  · unfold widePtr wideMake
    rw [hsh, Nat.zero_or, Bits.and_low]; omega
  · intro hal
    unfold narrowTag narrowMake
    rw [show (15 : Nat) = 2 ^ 4 - 1 from rfl, Bits.and_low, Nat.or_mod_two_pow, Nat.shiftLeft_eq]
    have h1 : p % 2 ^ 4 = 0 := by omega
    have h2 : tag * 2 ^ 4 % 2 ^ 64 % 2 ^ 4 = 0 := by omega
    rw [h1, h2]; rfl

example : wideMake 0x7fff00001230 5 = 0x7fff00051230 ∧ wideTag (wideMake 0x7fff00001230 5) = 0 ∧
    widePtr (wideMake 0x7fff00001230 5) ≠ 0x7fff00001230 := by decide +kernel

end Fptu.Props
