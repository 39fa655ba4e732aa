import Verif.Lemmas.GuardByte
/-!
# C53–C55: guard marks and the buffers of the default allocator
-/
namespace Fptu.Props
open Fptu.Guard Fptu

/-! ## C53: marks are written and accepted -/

/-- **C53.** Whatever the clock says and whatever the signature is, writing a mark ends, and the mark is accepted for this signature. -/
theorem C53_setup (off : Bool) (ticks signature : Nat) :
    ∃ k, setup ticks signature = some k ∧ k.chirp < 2 ^ 32 ∧ k.mesh < 2 ^ 32 ∧ probe off k signature = true := by
  obtain ⟨k, h⟩ := setup_total ticks signature
  obtain ⟨a, b, c, d⟩ := search_spec h (Nat.mod_lt _ (by norm_num))
  refine ⟨k, h, a, ?_, probe_of b c d⟩
  rw [d]; unfold mixup; exact Nat.mod_lt _ (by norm_num)

/-- A clock that has to be corrected: zero is no chirp. -/
example : setup 0 head = some ⟨0x3C6EF35F, mixup 0x3C6EF35F head⟩ := by decide +kernel

/-- The number of rounds does not matter once the search has ended. -/
theorem C53_rounds {n k c s : Nat} {g : Mark} (h : search n c s = some g) (hk : n ≤ k) : search k c s = some g := by
  induction n generalizing k c with
  | zero => cases h
  | succ n ih =>
    obtain ⟨k, rfl⟩ : ∃ j, k = j + 1 := ⟨k - 1, by omega⟩
    unfold search at h ⊢
    by_cases q : fairly c = true ∧ fairly (mixup c s) = true
    · rw [if_pos q] at h ⊢; exact h
    · rw [if_neg q] at h ⊢; exact ih h (by omega)

/-- **C53.** A mark of zeros, a mark of ones and the mark left by a release are accepted for no signature. -/
theorem C53_dead (signature : Nat) :
    probe false ⟨0, 0⟩ signature = false ∧ probe false ⟨2 ^ 32 - 1, 2 ^ 32 - 1⟩ signature = false ∧ probe false drowned signature = false := by
  refine ⟨?_, ?_, ?_⟩
  · rfl
  · unfold probe; rw [show fairly (2 ^ 32 - 1) = false by decide]; rfl
  · unfold probe drowned; rw [show fairly (0xDEADB0D1F / 2 ^ 32) = false by decide]; cases fairly (0xDEADB0D1F % 2 ^ 32) <;> rfl

/-! ### Labels -/

theorem xor_left_cancel {a b c : Nat} (h : a ^^^ c = b ^^^ c) : a = b := by
  have := congrArg (· ^^^ c) h
  simpa only [Nat.xor_assoc, Nat.xor_self, Nat.xor_zero] using this

theorem step_inj {g h c : Nat} (hg : g < 2 ^ 32) (hh : h < 2 ^ 32)
    (e : c ^^^ ((g * 1664525 + 1013904223) % 2 ^ 32) = c ^^^ ((h * 1664525 + 1013904223) % 2 ^ 32)) : g = h := by
  rw [Nat.xor_comm c, Nat.xor_comm c] at e
  have := xor_left_cancel e
  have h1 : g * 1664525 ≡ h * 1664525 [MOD 2 ^ 32] := Nat.ModEq.add_right_cancel' 1013904223 this
  have h2 : g ≡ h [MOD 2 ^ 32] := Nat.ModEq.cancel_right_of_coprime (by decide) h1
  unfold Nat.ModEq at h2
  rwa [Nat.mod_eq_of_lt hg, Nat.mod_eq_of_lt hh] at h2

theorem label_lt (h : Nat) (hh : h < 2 ^ 32) (str : List Nat) (hs : ∀ c ∈ str, c < 2 ^ 7) :
    str.foldl (fun h c => c ^^^ ((h * 1664525 + 1013904223) % 2 ^ 32)) h < 2 ^ 32 := by
  induction str generalizing h with
  | nil => exact hh
  | cons c t ih =>
    rw [List.foldl_cons]
    refine ih _ (Nat.xor_lt_two_pow ?_ (Nat.mod_lt _ (by norm_num))) fun c hc => hs c (List.mem_cons_of_mem _ hc)
    have := hs c (List.mem_cons_self ..)
    omega

theorem label_inj (str : List Nat) (hs : ∀ c ∈ str, c < 2 ^ 7) {g h : Nat} (hg : g < 2 ^ 32) (hh : h < 2 ^ 32)
    (e : str.foldl (fun h c => c ^^^ ((h * 1664525 + 1013904223) % 2 ^ 32)) g = str.foldl (fun h c => c ^^^ ((h * 1664525 + 1013904223) % 2 ^ 32)) h) : g = h := by
  induction str generalizing g h with
  | nil => exact e
  | cons c t ih =>
    rw [List.foldl_cons, List.foldl_cons] at e
    have hc : c < 2 ^ 32 := by have := hs c (List.mem_cons_self ..); omega
    exact step_inj hg hh (ih (fun c hc => hs c (List.mem_cons_of_mem _ hc)) (Nat.xor_lt_two_pow hc (Nat.mod_lt _ (by norm_num)))
      (Nat.xor_lt_two_pow hc (Nat.mod_lt _ (by norm_num))) e)

/-- **C53.** Labels that differ in one character have different signatures. -/
theorem C53_labels (p t : List Nat) (c d : Nat) (hp : ∀ x ∈ p, x < 2 ^ 7) (ht : ∀ x ∈ t, x < 2 ^ 7) (hc : c < 2 ^ 7) (hd : d < 2 ^ 7) (h : c ≠ d) :
    label (p ++ c :: t) ≠ label (p ++ d :: t) := by
  intro e
  unfold label at e
  rw [List.foldl_append, List.foldl_append, List.foldl_cons, List.foldl_cons] at e
  have l := label_lt 81 (by norm_num) p hp
  refine h (xor_left_cancel (label_inj t ht ?_ ?_ e))
  · exact Nat.xor_lt_two_pow (by omega) (Nat.mod_lt _ (by norm_num))
  · exact Nat.xor_lt_two_pow (by omega) (Nat.mod_lt _ (by norm_num))

/-- The labels of the code have different signatures. -/
example : [chkU, chkO, head, under, over].Nodup ∧ label [] ≠ 0 := by decide +kernel

/-! ## C54: damage of a mark -/

/-- **C54 (partial).** If one byte of an accepted mark changes, the mark is rejected. Missing: damage of several bytes, see
`C54_damage_refuted`. -/
theorem C54_byte_partial {m m' : Mem} {a b s : Nat} (hp : probe false (markAt m a) s = true) (h1 : a ≤ b) (h2 : b < a + 8)
    (h : ∀ x, x ≠ b → m' x = m x) (hb : m' b % 256 ≠ m b % 256) : probe false (markAt m' a) s = false :=
  probe_byte hp h1 h2 h hb

/-- **C54 (partial).** A mark is rejected for a signature that differs from its own in one byte. -/
theorem C54_signature_partial {k : Mark} {s s' d i : Nat} (hi : i < 4) (hd : 1 ≤ d) (hd' : d < 256)
    (hs : s' = s + d * 2 ^ (8 * i) ∨ s = s' + d * 2 ^ (8 * i)) (hp : probe false k s = true) : probe false k s' = false := by
  obtain ⟨-, -, f3⟩ := probe_true hp
  by_contra c
  rw [Bool.not_eq_false] at c
  obtain ⟨-, -, g3⟩ := probe_true c
  have sw : ∀ u v : Nat, mixup u v = mixup v u := fun u v => by unfold mixup; rw [Nat.add_comm]
  rcases hs with e | e
  · refine mixup_byte (s := k.chirp) hi hd hd' e ?_
    rw [sw s, sw s', ← f3, g3]
  · refine mixup_byte (s := k.chirp) hi hd hd' e ?_
    rw [sw s, sw s', ← f3, g3]

/-- **C54, refuted part.** Damage of the first half of a mark may pass: for every signature two different marks with the same second half
are accepted. -/
theorem C54_damage_refuted (s : Nat) : ∃ c d mesh : Nat, c < 2 ^ 32 ∧ d < 2 ^ 32 ∧ c ≠ d ∧ probe false ⟨c, mesh⟩ s = true ∧ probe false ⟨d, mesh⟩ s = true := by
  have e1 : mixup 0x27b38 0 = mixup 0x1314b 0 := by decide +kernel
  have e2 : mixup 0x4001482e 0 = mixup 0x4000077c 0 := by decide +kernel
  have f1 : fairly (mixup 0x1314b 0) = true := by decide +kernel
  have f2 : fairly (mixup 0x4000077c 0) = true := by decide +kernel
  obtain ⟨t, ht, htl⟩ : ∃ t, t = s % 2 ^ 32 ∧ t < 2 ^ 32 := ⟨_, rfl, Nat.mod_lt _ (by norm_num)⟩
  have main : ∀ x y : Nat, x < 2 ^ 32 → y < 2 ^ 32 → x ≠ y → mixup x 0 = mixup y 0 → fairly (mixup y 0) = true →
      fairly ((x + (2 ^ 32 - t)) % 2 ^ 32) = true → fairly ((y + (2 ^ 32 - t)) % 2 ^ 32) = true →
      ∃ c d mesh : Nat, c < 2 ^ 32 ∧ d < 2 ^ 32 ∧ c ≠ d ∧ probe false ⟨c, mesh⟩ s = true ∧ probe false ⟨d, mesh⟩ s = true := by
    intro x y hx hy hne he hf g1 g2
    have m1 : mixup ((x + (2 ^ 32 - t)) % 2 ^ 32) s = mixup x 0 := mixup_eq (by omega)
    have m2 : mixup ((y + (2 ^ 32 - t)) % 2 ^ 32) s = mixup y 0 := mixup_eq (by omega)
    refine ⟨_, _, mixup y 0, Nat.mod_lt (x + (2 ^ 32 - t)) (by norm_num), Nat.mod_lt (y + (2 ^ 32 - t)) (by norm_num), by omega, ?_, ?_⟩
    · exact probe_of g1 hf (by rw [← he, ← m1])
    · exact probe_of g2 hf (by rw [← m2])
  by_cases g : fairly ((0x27b38 + (2 ^ 32 - t)) % 2 ^ 32) = true ∧ fairly ((0x1314b + (2 ^ 32 - t)) % 2 ^ 32) = true
  · exact main 0x27b38 0x1314b (by norm_num) (by norm_num) (by norm_num) e1 f1 g.1 g.2
  · refine main 0x4001482e 0x4000077c (by norm_num) (by norm_num) (by norm_num) e2 f2 ?_ ?_
    · simp only [fairly, decide_eq_true_eq] at g ⊢; omega
    · simp only [fairly, decide_eq_true_eq] at g ⊢; omega

/-! ## C55: buffers of the default allocator -/

/-- The memory of a buffer that is in use: all five marks are accepted, one owner. -/
structure Live (m : Mem) (b sp : Nat) : Prop where
  low : ∀ off, probe off (markAt m (b - 8)) chkU = true
  high : ∀ off, probe off (markAt m (b + (sp + spaceOverhead))) chkO = true
  head : ∀ off, probe off (markAt m b) head = true
  under : ∀ off, probe off (markAt m (b + 40)) under = true
  over : ∀ off, probe off (markAt m (b + inplace + sp)) over = true
  ref : refCounter m b = 1
  host : host m b ≠ 0
  data : dataOffset m b = inplace
  space : space m b = sp

theorem Live.congr {m m' : Mem} {b sp : Nat} (hb : 8 ≤ b) (h : Live m b sp) (he : ∀ x, ¬ (b + 48 ≤ x ∧ x < b + 48 + sp) → m' x = m x) : Live m' b sp where
  low := by rw [markAt_congr fun x h1 h2 => he x (by omega)]; exact h.low
  high := by
    have : spaceOverhead = 64 := rfl
    rw [markAt_congr fun x h1 h2 => he x (by omega)]; exact h.high
  head := by rw [markAt_congr fun x h1 h2 => he x (by omega)]; exact h.head
  under := by rw [markAt_congr fun x h1 h2 => he x (by omega)]; exact h.under
  over := by
    have : inplace = 48 := rfl
    rw [markAt_congr fun x h1 h2 => he x (by omega)]; exact h.over
  ref := by unfold refCounter; rw [load_congr fun x h1 h2 => he x (by omega)]; exact h.ref
  host := by unfold Guard.host; rw [load_congr fun x h1 h2 => he x (by omega)]; exact h.host
  data := by unfold dataOffset; rw [load_congr fun x h1 h2 => he x (by omega)]; exact h.data
  space := by unfold Guard.space; rw [load_congr fun x h1 h2 => he x (by omega)]; exact h.space

theorem Live.check {m : Mem} {b sp : Nat} (h : Live m b sp) (off : Bool) : check off m b = true := by
  unfold Guard.check
  rw [h.ref, if_neg (by decide), if_neg h.host, h.head, if_neg (by decide), h.under, if_neg (by decide), h.data, h.space, h.over,
    if_neg (by decide)]

theorem buffBytes_spec {w : Nat} (h : 1 ≤ w) : buffBytes w ≥ w + spaceOverhead ∧ buffBytes w ≤ w + spaceOverhead + 63 ∧ buffBytes w % 8 = 0 := by
  unfold buffBytes ceil
  rw [show gap 1 = 8 by decide, show spaceOverhead = 64 by rfl]
  dsimp only
  omega

/-- What a successful `borrow` did. -/
theorem borrow_live {m : Mem} {wanna tag raw : Nat} {clock : Nat → Nat} (hw : 1 ≤ wanna) (hl : wanna ≤ bufferLimit) (ht : tag ≠ 0) (ht' : tag < 2 ^ 64) :
    ∃ t, borrow m wanna tag raw clock = some t ∧ t.ptr = raw + 8 ∧ t.rawAt = raw ∧ t.rawBytes = buffBytes wanna + 16 ∧
      Live t.mem (raw + 8) (buffBytes wanna - spaceOverhead) ∧ ∀ x, x < raw ∨ raw + (buffBytes wanna + 16) ≤ x → t.mem x = m x := by
  obtain ⟨b1, b2, -⟩ := buffBytes_spec hw
  have hlim : bufferLimit = 524272 := by decide
  have so : spaceOverhead = 64 := rfl
  obtain ⟨ku, eu, lu1, lu2, pu⟩ := C53_setup false (clock 0) chkU
  obtain ⟨ko, eo, lo1, lo2, po⟩ := C53_setup false (clock 1) chkO
  obtain ⟨kn, en, ln1, ln2, pn⟩ := C53_setup false (clock 2) under
  obtain ⟨kh, eh, lh1, lh2, ph⟩ := C53_setup false (clock 3) head
  obtain ⟨kv, ev, lv1, lv2, pv⟩ := C53_setup false (clock 4) over
  have any : ∀ {k : Mark} {s : Nat}, probe false k s = true → ∀ off, probe off k s = true := by
    intro k s h off
    obtain ⟨a, b, c⟩ := probe_true h
    exact probe_of a b c
  have g1 : gap 1 = 8 := by decide
  unfold borrow allocate
  rw [if_neg (by omega), g1, if_neg (by norm_num; omega), eu, eo]
  dsimp only
  unfold init
  rw [en, eh, ev]
  dsimp only
  rw [so, Nat.mul_one, Nat.mul_one]
  have ip : inplace = 48 := rfl
  generalize hn : buffBytes wanna = n at *
  refine ⟨_, rfl, rfl, rfl, by dsimp only; omega, ?_, ?_⟩
  · dsimp only
    rw [ip]
    refine ⟨any ?_, any ?_, any ?_, any ?_, any ?_, ?_, ?_, ?_, ?_⟩
    · rw [markAt_congr (m := putMark m (raw + 8 - 8) ku)]
      · rw [markAt_putMark _ _ _ lu1 lu2]; exact pu
      · intro x h1 h2
        rw [putMark_other (by omega), putMark_other (by omega), putMark_other (by omega), store_other (by omega), store_other (by omega),
          store_other (by omega), store_other (by omega), putMark_other (by omega)]
    · rw [so, show raw + 8 + (n - 64 + 64) = raw + 8 + n by omega, markAt_congr (m := putMark (putMark m (raw + 8 - 8) ku) (raw + 8 + n) ko)]
      · rw [markAt_putMark _ _ _ lo1 lo2]; exact po
      · intro x h1 h2
        rw [putMark_other (by omega), putMark_other (by omega), putMark_other (by omega), store_other (by omega), store_other (by omega),
          store_other (by omega), store_other (by omega)]
    · rw [markAt_congr fun x h1 h2 => putMark_other (by omega), markAt_putMark _ _ _ lh1 lh2]; exact ph
    · rw [markAt_congr fun x h1 h2 => putMark_other (by omega), markAt_congr fun x h1 h2 => putMark_other (by omega), markAt_putMark _ _ _ ln1 ln2]
      exact pn
    · rw [ip, markAt_putMark _ _ _ lv1 lv2]; exact pv
    · unfold refCounter
      rw [load_congr fun x h1 h2 => (by
        rw [putMark_other (by omega), putMark_other (by omega), putMark_other (by omega), store_other (by omega)]), load_store _ _ _ _ (by norm_num)]
    · unfold Guard.host
      rw [load_congr fun x h1 h2 => (by
        rw [putMark_other (by omega), putMark_other (by omega), putMark_other (by omega), store_other (by omega), store_other (by omega)]),
        load_store _ _ _ _ (by norm_num; omega)]
      exact ht
    · unfold dataOffset
      rw [load_congr fun x h1 h2 => (by rw [putMark_other (by omega), putMark_other (by omega), putMark_other (by omega)]),
        load_store _ _ _ _ (by norm_num)]
      rfl
    · unfold Guard.space
      rw [load_congr fun x h1 h2 => (by
        rw [putMark_other (by omega), putMark_other (by omega), putMark_other (by omega), store_other (by omega), store_other (by omega),
          store_other (by omega)]), load_store _ _ _ _ (by norm_num; omega)]
  · intro x hx
    dsimp only
    rw [ip, putMark_other (by omega), putMark_other (by omega), putMark_other (by omega), store_other (by omega), store_other (by omega),
      store_other (by omega), store_other (by omega), putMark_other (by omega), putMark_other (by omega)]

/-- What `drown` keeps. -/
theorem drown_facts {m : Mem} {b sp : Nat} (hb : 8 ≤ b) (hda : dataOffset m b = inplace) (hsp : Guard.space m b = sp) :
    drown m b = putMark (putMark (putMark (store m (b + 28) 4 (2 ^ 32 - 1)) b drowned) (b + 40) drowned) (b + 48 + sp) drowned ∧
    Guard.space (drown m b) b = sp ∧ markAt (drown m b) (b - 8) = markAt m (b - 8) ∧
    markAt (drown m b) (b + (sp + spaceOverhead) * 1) = markAt m (b + (sp + spaceOverhead)) := by
  have so : spaceOverhead = 64 := rfl
  have ip : inplace = 48 := rfl
  have hd : drown m b = putMark (putMark (putMark (store m (b + 28) 4 (2 ^ 32 - 1)) b drowned) (b + 40) drowned) (b + 48 + sp) drowned := by
    unfold drown
    dsimp only
    have e1 : dataOffset (putMark (putMark (store m (b + 28) 4 (2 ^ 32 - 1)) b drowned) (b + 40) drowned) b = inplace := by
      rw [← hda]
      unfold dataOffset
      exact load_congr fun x h1 h2 => (by rw [putMark_other (by omega), putMark_other (by omega), store_other (by omega)])
    have e2 : Guard.space (putMark (putMark (store m (b + 28) 4 (2 ^ 32 - 1)) b drowned) (b + 40) drowned) b = sp := by
      rw [← hsp]
      unfold Guard.space
      exact load_congr fun x h1 h2 => (by rw [putMark_other (by omega), putMark_other (by omega), store_other (by omega)])
    rw [if_pos e1, e2, ip]
  have hs : Guard.space (drown m b) b = sp := by
    rw [← hsp, hd]
    unfold Guard.space
    exact load_congr fun x h1 h2 => (by rw [putMark_other (by omega), putMark_other (by omega), putMark_other (by omega), store_other (by omega)])
  have hlow : markAt (drown m b) (b - 8) = markAt m (b - 8) := by
    rw [hd]
    exact markAt_congr fun x h1 h2 => (by rw [putMark_other (by omega), putMark_other (by omega), putMark_other (by omega), store_other (by omega)])
  have hhigh : markAt (drown m b) (b + (sp + spaceOverhead) * 1) = markAt m (b + (sp + spaceOverhead)) := by
    rw [hd, Nat.mul_one]
    exact markAt_congr fun x h1 h2 => (by rw [putMark_other (by omega), putMark_other (by omega), putMark_other (by omega), store_other (by omega)])
  exact ⟨hd, hs, hlow, hhigh⟩

/-- The release of a live buffer. -/
theorem Live.detach {m : Mem} {b sp : Nat} (hb : 8 ≤ b) (h : Live m b sp) (off : Bool) :
    ∃ m', detach off m b = .ok m' (b - 8) (sp + spaceOverhead + 16) ∧ (∀ off, Guard.check off m' b = false) ∧
      ∀ x, x + 8 < b ∨ b + (sp + spaceOverhead + 8) ≤ x → m' x = m x := by
  have so : spaceOverhead = 64 := rfl
  have ip : inplace = 48 := rfl
  obtain ⟨hd, hs, hlow, hhigh⟩ := drown_facts hb h.data h.space
  unfold Guard.detach repay deallocate
  rw [hs, hlow, hhigh, h.low, h.high, if_neg (by decide), if_neg (by decide), show gap 1 = 8 by decide]
  refine ⟨_, by simp only [Nat.mul_one]; rfl, ?_, ?_⟩
  · intro off
    have hr : refCounter (putMark (putMark (drown m b) (b - 8) drowned) (b + (sp + spaceOverhead)) drowned) b = 2 ^ 32 - 1 := by
      rw [hd]
      unfold refCounter
      rw [load_congr fun x h1 h2 => (by
        rw [putMark_other (by omega), putMark_other (by omega), putMark_other (by omega), putMark_other (by omega), putMark_other (by omega)]),
        load_store _ _ _ _ (by norm_num)]
    unfold Guard.check
    rw [hr, if_pos (by decide)]
  · intro x hx
    rw [hd, putMark_other (by omega), putMark_other (by omega), putMark_other (by omega), putMark_other (by omega), putMark_other (by omega),
      store_other (by omega)]

/-- **C55.** A request within the limit is always satisfied (as long as memory is found), any other is refused. The buffer has at least the
requested size, is valid, and only the bytes taken from the base allocator have changed. Whatever its owner then writes into the payload,
the buffer remains valid, its release reports no violation, gives back exactly the bytes that were taken, changes nothing else, and leaves
a buffer that is not valid. -/
theorem C55_life (off : Bool) (m : Mem) (wanna tag raw : Nat) (clock : Nat → Nat) (ht : tag ≠ 0) (ht' : tag < 2 ^ 64) :
    ((borrow m wanna tag raw clock).isSome = true ↔ 1 ≤ wanna ∧ wanna ≤ bufferLimit) ∧
    ∀ t, borrow m wanna tag raw clock = some t →
      wanna ≤ space t.mem t.ptr ∧ space t.mem t.ptr < wanna + 64 ∧ dataOffset t.mem t.ptr = inplace ∧ check off t.mem t.ptr = true ∧
      t.rawAt = raw ∧ raw < t.ptr ∧ t.ptr + inplace + space t.mem t.ptr < raw + t.rawBytes ∧
      (∀ x, x < raw ∨ raw + t.rawBytes ≤ x → t.mem x = m x) ∧
      ∀ m' : Mem, (∀ x, ¬ (t.ptr + inplace ≤ x ∧ x < t.ptr + inplace + space t.mem t.ptr) → m' x = t.mem x) →
        check off m' t.ptr = true ∧ ∃ m'', detach off m' t.ptr = .ok m'' t.rawAt t.rawBytes ∧ (∀ off, check off m'' t.ptr = false) ∧
          ∀ x, x < raw ∨ raw + t.rawBytes ≤ x → m'' x = m' x := by
  have so : spaceOverhead = 64 := rfl
  have ip : inplace = 48 := rfl
  constructor
  · constructor
    · intro h
      by_contra c
      unfold borrow at h
      rw [if_pos (by omega)] at h
      cases h
    · intro h
      obtain ⟨t, e, -⟩ := borrow_live (m := m) (raw := raw) (clock := clock) h.1 h.2 ht ht'
      rw [e]; rfl
  · intro t e
    have hw : 1 ≤ wanna ∧ wanna ≤ bufferLimit := by
      by_contra c
      unfold borrow at e
      rw [if_pos (by omega)] at e
      cases e
    obtain ⟨t', e', q1, q2, q3, q4, q5⟩ := borrow_live (m := m) (raw := raw) (clock := clock) hw.1 hw.2 ht ht'
    rw [e] at e'
    obtain rfl := Option.some.inj e'
    obtain ⟨b1, b2, -⟩ := buffBytes_spec hw.1
    have sp := q4.space
    rw [q1, q2, q3, sp, ip]
    refine ⟨by omega, by omega, q4.data, q4.check off, rfl, by omega, by omega, q5, ?_⟩
    intro m' hm
    have l := q4.congr (m' := m') (by omega) hm
    refine ⟨l.check off, ?_⟩
    obtain ⟨m'', d1, d2, d3⟩ := l.detach (by omega) off
    refine ⟨m'', ?_, d2, fun x hx => d3 x (by omega)⟩
    rw [d1]
    congr 1
    · omega

/-- A request of one byte. -/
example : (∃ t, borrow (fun _ => 0) 1 (2 ^ 20) 1024 (fun _ => 0) = some t ∧ space t.mem t.ptr = 32 ∧ t.rawBytes = 112) ∧
    bufferLimit = 524272 := by
  refine ⟨?_, by decide⟩
  obtain ⟨t, e, p, -, r, l, -⟩ := borrow_live (m := fun _ => 0) (wanna := 1) (tag := 2 ^ 20) (raw := 1024) (clock := fun _ => 0) (by norm_num) (by decide)
    (by norm_num) (by norm_num)
  exact ⟨t, e, by rw [p, l.space]; decide, by rw [r]; decide⟩

/-- **C55.** If one byte of any of the five marks of a valid buffer changes, for example the first byte after the payload or the last one
before it, the validation fails for the marks of the buffer and the release reports a violation for the marks of the allocator. -/
theorem C55_damage (m : Mem) (wanna tag raw : Nat) (clock : Nat → Nat) (ht : tag ≠ 0) (ht' : tag < 2 ^ 64) (t : Taken)
    (e : borrow m wanna tag raw clock = some t) (m₀ m' : Mem)
    (h₀ : ∀ x, ¬ (t.ptr + inplace ≤ x ∧ x < t.ptr + inplace + space t.mem t.ptr) → m₀ x = t.mem x)
    (y : Nat) (h : ∀ x, x ≠ y → m' x = m₀ x) (hy : m' y % 256 ≠ m₀ y % 256) :
    (t.ptr + inplace + space t.mem t.ptr ≤ y ∧ y < t.ptr + inplace + space t.mem t.ptr + 8 → check false m' t.ptr = false) ∧
    (t.ptr + inplace - 8 ≤ y ∧ y < t.ptr + inplace → check false m' t.ptr = false) ∧
    (t.ptr ≤ y ∧ y < t.ptr + 8 → check false m' t.ptr = false) ∧
    (t.rawAt ≤ y ∧ y < t.rawAt + 8 → detach false m' t.ptr = .bug) ∧
    (t.rawAt + t.rawBytes - 8 ≤ y ∧ y < t.rawAt + t.rawBytes → detach false m' t.ptr = .bug) := by
  have so : spaceOverhead = 64 := rfl
  have ip : inplace = 48 := rfl
  have hw : 1 ≤ wanna ∧ wanna ≤ bufferLimit := by
    by_contra c
    unfold borrow at e
    rw [if_pos (by omega)] at e
    cases e
  obtain ⟨t', e', q1, q2, q3, q4, q5⟩ := borrow_live (m := m) (raw := raw) (clock := clock) hw.1 hw.2 ht ht'
  rw [e] at e'
  obtain rfl := Option.some.inj e'
  obtain ⟨b1, b2, -⟩ := buffBytes_spec hw.1
  have sp := q4.space
  rw [q1, sp, ip] at h₀
  have l := q4.congr (m' := m₀) (by omega) h₀
  rw [q1, q2, q3, sp, ip]
  generalize hn : buffBytes wanna - spaceOverhead = n at *
  have ref' : (y < raw + 8 + 28 ∨ raw + 8 + 32 ≤ y) → refCounter m' (raw + 8) = 1 := fun hq => by
    rw [← l.ref]; unfold refCounter; exact load_congr fun x _ _ => h x (by omega)
  have host' : (y < raw + 8 + 32 ∨ raw + 8 + 40 ≤ y) → Guard.host m' (raw + 8) ≠ 0 := fun hq => by
    have : Guard.host m' (raw + 8) = Guard.host m₀ (raw + 8) := by unfold Guard.host; exact load_congr fun x _ _ => h x (by omega)
    rw [this]; exact l.host
  have data' : (y < raw + 8 + 8 ∨ raw + 8 + 16 ≤ y) → dataOffset m' (raw + 8) = inplace := fun hq => by
    rw [← l.data]; unfold dataOffset; exact load_congr fun x _ _ => h x (by omega)
  have space' : (y < raw + 8 + 24 ∨ raw + 8 + 28 ≤ y) → Guard.space m' (raw + 8) = n := fun hq => by
    rw [← l.space]; unfold Guard.space; exact load_congr fun x _ _ => h x (by omega)
  refine ⟨?_, ?_, ?_, ?_, ?_⟩
  · intro hq
    have k := probe_byte (a := raw + 8 + inplace + n) (l.over false) (by omega) (by omega) h hy
    unfold check
    rw [ref' (by omega), data' (by omega), space' (by omega), k]
    by_cases c1 : (!positive 1) = true
    · rw [if_pos c1]
    rw [if_neg c1]
    by_cases c2 : Guard.host m' (raw + 8) = 0
    · rw [if_pos c2]
    rw [if_neg c2]
    by_cases c3 : (!probe false (markAt m' (raw + 8)) head) = true
    · rw [if_pos c3]
    rw [if_neg c3]
    by_cases c4 : (!probe false (markAt m' (raw + 8 + 40)) under) = true
    · rw [if_pos c4]
    rw [if_neg c4, if_pos (by decide)]
  · intro hq
    have k := probe_byte (a := raw + 8 + 40) (l.under false) (by omega) (by omega) h hy
    unfold check
    rw [k]
    by_cases c1 : (!positive (refCounter m' (raw + 8))) = true
    · rw [if_pos c1]
    rw [if_neg c1]
    by_cases c2 : Guard.host m' (raw + 8) = 0
    · rw [if_pos c2]
    rw [if_neg c2]
    by_cases c3 : (!probe false (markAt m' (raw + 8)) head) = true
    · rw [if_pos c3]
    rw [if_neg c3, if_pos (by decide)]
  · intro hq
    have k := probe_byte (a := raw + 8) (l.head false) (by omega) (by omega) h hy
    unfold check
    rw [k]
    by_cases c1 : (!positive (refCounter m' (raw + 8))) = true
    · rw [if_pos c1]
    rw [if_neg c1]
    by_cases c2 : Guard.host m' (raw + 8) = 0
    · rw [if_pos c2]
    rw [if_neg c2, if_pos (by decide)]
  · intro hq
    have k := probe_byte (a := raw + 8 - 8) (l.low false) (by omega) (by omega) h hy
    obtain ⟨-, f2, f3, -⟩ := drown_facts (by omega) (data' (by omega)) (space' (by omega))
    unfold detach repay deallocate
    rw [f2, f3, k, if_pos (by decide)]
  · intro hq
    have k := probe_byte (a := raw + 8 + (n + spaceOverhead)) (l.high false) (by omega) (by omega) h hy
    obtain ⟨-, f2, f3, f4⟩ := drown_facts (by omega) (data' (by omega)) (space' (by omega))
    unfold detach repay deallocate
    rw [f2, f3, f4, k]
    by_cases c1 : (!probe false (markAt m' (raw + 8 - 8)) chkU) = true
    · rw [if_pos c1]
    rw [if_neg c1, if_pos (by decide)]

theorem gap_room {size : Nat} (h : 0 < size) : 8 ≤ gap size * size := by
  unfold gap
  have h1 := Nat.div_add_mod (8 + size - 1) size
  have h2 := Nat.mod_lt (8 + size - 1) h
  rw [Nat.mul_comm] at h1
  omega

/-- **C55.** The guarded allocator for items of any size: both marks lie within the bytes taken from the base allocator and outside the
items; after any writes to the items the release reports no violation and gives back what was taken. -/
theorem C55_items (off : Bool) (m : Mem) (size maxSize n raw u o : Nat) (hs : 0 < size) (hn : 1 ≤ n) (hm : n ≤ maxSize - gap size * 2) :
    ∃ t, allocate m size maxSize n raw u o = some t ∧ t.rawAt = raw ∧ raw + 8 ≤ t.ptr ∧ t.ptr + n * size + 8 ≤ raw + t.rawBytes ∧
      (∀ x, x < raw ∨ raw + t.rawBytes ≤ x → t.mem x = m x) ∧
      ∀ m' : Mem, (∀ x, ¬ (t.ptr ≤ x ∧ x < t.ptr + n * size) → m' x = t.mem x) →
        ∃ m'', deallocate off m' size t.ptr n = .ok m'' t.rawAt t.rawBytes := by
  obtain ⟨ku, eu, lu1, lu2, pu⟩ := C53_setup off u chkU
  obtain ⟨ko, eo, lo1, lo2, po⟩ := C53_setup off o chkO
  have g := gap_room hs
  unfold allocate
  rw [if_neg (by omega), eu, eo]
  dsimp only
  have ex : (n + gap size * 2) * size = n * size + (gap size * size + gap size * size) := by ring
  refine ⟨_, rfl, rfl, by dsimp only; omega, by dsimp only; rw [ex]; omega, ?_, ?_⟩
  · intro x hx
    dsimp only at hx ⊢
    rw [ex] at hx
    rw [putMark_other (by omega), putMark_other (by omega)]
  · intro m' hm'
    dsimp only at hm' ⊢
    have e1 : markAt m' (raw + gap size * size - 8) = ku := by
      rw [markAt_congr fun x h1 h2 => hm' x (by omega), markAt_congr fun x h1 h2 => putMark_other (by omega), markAt_putMark _ _ _ lu1 lu2]
    have e2 : markAt m' (raw + gap size * size + n * size) = ko := by
      rw [markAt_congr fun x h1 h2 => hm' x (by omega), markAt_putMark _ _ _ lo1 lo2]
    unfold deallocate
    rw [e1, e2, pu, po, if_neg (by decide), if_neg (by decide), Nat.add_sub_cancel]
    exact ⟨_, rfl⟩

/-- Items of 24 bytes: a gap of one item on both sides. -/
example : gap 24 = 1 ∧ gap 3 = 3 ∧ ∃ t, allocate (fun _ => 7) 24 1000 2 4096 5 6 = some t ∧ t.ptr = 4120 ∧ t.rawBytes = 96 := by
  refine ⟨by decide, by decide, ?_⟩
  obtain ⟨t, e, -⟩ := C55_items false (fun _ => 7) 24 1000 2 4096 5 6 (by norm_num) (by norm_num) (by decide)
  refine ⟨t, e, ?_⟩
  unfold allocate at e
  obtain ⟨ku, eu, -⟩ := C53_setup false 5 chkU
  obtain ⟨ko, eo, -⟩ := C53_setup false 6 chkO
  rw [if_neg (by decide), eu, eo] at e
  dsimp only at e
  rw [← Option.some.inj e]
  dsimp only
  decide

end Fptu.Props
