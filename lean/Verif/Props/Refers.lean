import Verif.Model.Refers
import Verif.Props.IterField
import Verif.Props.TupleDefects
/-!
# C86: the memory a getter reads or refers to is alive, within the tuple, and aligned
-/
namespace Fptu.Props
open Fptu Fptu.Gear Fptu.Rw
open Fptu.Refers Fptu.Schemas

/-! ## Extent -/

theorem readBytes_cell {m : Memory} {a : Nat} (h : Cell.ok (m a) = true) : m.readBytes (4 * a) 4 = cellBytes (m a) := by
  unfold Cell.ok at h
  simp only [Bool.and_eq_true, decide_eq_true_eq] at h
  have e : ∀ i, i < 4 → (4 * a + i) / 4 = a ∧ (4 * a + i) % 4 = i ∧ (4 * a + i) % 2 = i % 2 := fun i hi => by omega
  simp only [Memory.readBytes, cellBytes, List.range_succ, List.range_zero, List.nil_append, List.cons_append, List.map_cons, List.map_nil,
    Memory.byte]
  rw [(e 0 (by omega)).1, (e 1 (by omega)).1, (e 2 (by omega)).1, (e 3 (by omega)).1, (e 0 (by omega)).2.1, (e 1 (by omega)).2.1,
    (e 2 (by omega)).2.1, (e 3 (by omega)).2.1, (e 0 (by omega)).2.2, (e 1 (by omega)).2.2, (e 2 (by omega)).2.2, (e 3 (by omega)).2.2]
  simp
  omega

theorem readBytes_cells {m : Memory} {a n : Nat} (h : ∀ i < n, Cell.ok (m (a + i)) = true) :
    m.readBytes (4 * a) (4 * n) = (m.readCells a n).flatMap cellBytes := by
  induction n with
  | zero => rfl
  | succ n ih =>
    have e1 : m.readCells a (n + 1) = m.readCells a n ++ [m (a + n)] := by
      unfold Memory.readCells; rw [List.range_succ, List.map_append]; rfl
    have e2 : m.readBytes (4 * a) (4 * (n + 1)) = m.readBytes (4 * a) (4 * n) ++ m.readBytes (4 * (a + n)) 4 := by
      unfold Memory.readBytes
      rw [show 4 * (n + 1) = 4 * n + 4 by omega, List.range_add, List.map_append, List.map_map]
      congr 1
      apply List.map_congr_left
      intro i _
      show m.byte (4 * a + (4 * n + i)) = m.byte (4 * (a + n) + i)
      rw [show 4 * a + (4 * n + i) = 4 * (a + n) + i by omega]
    rw [e1, e2, List.flatMap_append, ih (fun i hi => h i (by omega)), readBytes_cell (h n (by omega))]
    simp


/-- The bytes of the tuple are bytes: in the model a unit is a pair of numbers, in memory each is below 65536. -/
def Stored (s : RW) : Prop := ∀ a < s.tail, s.head ≤ a → Cell.ok (s.mem a) = true

instance (s : RW) : Decidable (Stored s) := by unfold Stored; infer_instance

theorem inline_bytes {m : Memory} {a : Nat} {g : Genus} (hg : g.isInplaced = true) (h : Cell.ok (m a) = true) :
    (Val.inline (inlineRead g (m a).lo)).bytes g = m.readBytes (4 * a) g.preplacedBytes := by
  have k := readBytes_cell h
  have h1 : m.readBytes (4 * a) 1 = (m.readBytes (4 * a) 4).take 1 := rfl
  have h2 : m.readBytes (4 * a) 2 = (m.readBytes (4 * a) 4).take 2 := rfl
  cases g <;> first
    | (exact absurd hg (by decide))
    | (show _ = m.readBytes (4 * a) 1; rw [h1, k]; rfl)
    | (show _ = m.readBytes (4 * a) 2; rw [h2, k]; rfl)

/-- **C86 (extent).** Whatever a getter of a fixed-size type reads or refers to, in any reachable tuple and for any token of the
schema: if it throws, `get` throws the same exception; if it is an object in the tuple, this lies entirely between the beginning and
the end of the tuple and its bytes are the value; if it is the area of zeros, the type is one of those returned by reference, the area
is large enough and the value is zero; and a value made on the spot, zero as well, is not returned by reference. -/
theorem C86_extent {F : Fix} {σ : Sch} {s : RW} {tag : Nat} {g : Genus} (hr : Reachable F σ s) (ht : TokenOk σ s.pre tag)
    (hf : g.isFixed = true) (hs : Stored s) :
    (∀ e, referred s tag g = .error e ↔ Num.getFixed s tag g = .error e) ∧
    (∀ p, referred s tag g = .ok (.tuple p) → 4 * s.head ≤ p ∧ p + cxxSize g ≤ p + g.preplacedBytes ∧ p + g.preplacedBytes ≤ 4 * s.tail ∧
      Num.getFixed s tag g = .ok (s.mem.readBytes p g.preplacedBytes)) ∧
    (referred s tag g = .ok .zeros → byRef g = true ∧ cxxSize g ≤ zeroedSize ∧
      Num.getFixed s tag g = .ok (List.replicate g.preplacedBytes 0)) ∧
    (referred s tag g = .ok .made → byRef g = false ∧ Num.getFixed s tag g = .ok (List.replicate g.preplacedBytes 0)) := by
  have hw := hr.wf_pure.1
  have hl := C12_layout_partial hr
  have hsz : cxxSize g ≤ g.preplacedBytes := by cases g <;> decide
  have hz : cxxSize g ≤ zeroedSize := by cases g <;> decide
  unfold referred Num.getFixed
  by_cases hp : isPreplaced tag = true
  · rw [if_pos hp, if_pos hp]
    unfold getPreplacedFixed
    by_cases hg : tag2genus tag = g
    · have hg' : ¬ tag2genus tag ≠ g := fun h => h hg
      simp only [if_neg hg']
      have hslot := ht.2 hp
      rw [hg, if_pos hf] at hslot
      have h1 := hslot.1
      have hb := hl.bounds
      split_ifs with hd
      · refine ⟨fun e => ?_, fun p h => (by cases h), fun h => (by cases h), fun h => (by cases h)⟩
        constructor <;> intro h <;> cases h <;> rfl
      · refine ⟨fun e => ?_, fun p h => ?_, fun h => (by cases h), fun h => (by cases h)⟩
        · constructor <;> intro h <;> cases h
        · cases h
          exact ⟨by omega, by omega, by omega, rfl⟩
    · simp only [if_pos hg]
      refine ⟨fun e => ?_, fun p h => (by cases h), fun h => (by cases h), fun h => (by cases h)⟩
      constructor <;> intro h <;> cases h <;> rfl
  · rw [if_neg hp, if_neg hp]
    unfold getLoose getEntry
    by_cases hc : isLooseCollection tag = true
    · rw [if_pos hc, if_pos hc]
      refine ⟨fun e => ?_, fun p h => (by cases h), fun h => (by cases h), fun h => (by cases h)⟩
      constructor <;> intro h <;> cases h <;> rfl
    rw [if_neg hc, if_neg hc]
    by_cases hg : tag2genus tag = g
    · have hg' : ¬ tag2genus tag ≠ g := fun h => h hg
      simp only [if_neg hg']
      have hgid := genus_of_gid (t := tag) rfl
      have hw31 : tag2gid tag / 2048 ≠ 31 := by
        intro h
        rw [h] at hgid
        exact ht.1 hgid
      cases hk : s.lookup (tag2gid tag) with
      | none =>
        dsimp only
        by_cases hd : isDiscernible tag = true
        · rw [if_pos hd, if_pos hd]
          refine ⟨fun e => ?_, fun p h => (by cases h), fun h => (by cases h), fun h => (by cases h)⟩
          constructor <;> intro h <;> cases h <;> rfl
        · rw [if_neg hd, if_neg hd]
          have hempty : ((some (Val.empty g)).map (·.bytes g)).getD [] = List.replicate g.preplacedBytes 0 := by
            cases g <;> first | rfl | (exact absurd hf (by decide))
          refine ⟨fun e => ?_, fun p h => ?_, fun h => ?_, fun h => ?_⟩
          · constructor <;> intro h <;> cases h
          · exfalso; revert h; split_ifs <;> intro h <;> cases h
          · refine ⟨?_, hz, congrArg Except.ok hempty⟩
            by_contra hb
            rw [if_neg hb] at h
            cases h
          · refine ⟨?_, congrArg Except.ok hempty⟩
            by_contra hb
            rw [if_pos (by simpa using hb)] at h
            cases h
      | some a =>
        obtain ⟨⟨ha, hhi⟩, _⟩ := (lookup_some hw31).1 hk
        have hcg : cellGenus (s.mem a) = g := by unfold cellGenus; rw [hhi, ← hgid, hg]
        have hb := hl.bounds
        have ha1 := ha.1
        have ha2 := ha.2.1
        dsimp only
        by_cases hi : g.isInplaced = true
        · rw [if_pos hi, if_pos hi]
          have hok := hs a (by omega) ha1
          have hsmall : g.preplacedBytes ≤ 4 := by cases g <;> first | decide | (exact absurd hi (by decide))
          refine ⟨fun e => ?_, fun p h => ?_, fun h => (by cases h), fun h => (by cases h)⟩
          · constructor <;> intro h <;> cases h
          · cases h
            refine ⟨by omega, by omega, by omega, ?_⟩
            rw [← inline_bytes hi hok]
            rfl
        · rw [if_neg hi, if_neg hi, if_pos (Or.inl hf)]
          have hi' : g.isInplaced = false := by simpa using hi
          have hne : g ≠ .hole := by rw [← hg]; exact ht.1
          have hpu := preplaced_units g hf hi'
          have hpos : 0 < g.looseUnits := by
            cases g <;> first | decide | (exact absurd hf (by decide)) | (exact absurd hi' (by decide)) | (exact absurd rfl hne)
          have hlen : chunkLen σ s a = g.looseUnits := by
            unfold chunkLen lenOf fieldUnits
            rw [if_neg (by rw [hhi]; exact fun h => hw31 h.2), if_pos ha2, hcg, if_pos hf]
          have hin := hl.inside a ha1 (by omega) (by omega)
          rw [hlen] at hin
          have hread : readPayload g s.mem (s.start a) = some (.units (s.mem.readCells (s.start a) g.looseUnits)) := by
            cases g <;> first | rfl | (exact absurd hf (by decide))
          refine ⟨fun e => ?_, fun p h => ?_, fun h => (by cases h), fun h => (by cases h)⟩
          · constructor <;> intro h <;> cases h
          · cases h
            have hstart : s.start a = a + (s.mem a).lo := rfl
            refine ⟨by omega, by omega, by omega, ?_⟩
            rw [hread, hpu, readBytes_cells fun i hi => hs _ (by omega) (by omega)]
            rfl
    · simp only [if_pos hg]
      refine ⟨fun e => ?_, fun p h => (by cases h), fun h => (by cases h), fun h => (by cases h)⟩
      constructor <;> intro h <;> cases h <;> rfl

/-! ## Alignment -/

/-- **C86 (alignment, partial).** Loose fields of the types with an alignment of at most 4 are read and referred to at addresses that
are multiples of the alignment, for every buffer beginning at a multiple of 4. Missing: the 64-bit types, IP addresses, and `get_int128`
and `get_uint128` (`C86_aligned_refuted`). -/
theorem C86_aligned_loose_partial {s : RW} {tag : Nat} {g : Genus} {q : Refers.Place} {base : Nat} (hl : isPreplaced tag = false)
    (hq : referred s tag g = .ok q) (ha : cxxAlign g ≤ 4) (hb : base % 4 = 0) : accessOk base (cxxAlign g) q = true := by
  have h4 : 4 % cxxAlign g = 0 ∧ 64 % cxxAlign g = 0 := by
    cases g <;> first | decide | (exact absurd ha (by decide))
  have mul : ∀ n, (base + 4 * n) % cxxAlign g = 0 := by
    intro n
    have hd : cxxAlign g ∣ 4 := Nat.dvd_of_mod_eq_zero h4.1
    exact Nat.mod_eq_zero_of_dvd (Nat.dvd_add (hd.trans (Nat.dvd_of_mod_eq_zero hb)) (hd.trans (Nat.dvd_mul_right 4 n)))
  unfold referred at hq
  rw [if_neg (by rw [hl]; decide)] at hq
  split_ifs at hq <;> split at hq <;> cases hq <;> first
    | exact beq_iff_eq.2 (mul _)
    | exact beq_iff_eq.2 h4.2
    | rfl

/-- Imported preplaced tokens have offsets aligned as the schema aligns the fields it places itself. -/
def _root_.Fptu.Schemas.Cmd.Placed : Cmd → Prop
  | .imported _ t _ false => isPreplaced t = true → tag2offset t % min 4 (tag2genus t).preplacedBytes = 0
  | _ => True

theorem placed_step {s s' : Sc} {c : Cmd} {t : Nat} (ha : c.Placed) (e : exec s c = .ok t s') (hp : isPreplaced t = true)
    (hs : tag2genus t ≠ .hole) : tag2offset t % min 4 (tag2genus t).preplacedBytes = 0 := by
  have tok : ∀ {t' : Nat} {n : Name} {i : Option (List Nat)}, addDefinition s n t' i = .ok t s' → t = t' :=
    fun h => (commit_ok (addDefinition_ok h).2.2.2.2).1
  have hpre : ∀ {n : Name} {tc : Nat} {d sa : Bool} {i : Option (List Nat)}, definePreplaced s n tc d sa i = .ok t s' →
      tag2offset t % min 4 (tag2genus t).preplacedBytes = 0 := by
    intro n tc d sa i h
    obtain ⟨h1, off, ident, h2, h3, h4, h5⟩ := definePreplaced_ok h
    cases tok h5
    obtain ⟨_, _, _, _, _, _, b7, b8, _⟩ := C01_preplaced_token_lossless _ _ _ _ _ ⟨by omega, by omega⟩ h4
    have hg : tag2genus t = Genus.ofCode tc := by show Genus.ofCode (tag2genusCode t) = _; rw [b8]
    rw [hg] at hs ⊢
    have hal := align_cases _ hs
    have hmin : (if (Genus.ofCode tc).preplacedBytes > 4 then 4 else (Genus.ofCode tc).preplacedBytes) =
        min 4 (Genus.ofCode tc).preplacedBytes := by split_ifs <;> omega
    rw [hmin] at h2 hal
    have := (aligned_spec s.image.length _ hal).2.2
    have h7 : tag2offset t = off := by omega
    rw [h7, h2]
    exact this
  cases c with
  | preplaced n tc d sa i => exact hpre e
  | opacity n sz al i =>
    obtain ⟨off, ident, h2, h3, h4, h5⟩ := defineOpacity_ok e
    cases tok h5
    obtain ⟨_, _, _, _, _, _, b7, b8, _⟩ := C01_preplaced_token_lossless _ _ _ _ _ ⟨by omega, by omega⟩ h4
    have hg : tag2genus t = Genus.ofCode 31 := by show Genus.ofCode (tag2genusCode t) = _; rw [b8]
    exact absurd hg hs
  | loose n tc c d sa =>
    obtain ⟨h1, h2, ident, h4, h5⟩ := defineLoose_ok e
    cases tok h5
    have := (C01_loose_token_lossless _ _ _ _ _ _ h4).2.2.2.2.1
    rw [this] at hp; cases hp
  | imported n t' i r =>
    have e : importDefinition s n t' i r = .ok t s' := e
    unfold importDefinition at e
    split_ifs at e with h1 h2 h3
    · cases tok e
      have h1 : r = false := by simpa using h1
      subst h1
      exact ha hp
    · exact hpre e
    · obtain ⟨h1, h2, ident, h4, h5⟩ := defineLoose_ok e
      cases tok h5
      have := (C01_loose_token_lossless _ _ _ _ _ _ h4).2.2.2.2.1
      rw [this] at hp; cases hp

theorem placed_run {s s' : Sc} {log log' : List (Name × Nat)} {cs : List Cmd} (ha : ∀ c ∈ cs, c.Placed)
    (h0 : ∀ p ∈ log, isPreplaced p.2 = true → tag2genus p.2 ≠ .hole → tag2offset p.2 % min 4 (tag2genus p.2).preplacedBytes = 0)
    (e : runFrom s log cs = some (s', log')) :
    ∀ p ∈ log', isPreplaced p.2 = true → tag2genus p.2 ≠ .hole → tag2offset p.2 % min 4 (tag2genus p.2).preplacedBytes = 0 := by
  induction cs generalizing s log with
  | nil => cases e; exact h0
  | cons c cs ih =>
    have has : ∀ c ∈ cs, c.Placed := fun x hx => ha x (List.mem_cons_of_mem _ hx)
    unfold runFrom at e
    split at e
    · rename_i tok s1 he
      refine ih has (fun p hp => ?_) e
      rcases List.mem_append.1 hp with k | k
      · exact h0 p k
      · rw [List.mem_singleton] at k; subst k
        exact placed_step (ha c List.mem_cons_self) he
    · exact ih has h0 e
    · exact ih has h0 e
    · cases e

/-- **C86 (alignment of preplaced fields, partial).** For every schema, of any definitions in any order, whose imported tokens are
aligned: preplaced fields of the types with an alignment of at most 4 are read and referred to at addresses that are multiples of
the alignment, for every tuple in a buffer beginning at a multiple of 4. Missing: as for loose fields, see
`C86_aligned_preplaced_refuted`. -/
theorem C86_aligned_preplaced_partial {cs : List Cmd} {c : Sc} {log : List (Name × Nat)} (ha : ∀ x ∈ cs, x.Placed)
    (e : define cs = some (c, log)) {n : Name} {t : Nat} (ht : (n, t) ∈ log) (hp : isPreplaced t = true) {s : RW} {g : Genus}
    {q : Refers.Place} {base : Nat} (hq : referred s t g = .ok q) (hal : cxxAlign g ≤ 4) (hb : base % 4 = 0) :
    accessOk base (cxxAlign g) q = true := by
  unfold referred at hq
  rw [if_pos hp] at hq
  split_ifs at hq with h1 h2
  cases hq
  have hg : tag2genus t = g := by simpa using h1
  by_cases hh : g = .hole
  · subst hh
    exact beq_iff_eq.2 (Nat.mod_one _)
  have h := placed_run ha (fun p hp => (by cases hp)) e (n, t) ht hp (by rw [hg]; exact hh)
  dsimp only at h
  rw [hg] at h
  refine beq_iff_eq.2 ?_
  generalize tag2offset t = o at h ⊢
  have h4 : cxxAlign g ∣ 4 ∧ cxxAlign g ∣ min 4 g.preplacedBytes := by
    cases g <;> first
      | (exact ⟨Nat.dvd_of_mod_eq_zero (by decide), Nat.dvd_of_mod_eq_zero (by decide)⟩)
      | (exact absurd hal (by decide))
  exact Nat.mod_eq_zero_of_dvd (Nat.dvd_add (h4.1.trans (Nat.dvd_of_mod_eq_zero hb))
    (Nat.dvd_add (h4.1.trans (Nat.dvd_mul_right 4 _)) (h4.2.trans (Nat.dvd_of_mod_eq_zero h))))

/-- Fields of 64 bits, IP addresses and fields of 128 bits, with a field of 32 bits in between. -/
def slantOps : List Op := [setF .i64 1 3, setF .i32 2 4, setF .i64 3 5, setF .ip 4 6, setF .i32 5 7, setF .ip 6 8, setF .bin128 7 9,
  setF .i32 8 1, setF .bin128 9 2]

theorem slant_run : ∃ s, Reachable .code noPre s ∧ Stored s ∧
    referred s (fix .i64 1) .i64 = .ok (.tuple 48) ∧ referred s (fix .i64 3) .i64 = .ok (.tuple 60) ∧
    referred s (fix .ip 4) .ip = .ok (.tuple 68) ∧ referred s (fix .ip 6) .ip = .ok (.tuple 88) ∧
    referred128 s (fix .bin128 7) = .ok (.tuple 104) ∧ referred128 s (fix .bin128 9) = .ok (.tuple 124) ∧
    referred s (fix .ip 11) .ip = .ok .zeros ∧ referred s (fix .i64 11) .i64 = .ok .made := by
  obtain ⟨s, hr, hp⟩ := run_decide (F := .code) (s := fresh 12 80) (ops := slantOps) (fun s => decide (Stored s ∧
    referred s (fix .i64 1) .i64 = .ok (.tuple 48) ∧ referred s (fix .i64 3) .i64 = .ok (.tuple 60) ∧
    referred s (fix .ip 4) .ip = .ok (.tuple 68) ∧ referred s (fix .ip 6) .ip = .ok (.tuple 88) ∧
    referred128 s (fix .bin128 7) = .ok (.tuple 104) ∧ referred128 s (fix .bin128 9) = .ok (.tuple 124) ∧
    referred s (fix .ip 11) .ip = .ok .zeros ∧ referred s (fix .i64 11) .i64 = .ok .made)) (by decide +kernel)
  exact ⟨s, (fresh_ok (by decide) (by decide)).reachable (opOk_of (by decide +kernel)) (runBenign_of (by decide +kernel)) hr,
    of_decide_eq_true hp⟩

theorem slant {p q n : Nat} (hn : n = 8 ∨ n = 16) (h : ((p : Int) - q) % 8 = 4) (base : Nat) :
    accessOk base n (.tuple p) = false ∨ accessOk base n (.tuple q) = false := by
  unfold accessOk
  simp only [beq_eq_false_iff_ne]
  rcases hn with rfl | rfl <;> omega

/-- **C86 (alignment, refuted).** Wherever the buffer is, one of two 64-bit integers, one of two IP addresses, and one of two 128-bit
integers read with `get_int128` is not aligned as its C++ type demands: payloads are aligned to 4 bytes only, but read as objects of
the types (meta.h:168-177, 218-227; getter.h:418, 424). -/
theorem C86_aligned_refuted : ∃ s, Reachable .code noPre s ∧ ∃ p₁ p₂ q₁ q₂ r₁ r₂,
    referred s (fix .i64 1) .i64 = .ok p₁ ∧ referred s (fix .i64 3) .i64 = .ok p₂ ∧
    referred s (fix .ip 4) .ip = .ok q₁ ∧ referred s (fix .ip 6) .ip = .ok q₂ ∧
    referred128 s (fix .bin128 7) = .ok r₁ ∧ referred128 s (fix .bin128 9) = .ok r₂ ∧
    ∀ base, (accessOk base (cxxAlign .i64) p₁ = false ∨ accessOk base (cxxAlign .i64) p₂ = false) ∧
      (accessOk base (cxxAlign .ip) q₁ = false ∨ accessOk base (cxxAlign .ip) q₂ = false) ∧
      (accessOk base align128 r₁ = false ∨ accessOk base align128 r₂ = false) := by
  obtain ⟨s, hr, _, h1, h2, h3, h4, h5, h6, _⟩ := slant_run
  exact ⟨s, hr, _, _, _, _, _, _, h1, h2, h3, h4, h5, h6, fun base => ⟨slant (Or.inl rfl) (by decide) base,
    slant (Or.inl rfl) (by decide) base, slant (Or.inr rfl) (by decide) base⟩⟩

/-- A 64-bit integer, a 32-bit one and a further 64-bit one, preplaced. -/
def slantCs : List Cmd := [.preplaced [65] (Genus.code .i64) false false none, .preplaced [66] (Genus.code .i32) false false none,
  .preplaced [67] (Genus.code .i64) false false none]

/-- **C86 (alignment of preplaced fields, refuted).** The schema places 64-bit fields at multiples of 4: of the first and the third of
the fields above, one is misaligned in every tuple, wherever its buffer is. -/
theorem C86_aligned_preplaced_refuted : ∃ c t₁ t₂ t₃, define slantCs = some (c, [([65], t₁), ([66], t₂), ([67], t₃)]) ∧
    ∀ s, ∃ p q, referred s t₁ .i64 = .ok p ∧ referred s t₃ .i64 = .ok q ∧
      ∀ base, accessOk base (cxxAlign .i64) p = false ∨ accessOk base (cxxAlign .i64) q = false := by
  have h : ∃ t₁ t₂ t₃, (define slantCs).map Prod.snd = some [([65], t₁), ([66], t₂), ([67], t₃)] ∧
      (isPreplaced t₁ = true ∧ tag2genus t₁ = .i64 ∧ isDiscernible t₁ = false ∧ tag2offset t₁ = 0) ∧
      (isPreplaced t₃ = true ∧ tag2genus t₃ = .i64 ∧ isDiscernible t₃ = false ∧ tag2offset t₃ = 12) := by
    refine ⟨(((define slantCs).map Prod.snd).getD []).head!.2, ((((define slantCs).map Prod.snd).getD []).drop 1).head!.2,
      ((((define slantCs).map Prod.snd).getD []).drop 2).head!.2, ?_⟩
    decide +kernel
  obtain ⟨t₁, t₂, t₃, h1, ⟨a1, a2, a3, a4⟩, b1, b2, b3, b4⟩ := h
  obtain ⟨⟨c, l⟩, h3, h4⟩ := Option.map_eq_some_iff.1 h1
  have h4 : l = _ := h4
  subst h4
  refine ⟨c, t₁, t₂, t₃, h3, fun s => ⟨.tuple (4 * s.pivot), .tuple (4 * s.pivot + 12), ?_, ?_, fun base => slant (Or.inl rfl) (by omega) base⟩⟩
  · unfold referred
    rw [if_pos a1, a2, a3, a4]
    rfl
  · unfold referred
    rw [if_pos b1, b2, b3, b4]
    rfl

/-- `C86_extent` and `C86_aligned_loose_partial` apply: a tuple with nine fields; the 128-bit field lies at byte 104, the missing IP
address is read from the zeros, and the 32-bit fields are aligned in every buffer at a multiple of 4. -/
example : ∃ s, Reachable .code noPre s ∧ Stored s ∧ TokenOk noPre s.pre (fix .bin128 7) ∧
    referred s (fix .bin128 7) .bin128 = .ok (.tuple 104) ∧ referred s (fix .ip 11) .ip = .ok .zeros ∧
    (∃ e, referred s (fix .ip 11) .ipnet = .error e) ∧
    ∃ p, referred s (fix .i32 5) .i32 = .ok (.tuple p) ∧ ∀ base, base % 4 = 0 → accessOk base (cxxAlign .i32) (.tuple p) = true := by
  obtain ⟨s, hr, hp⟩ := run_decide (F := .code) (s := fresh 12 80) (ops := slantOps) (fun s => decide (Stored s ∧
    referred s (fix .bin128 7) .bin128 = .ok (.tuple 104) ∧ referred s (fix .ip 11) .ip = .ok .zeros ∧
    referred s (fix .ip 11) .ipnet = .error .typeMismatch ∧ referred s (fix .i32 5) .i32 = .ok (.tuple 84))) (by decide +kernel)
  obtain ⟨h1, h2, h3, h4, h5⟩ := of_decide_eq_true hp
  exact ⟨s, (fresh_ok (by decide) (by decide)).reachable (opOk_of (by decide +kernel)) (runBenign_of (by decide +kernel)) hr, h1,
    ⟨by decide +kernel, fun h => absurd h (by decide +kernel)⟩, h2, h3, ⟨_, h4⟩, 84, h5, fun base hb =>
      C86_aligned_loose_partial (by decide +kernel) h5 (by decide) hb⟩

/-- `C86_aligned_preplaced_partial` applies: the 32-bit field of the schema above. -/
example (s : RW) (base : Nat) (hb : base % 4 = 0) : ∃ c log t q, define slantCs = some (c, log) ∧ ([66], t) ∈ log ∧
    referred s t .i32 = .ok q ∧ accessOk base 4 q = true := by
  have h : ∃ t, ([66], t) ∈ ((define slantCs).map Prod.snd).getD [] ∧ isPreplaced t = true ∧ tag2genus t = .i32 ∧ isDiscernible t = false :=
    ⟨((((define slantCs).map Prod.snd).getD []).drop 1).head!.2, by decide +kernel⟩
  obtain ⟨t, h1, h2, h3, h4⟩ := h
  have hpl : ∀ x ∈ slantCs, x.Placed := by
    intro x hx
    unfold slantCs at hx
    simp only [List.mem_cons, List.not_mem_nil, or_false] at hx
    rcases hx with rfl | rfl | rfl <;> trivial
  cases hd : define slantCs with
  | none => rw [hd] at h1; cases h1
  | some r =>
    obtain ⟨c, log⟩ := r
    rw [hd] at h1
    have h1 : ([66], t) ∈ log := h1
    have hq : referred s t .i32 = .ok (.tuple (4 * s.pivot + tag2offset t)) := by
      unfold referred
      rw [if_pos h2, h3, h4]
      rfl
    exact ⟨c, log, t, _, rfl, h1, hq, C86_aligned_preplaced_partial hpl hd h1 h2 hq (by decide) hb⟩

/-! ## Lifetime -/

/-- **C86 (lifetime, partial).** Every getter of an accessor or of a tuple gives a value or a reference to the field, and so does every
getter of a handle except `get_int128` and `get_uint128`. -/
theorem C86_alive_partial : ∀ g ∈ getters, g.viaAccessor ≠ .dangling ∧ g.viaTuple ≠ .dangling ∧
    (g.name ≠ "get_int128" → g.name ≠ "get_uint128" → g.viaHandle ≠ some .dangling) := by decide +kernel

/-- **C86 (lifetime, refuted).** `get_int128` and `get_uint128` of the handles return a reference to an object that does not exist any
more: they are declared to return `const int128_t &` and `const uint128_t &` (tuples.h:273-274, 639-640), but forward to functions
returning values (ro.cxx:234-235, rw.cxx:74-75). -/
theorem C86_alive_refuted : ∃ g ∈ getters, ∃ h ∈ getters, g.name = "get_int128" ∧ h.name = "get_uint128" ∧
    g.viaHandle = some .dangling ∧ h.viaHandle = some .dangling := by decide +kernel

end Fptu.Props
