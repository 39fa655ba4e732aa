import Verif.Lemmas.Scan
/-!
# Property C03: field search

`IsFirst m key b e out` (Lemmas/Scan.lean) is the specification: `out` is the position of the first entry
of `[b, e)` whose `genus_and_id` is `key`, or `notFound` exactly when there is none, and never `fault`.
Memory outside `[b, e)` is arbitrary.
-/
namespace Fptu.Props
open Fptu.Scan

/-- Memory protection is page-granular: 2048 half-words (4096 bytes) share their protection. -/
def PageGranular (m : Mem) : Prop :=
  ∀ h h', h / 2048 = h' / 2048 → (m h).isSome = true → (m h').isSome = true

/-- The half-word right behind the index is readable. -/
def TailReadable (m : Mem) (e : Nat) : Prop := (m (2 * e)).isSome = true

theorem range_of_mapped {m : Mem} {b e : Nat} (h : Mapped m b e) (i k : Nat) (h1 : b ≤ i) (h2 : i + k ≤ e) :
    ∀ x, 2 * i ≤ x → x < 2 * i + 2 * k → (m x).isSome = true :=
  fun x hx1 hx2 => h x (by omega) (by omega)

/-- C03, all implementations except AVX: for every mapped index of any length and content, at any
address, the search answers the first match, and never faults although it reads whole vectors. -/
theorem C03_scan_correct (c : Cpu) (hc : c ≠ .avx) (m : Mem) (hp : PageGranular m) (key b e : Nat)
    (hm : Mapped m b e) (hbe : b ≤ e) :
    IsFirst m key b e (fptuScan c m key b e) := by
  unfold fptuScan hollowGuard
  rw [if_neg (by omega)]
  cases c with
  | portable => exact scanUnroll_spec m key b e hbe hm
  | avx => exact absurd rfl hc
  | sse2 =>
    by_cases hl : b + 4 ≤ e
    · exact scanW_spec_long Scan.sse2 (by decide) (by decide) m key b e
        (fun i h1 h2 x hx1 hx2 => by simp [Scan.sse2] at *; exact hm x (by omega) (by omega)) hl
    · refine scanW_spec_short Scan.sse2 (by decide) m key b e (by simp [Scan.sse2]; omega) hbe (by decide) ?_ ?_
      · intro hlt hpg x hx1 hx2
        simp [Scan.sse2] at *
        by_cases hx : x < 2 * b
        · exact hp (2 * b) x (by omega) (hm _ (by omega) (by omega))
        · exact hm x (by omega) (by omega)
      · intro hlt hpg x hx1 hx2
        simp [Scan.sse2] at *
        exact hp (2 * b) x (by omega) (hm _ (by omega) (by omega))
  | avx2 =>
    by_cases hl : b + 8 ≤ e
    · exact scanW_spec_long Scan.avx2 (by decide) (by decide) m key b e
        (fun i h1 h2 x hx1 hx2 => by simp [Scan.avx2] at *; exact hm x (by omega) (by omega)) hl
    · refine scanW_spec_short Scan.avx2 (by decide) m key b e (by simp [Scan.avx2]; omega) hbe (by decide) ?_ ?_
      · intro hlt hpg x hx1 hx2
        simp [Scan.avx2] at *
        by_cases hx : x < 2 * b
        · exact hp (2 * b) x (by omega) (hm _ (by omega) (by omega))
        · exact hm x (by omega) (by omega)
      · intro hlt hpg x hx1 hx2
        simp [Scan.avx2] at *
        exact hp (2 * b) x (by omega) (hm _ (by omega) (by omega))

/-- C03 for AVX, partial: it needs the 2 bytes behind the index to be readable as well
(`cmp2mask` of scan_AVX.cxx:43-52 loads 32 bytes from `scan + 2`). -/
theorem C03_scan_AVX_correct_partial (m : Mem) (hp : PageGranular m) (key b e : Nat)
    (hm : Mapped m b e) (hbe : b ≤ e) (ht : TailReadable m e) :
    IsFirst m key b e (fptuScan .avx m key b e) := by
  unfold fptuScan hollowGuard
  rw [if_neg (by omega)]
  have hm' : ∀ x, 2 * b ≤ x → x ≤ 2 * e → (m x).isSome = true := by
    intro x h1 h2
    by_cases h : x < 2 * e
    · exact hm x h1 h
    · have : x = 2 * e := by omega
      rw [this]; exact ht
  by_cases hl : b + 8 ≤ e
  · exact scanW_spec_long Scan.avx (by decide) (by decide) m key b e
      (fun i h1 h2 x hx1 hx2 => by simp [Scan.avx] at *; exact hm' x (by omega) (by omega)) hl
  · refine scanW_spec_short Scan.avx (by decide) m key b e (by simp [Scan.avx]; omega) hbe (by decide) ?_ ?_
    · intro hlt hpg x hx1 hx2
      simp [Scan.avx] at *
      by_cases hx : x < 2 * b
      · exact hp (2 * b) x (by omega) (hm _ (by omega) (by omega))
      · exact hm' x (by omega) (by omega)
    · intro hlt hpg x hx1 hx2
      simp [Scan.avx] at *
      exact hp (2 * b) x (by omega) (hm _ (by omega) (by omega))

/-- The full claim of C03 for one implementation. -/
def ScanClaim (c : Cpu) : Prop :=
  ∀ (m : Mem) (key b e : Nat), PageGranular m → Mapped m b e → b ≤ e →
    IsFirst m key b e (fptuScan c m key b e)

/-- C03 is false for the AVX implementation: with an index that ends exactly at the end of a mapped page
(last entry 1023 of page 0; the next page unmapped) the search faults. -/
theorem C03_scan_AVX_refuted : ¬ ScanClaim .avx := by
  intro h
  have := h (fun x => if x < 2048 then some 7 else none) 5 1020 1024
    (by
      intro a a' ha h1
      by_cases hx : a < 2048
      · have : a' < 2048 := by omega
        simp [this]
      · simp [hx] at h1)
    (by
      intro x _ h2
      have : x < 2048 := by omega
      simp [this])
    (by omega)
  have e : fptuScan .avx (fun x => if x < 2048 then some 7 else none) 5 1020 1024 = .fault := by
    decide +kernel
  rw [e] at this
  exact this

/-- C03: all implementations give the same answer as the reference loop (AVX: if the unit behind the index
is readable). -/
theorem C03_all_agree_with_reference (c : Cpu) (m : Mem) (hp : PageGranular m) (key b e : Nat)
    (hm : Mapped m b e) (hbe : b ≤ e) (ht : c = .avx → TailReadable m e) :
    fptuScan c m key b e = scanReferential m key b e := by
  have hr : IsFirst m key b e (scanReferential m key b e) := by
    have e' : b + (e - b) = e := by omega
    have := steps1_spec m key (e - b) b (by rw [e']; exact hm)
    rw [e'] at this
    exact this
  by_cases hc : c = .avx
  · subst hc
    exact (C03_scan_AVX_correct_partial m hp key b e hm hbe (ht rfl)).unique hr
  · exact (C03_scan_correct c hc m hp key b e hm hbe).unique hr

/-- C03: a hollow index (`end < begin`) contains nothing. -/
theorem C03_hollow (c : Cpu) (m : Mem) (key b e : Nat) (h : e < b) :
    fptuScan c m key b e = .notFound := by
  simp [fptuScan, hollowGuard, h]

/-- C03: repeated `next` continues behind the current entry: it finds the first later match. -/
theorem C03_next_correct (c : Cpu) (hc : c ≠ .avx) (m : Mem) (hp : PageGranular m) (b e tag i : Nat)
    (hm : Mapped m b e) (hb : b ≤ i) (hi : i < e) :
    IsFirst m (tag % 65536) (i + 1) e (next c m (some i) e tag) := by
  unfold next
  exact C03_scan_correct c hc m hp _ (i + 1) e (fun h h1 h2 => hm h (by omega) h2) (by omega)

/-- Non-vacuity: a mapped, page-granular memory where the searched key is in the middle. -/
example :
    let m : Mem := fun x => if x < 4096 then some (if x = 2 * 1030 + 1 then 0x4001 else 3) else none
    PageGranular m ∧ Mapped m 1000 1044 ∧ fptuScan .sse2 m 0x4001 1000 1044 = .found 1030
      ∧ fptuScan .avx2 m 0x4001 1000 1044 = .found 1030 ∧ fptuScan .avx m 0x4002 1000 1044 = .notFound := by
  intro m
  refine ⟨?_, ?_, ?_, ?_, ?_⟩
  · intro a a' ha h1
    by_cases hx : a < 4096
    · have : a' < 4096 := by omega
      simp only [m, if_pos this]; rfl
    · simp only [m, if_neg hx] at h1; cases h1
  · intro x _ h2
    have : x < 4096 := by omega
    simp only [m, if_pos this]; rfl
  · decide +kernel
  · decide +kernel
  · decide +kernel

end Fptu.Props
