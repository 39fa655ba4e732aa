import Verif.Model.ScanFloat
import Verif.Props.Scan
import Verif.Lemmas.Bits
/-! # C03: the comparison of the AVX search -/
namespace Fptu.Props
open Fptu.Scan

private theorem lane_small {a : Nat} (h : a < 65536) : a / 2 ^ 23 % 256 = 0 ∧ a / 2 ^ 31 = 0 ∧ a % 2 ^ 31 = a ∧ isNan32 a = false := by
  refine ⟨by omega, by omega, by omega, ?_⟩
  unfold isNan32
  exact decide_eq_false (by omega)

private theorem cmp_small {a b : Nat} (ha : a < 65536) (hb : b < 65536) :
    cmpEqPs false a b = decide (a = b) ∧ cmpEqPs true a b = true := by
  obtain ⟨a1, a2, a3, a4⟩ := lane_small ha
  obtain ⟨b1, b2, b3, b4⟩ := lane_small hb
  unfold cmpEqPs flushed
  rw [a4, b4, a1, b1, a2, b2]
  refine ⟨?_, by simp⟩
  simp only [Bool.false_and, Bool.false_eq_true, if_false, Bool.not_false, Bool.true_and, a3, b3]
  by_cases c : a = b
  · subst c; simp
  · rw [decide_eq_false c, decide_eq_false (by omega)]; rfl

/-- What the comparison sees of an index: with the flag, only zeros. -/
def seen (daz : Bool) (m : Mem) : Mem := if daz then fun h => (m h).map fun _ => 0 else m
/-- What the comparison sees of a key. -/
def seenKey (daz : Bool) (key : Nat) : Nat := if daz then 0 else key

/-- **C03 (AVX comparison).** For every index and every key of 16 bits, comparing the entries as floating-point numbers gives the mask
of equal entries; with the flag "denormals are zeros" it gives the mask for an index and a key that are all zeros. -/
theorem C03_avx_lanes (daz : Bool) (m : Mem) (hm : ∀ h v, m h = some v → v < 65536) (key scan : Nat) (hk : key < 65536) :
    cmp2maskPs daz m key scan = cmp2mask avx (seen daz m) (seenKey daz key) scan := by
  have hs : ∀ h, (seen daz m h).isSome = (m h).isSome := by
    intro h
    unfold seen
    cases daz
    · rfl
    · simp
  have hg : ∀ i, (m (2 * i + 1)).getD 0 < 65536 := by
    intro i
    cases h : m (2 * i + 1) with
    | none => decide
    | some v => exact hm _ _ h
  have hl : ∀ i, lanePs m i = gid m i := by
    intro i
    unfold lanePs gid
    rw [show (0xffff : Nat) = 2 ^ 16 - 1 from rfl, Nat.and_two_pow_sub_one_eq_mod]
    have := hg i
    omega
  unfold cmp2maskPs cmp2mask
  simp only [hs]
  show (if _ then some (maskOf 1 0 _) else none) = if _ then some (maskOf 1 0 _) else none
  congr 3
  apply List.map_congr_left
  intro j _
  rw [hl]
  obtain ⟨e1, e2⟩ := cmp_small hk (hg (scan + j))
  cases daz
  · exact e1
  · refine e2.trans (Eq.symm (decide_eq_true ?_))
    simp only [seenKey, seen, gid, if_true]
    cases m (2 * (scan + j) + 1) <;> rfl

private theorem step_eq {daz : Bool} {m : Mem} {key : Nat} (h : ∀ i, cmp2maskPs daz m key i = cmp2mask avx (seen daz m) (seenKey daz key) i)
    (i : Nat) : stepPs daz m key i = stepW avx (seen daz m) (seenKey daz key) i := by
  unfold stepPs stepW
  rw [h]
  cases cmp2mask avx (seen daz m) (seenKey daz key) i with
  | none => rfl
  | some k => exact ptr_eq k i
where
  ptr_eq (k i : Nat) : ptrPs k i = match mask2ptr avx k i with | some i => Out.found i | none => Out.notFound := by
    unfold ptrPs mask2ptr
    by_cases c : k = 0
    · rw [if_pos c, if_pos c]
    · rw [if_neg c, if_neg c]
      show Out.found _ = Out.found (i + (ctz k - 0) / 1)
      rw [Nat.div_one, Nat.sub_zero]

private theorem steps_eq {daz : Bool} {m : Mem} {key : Nat} (h : ∀ i, cmp2maskPs daz m key i = cmp2mask avx (seen daz m) (seenKey daz key) i)
    (n i : Nat) : stepsPs daz m key n i = stepsW avx (seen daz m) (seenKey daz key) n i := by
  induction n generalizing i with
  | zero => rfl
  | succ n ih =>
    unfold stepsPs stepsW
    rw [step_eq h]
    cases stepW avx (seen daz m) (seenKey daz key) i with
    | notFound => exact ih _
    | _ => rfl

private theorem tail_eq {daz : Bool} {m : Mem} {key : Nat} (h : ∀ i, cmp2maskPs daz m key i = cmp2mask avx (seen daz m) (seenKey daz key) i)
    (e c i : Nat) : tailPs daz m key e c i = tailW avx (seen daz m) (seenKey daz key) e c i := by
  cases c with
  | zero => rfl
  | succ c =>
    unfold tailPs tailW
    dsimp only
    rw [steps_eq h, step_eq h]
    rfl

private theorem bulk_eq {daz : Bool} {m : Mem} {key : Nat} (h : ∀ i, cmp2maskPs daz m key i = cmp2mask avx (seen daz m) (seenKey daz key) i)
    (bytes e : Nat) : ∀ n i, e - i ≤ n → bulkPs daz m key bytes e i = bulkW avx (seen daz m) (seenKey daz key) bytes e i := by
  intro n
  induction n with
  | zero =>
    intro i hi
    rw [bulkPs, bulkW, steps_eq h]
    cases stepsW avx (seen daz m) (seenKey daz key) 8 i with
    | notFound =>
      dsimp only
      rw [if_neg (by omega), dif_neg (by simp only [avx]; omega)]
      exact tail_eq h _ _ _
    | _ => rfl
  | succ n ih =>
    intro i hi
    rw [bulkPs, bulkW, steps_eq h]
    cases stepsW avx (seen daz m) (seenKey daz key) 8 i with
    | notFound =>
      dsimp only
      by_cases c : i + 64 + 63 < e
      · rw [if_pos c, dif_pos (by simp only [avx]; omega)]
        exact ih _ (by omega)
      · rw [if_neg c, dif_neg (by simp only [avx]; omega)]
        exact tail_eq h _ _ _
    | _ => rfl

private theorem scan_eq {daz : Bool} {m : Mem} {key : Nat} (h : ∀ i, cmp2maskPs daz m key i = cmp2mask avx (seen daz m) (seenKey daz key) i)
    (b e : Nat) : scanAvx daz m key b e = fptuScan .avx (seen daz m) (seenKey daz key) b e := by
  unfold fptuScan hollowGuard
  by_cases c0 : e < b
  · rw [if_pos c0]
    unfold scanAvx
    rw [if_pos (by omega), if_pos (by omega)]
  rw [if_neg c0]
  show _ = scanW avx _ _ _ _
  unfold scanAvx scanW
  dsimp only
  by_cases c1 : e < b + 8
  · rw [if_pos c1, if_pos (show 4 * (e - b) < 4 * avx.W by simp only [avx]; omega)]
    by_cases c2 : e < b + 1
    · rw [if_pos c2, if_pos (show 4 * (e - b) < 4 by omega)]
    · rw [if_neg c2, if_neg (show ¬ 4 * (e - b) < 4 by omega)]
      unfold shortW
      dsimp only
      by_cases c3 : 8 ≤ b % 1024
      · rw [if_pos c3, if_pos (show b % 1024 ≥ avx.pageMin from c3), h]
        show _ = match cmp2mask avx (seen daz m) (seenKey daz key) (e - 8) with
          | none => Out.fault
          | some mask => match mask2ptr avx (mask >>> (1 * (8 - (e - b)))) b with | some i => .found i | none => .notFound
        rw [Nat.one_mul]
        cases cmp2mask avx (seen daz m) (seenKey daz key) (e - 8) with
        | none => rfl
        | some k => exact step_eq.ptr_eq _ _
      · rw [if_neg c3, if_neg (show ¬ b % 1024 ≥ avx.pageMin from c3), h]
        show _ = match cmp2mask avx (seen daz m) (seenKey daz key) b with
          | none => Out.fault
          | some mask => match mask2ptr avx ((255 >>> (1 * (8 - (e - b)))) &&& mask) b with | some i => .found i | none => .notFound
        rw [Nat.one_mul]
        cases cmp2mask avx (seen daz m) (seenKey daz key) b with
        | none => rfl
        | some k => exact step_eq.ptr_eq _ _
  · rw [if_neg c1, if_neg (show ¬ 4 * (e - b) < 4 * avx.W by simp only [avx]; omega)]
    show (if (4 * (e - b) + 31) / 32 ≤ 8 then _ else _) = if (4 * (e - b) + 31) / 32 ≤ 8 then _ else _
    by_cases c2 : (4 * (e - b) + 31) / 32 ≤ 8
    · rw [if_pos c2, if_pos c2]; exact tail_eq h _ _ _
    · rw [if_neg c2, if_neg c2]; exact bulk_eq h _ _ _ _ (Nat.le_refl _)

/-- **C03 (AVX, partial).** Without the flag the AVX search with its floating-point comparison answers as every correct search does:
the first entry of the key, or that there is none. Missing as in `C03_scan_AVX_correct_partial`: the readability of the 2 bytes after the index
is a hypothesis. -/
theorem C03_avx_float_partial (m : Mem) (hp : PageGranular m) (hv : ∀ h v, m h = some v → v < 65536) (key b e : Nat) (hk : key < 65536)
    (hm : Mapped m b e) (hbe : b ≤ e) (ht : TailReadable m e) : IsFirst m key b e (scanAvx false m key b e) := by
  rw [scan_eq (fun i => C03_avx_lanes false m hv key i hk)]
  exact C03_scan_AVX_correct_partial m hp key b e hm hbe ht

/-- **C03, refuted for programs that set the flag.** With the flag, the AVX search of every non-empty index answers with its first entry,
whatever field it is asked for. -/
theorem C03_avx_mode_refuted (m : Mem) (hp : PageGranular m) (hv : ∀ h v, m h = some v → v < 65536) (key b e : Nat) (hk : key < 65536)
    (hm : Mapped m b e) (hbe : b < e) (ht : TailReadable m e) : scanAvx true m key b e = .found b := by
  rw [scan_eq (fun i => C03_avx_lanes true m hv key i hk)]
  have hs : ∀ h, (seen true m h).isSome = (m h).isSome := by intro h; unfold seen; simp
  have := C03_scan_AVX_correct_partial (seen true m) (fun h h' e1 e2 => by rw [hs] at e2 ⊢; exact hp h h' e1 e2) (seenKey true key) b e
    (fun h h1 h2 => by rw [hs]; exact hm h h1 h2) (Nat.le_of_lt hbe) (by unfold TailReadable; rw [hs]; exact ht)
  refine this.unique ⟨Nat.le_refl b, hbe, ?_, fun j h1 h2 => by omega⟩
  simp only [seenKey, seen, gid, if_true]
  cases m (2 * b + 1) <;> rfl

/-- In an index of three fields, the search for a fourth one finds the first; without the flag it finds nothing. -/
example :
    let m : Mem := fun x => if x < 2048 then some (if x = 2 * 500 + 1 then 0x4001 else 3) else none
    PageGranular m ∧ Mapped m 500 503 ∧ TailReadable m 503 ∧ scanAvx true m 0x4002 500 503 = .found 500 ∧ scanAvx false m 0x4002 500 503 = .notFound := by
  intro m
  have h : ∀ x, x < 2048 → (m x).isSome = true := fun x hx => by simp only [m, if_pos hx]; rfl
  refine ⟨?_, fun x _ h2 => h x (by omega), h _ (by decide), by decide +kernel, by decide +kernel⟩
  intro a a' ha h1
  by_cases hx : a < 2048
  · exact h a' (by omega)
  · simp only [m, if_neg hx] at h1; cases h1

end Fptu.Props
