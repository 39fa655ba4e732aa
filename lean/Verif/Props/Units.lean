import Verif.Props.Tags
import Verif.Props.Scan
import Verif.Props.Buffer
import Verif.Props.Datetime
import Verif.Props.StringView
import Verif.Props.Serial
/-!
# Further theorems of C01, C03, C25, C28, C29, C40, C41: holes, lookup of a tag, units of time, setting tags, nil and empty views, sizes
-/
namespace Fptu.Props
open Fptu Fptu.SV Fptu.Datetime Fptu.Buffer Fptu.Scan Fptu.Gear Fptu.Rw Fptu.Serial

/-- **C29 (nil and empty).** A view is nil exactly when it denotes no string, empty exactly when it denotes none or the empty one; `length` is the number of bytes. -/
theorem C29_nil_empty (M : Nat → Nat) (v : View) :
    (v.nil = true ↔ textOf M v = none) ∧ (v.empty = true ↔ textOf M v = none ∨ textOf M v = some []) ∧
    v.length = ((textOf M v).getD []).length ∧ (v.nil = true → v.empty = true) ∧
    View.default.nil = true ∧ ∀ p n, p ≠ 0 → (View.ofPtr p n).nil = false ∧ ((View.ofPtr p n).empty = true ↔ n = 0) := by
  unfold View.nil View.empty textOf View.length
  refine ⟨?_, ?_, ?_, ?_, by decide, fun p n hp => ?_⟩
  · rw [decide_eq_true_iff]
    by_cases h : v.len < 0
    · rw [if_pos h]; exact ⟨fun _ => rfl, fun _ => h⟩
    · rw [if_neg h]; exact ⟨fun k => absurd k h, fun k => (by cases k)⟩
  · rw [decide_eq_true_iff]
    by_cases h : v.len < 0
    · rw [if_pos h]; exact ⟨fun _ => Or.inl rfl, fun _ => by omega⟩
    · rw [if_neg h]
      constructor
      · intro k
        have : v.len = 0 := by omega
        rw [this]; exact Or.inr rfl
      · rintro (k | k)
        · cases k
        · have k := congrArg List.length (Option.some.inj k)
          rw [List.length_map, List.length_range] at k
          simp only [List.length_nil] at k
          omega
  · by_cases h : v.len < 0
    · rw [if_pos h, if_neg (by omega)]; rfl
    · rw [if_neg h, if_pos (by omega)]
      show _ = ((List.range v.len.toNat).map fun i => M (v.str + i)).length
      rw [List.length_map, List.length_range]
  · rw [decide_eq_true_iff, decide_eq_true_iff]; omega
  · unfold View.ofPtr
    rw [if_pos hp, decide_eq_false_iff_not, decide_eq_true_iff]
    exact ⟨by simp, by simp⟩

example : (View.ofPtr 100 0).empty = true ∧ (View.ofPtr 100 0).nil = false ∧ (View.ofPtr 0 5).nil = true ∧ (View.ofPtr 100 3).length = 3 := by decide

/-- **C25 (units).** A number of milliseconds, microseconds, nanoseconds or tenths of microseconds becomes its whole seconds and the fraction, rounded down to
2⁻³² s; the error is below 2⁻³² s. -/
theorem C25_units (v : Nat) :
    (v / 1000 < 2 ^ 32 → utcSeconds (fromMilliseconds v) = v / 1000 ∧ fractional (fromMilliseconds v) = v % 1000 * 2 ^ 32 / 1000) ∧
    (v / 1000000 < 2 ^ 32 → utcSeconds (fromUsec v) = v / 1000000 ∧ fractional (fromUsec v) = v % 1000000 * 2 ^ 32 / 1000000) ∧
    (v / 1000000000 < 2 ^ 32 → utcSeconds (fromNsec v) = v / 1000000000 ∧ fractional (fromNsec v) = v % 1000000000 * 2 ^ 32 / 1000000000) ∧
    (v / 10000000 < 2 ^ 32 → utcSeconds (from100ns v) = v / 10000000 ∧ fractional (from100ns v) = v % 10000000 * 2 ^ 32 / 10000000) := by
  have key : ∀ f : Nat, 0 < f → f ≤ 2 ^ 32 → v / f < 2 ^ 32 →
      utcSeconds (scaleIn v f) = v / f ∧ fractional (scaleIn v f) = v % f * 2 ^ 32 / f := fun f h0 h1 h2 => by
    have hm := Nat.mod_lt v h0
    have hq : v % f * 2 ^ 32 / f < 2 ^ 32 := Nat.div_lt_of_lt_mul (Nat.mul_lt_mul_of_pos_right hm (by decide))
    have e : scaleIn v f = v / f * 2 ^ 32 + v % f * 2 ^ 32 / f := by
      unfold scaleIn units2fractional
      rw [Nat.shiftLeft_eq, Nat.shiftLeft_eq, Nat.mod_eq_of_lt (by omega : v / f * 2 ^ 32 < 2 ^ 64), Nat.mod_eq_of_lt (by omega : v % f * 2 ^ 32 < 2 ^ 64),
        Nat.mul_comm (v / f), ← Nat.two_pow_add_eq_or_of_lt hq]
    rw [e]
    unfold utcSeconds fractional
    have g : ∀ a q : Nat, q < 2 ^ 32 → (a * 2 ^ 32 + q) / 2 ^ 32 = a ∧ (a * 2 ^ 32 + q) % 2 ^ 32 = q := fun a q hq => by omega
    exact g _ _ hq
  exact ⟨key 1000 (by decide) (by decide), key 1000000 (by decide) (by decide), key 1000000000 (by decide) (by decide), key 10000000 (by decide) (by decide)⟩

example : utcSeconds (from100ns 12345678) = 1 ∧ fractional (from100ns 15000000) = 2 ^ 31 := by decide +kernel

/-- **C28 (refuted), `set_tag`.** Setting a tag of a wide handle always gives the tag 0 and puts the bits of the new one over the pointer; the pointer survives
only if they are there already. The narrow handle likewise. Setting the tag 0 keeps the pointer. -/
theorem C28_set_tag_refuted (b tag : Nat) (hb : b < 2 ^ 64) (ht : tag < 2 ^ 16) :
    wideTag (wideSetTag b tag) = 0 ∧ widePtr (wideSetTag b tag) = widePtr b ||| tag * 2 ^ 16 ∧ widePtr (wideSetTag b 0) = widePtr b ∧
    narrowTag (narrowSetTag b tag) = 0 ∧ narrowPtr (narrowSetTag b tag) = narrowPtr b ||| tag * 2 ^ 4 ∧ narrowPtr (narrowSetTag b 0) = narrowPtr b := by
  have key : wideTag (wideSetTag b tag) = 0 ∧ ∀ t < 2 ^ 16, widePtr (wideSetTag b t) = widePtr b ||| t * 2 ^ 16 := by
    constructor
    · unfold wideTag wideSetTag
      rw [Bits.and_low, Nat.shiftLeft_eq, Nat.mod_eq_of_lt (by omega : tag * 2 ^ 16 < 2 ^ 64), Nat.shiftRight_eq_div_pow]
      exact Nat.div_eq_of_lt (Nat.or_lt_two_pow (by omega) (by omega))
    · intro t ht
      unfold widePtr wideSetTag
      rw [Bits.and_low, Bits.and_low, Nat.shiftLeft_eq, Nat.mod_eq_of_lt (by omega : t * 2 ^ 16 < 2 ^ 64)]
      exact Nat.mod_eq_of_lt (Nat.or_lt_two_pow (by omega) (by omega))
  have hn : ∀ b < 2 ^ 64, narrowPtr b = b / 16 * 16 := fun b hb => by
    unfold narrowPtr
    rw [Bits.land_split 4]
    have h2 : ((2 ^ 64 - 1 - 15 : Nat) / 2 ^ 4) = 2 ^ 60 - 1 := by decide
    have h3 : ((2 ^ 64 - 1 - 15 : Nat) % 2 ^ 4) = 0 := by decide
    rw [h2, h3, Nat.and_zero, Bits.and_low]
    omega
  have hs : ∀ t < 2 ^ 16, narrowSetTag b t = narrowPtr b ||| t * 2 ^ 4 := fun t ht => by
    unfold narrowSetTag narrowPtr
    rw [Nat.shiftLeft_eq, Nat.mod_eq_of_lt (by omega : t * 2 ^ 4 < 2 ^ 64)]
  have hsm : ∀ t < 2 ^ 16, narrowSetTag b t % 2 ^ 4 = 0 ∧ narrowSetTag b t < 2 ^ 64 := fun t ht => by
    rw [hs t ht, Nat.or_mod_two_pow, hn b hb]
    have h1 : b / 16 * 16 % 2 ^ 4 = 0 := by omega
    have h2 : t * 2 ^ 4 % 2 ^ 4 = 0 := by omega
    rw [h1, h2]
    exact ⟨rfl, Nat.or_lt_two_pow (by omega) (by omega)⟩
  have hnp : ∀ t < 2 ^ 16, narrowPtr (narrowSetTag b t) = narrowPtr b ||| t * 2 ^ 4 := fun t ht => by
    have := hsm t ht
    rw [hn _ this.2, ← hs t ht]; omega
  refine ⟨key.1, key.2 tag ht, ?_, ?_, hnp tag ht, ?_⟩
  · rw [key.2 0 (by decide), Nat.zero_mul, Nat.or_zero]
  · unfold narrowTag
    rw [show (15 : Nat) = 2 ^ 4 - 1 from rfl, Bits.and_low]; exact (hsm tag ht).1
  · rw [hnp 0 (by decide), Nat.zero_mul, Nat.or_zero]

example : widePtr (wideSetTag 0x7fff00001230 5) = 0x7fff00051230 ∧ narrowPtr (narrowSetTag 0x7fff00001230 1) = 0x7fff00001230 ∧
    narrowPtr (narrowSetTag 0x7fff00001230 4) = 0x7fff00001270 := by decide +kernel

/-- **C03 (lookup of a tag).** With every implementation but AVX, looking up a tag finds the first entry whose descriptor is the lower half of the tag. -/
theorem C03_lookup (c : Cpu) (hc : c ≠ .avx) (m : Mem) (hp : PageGranular m) (tag b e : Nat) (hm : Mapped m b e) (hbe : b ≤ e) :
    IsFirst m (tag % 65536) b e (Scan.lookup c m b e tag) :=
  C03_scan_correct c hc m hp _ b e hm hbe

/-- **C40 (payload).** The payload is the preplaced area, the data of the fields and the junk between them. -/
theorem C40_payload {F : Fix} {σ : Sch} {s : RW} (h : Reachable F σ s) :
    payloadUnits s = s.pre + payloadOf σ s + s.jv ∧ payloadBytes s = 4 * payloadUnits s ∧
    bruttoSize s = 4 + 4 * Serial.indexSize s + payloadBytes s := by
  have wf := h.wf
  have h2 := wf_total wf
  have hb := wf.inv.bt
  have hhp := wf.inv.hp
  have hbase : s.base = s.pivot + s.pre := rfl
  unfold payloadBytes payloadUnits bruttoSize Serial.indexSize units2bytes
  simp only [Nat.shiftLeft_eq]
  refine ⟨by omega, by omega, by omega⟩

/-- **C41 (estimates).** A space estimate that is given out never exceeds `buffer_enough`, and that is below the limit of buffers: the assertion of rw.h:1172
holds whenever the tuple object takes at most 128 bytes. -/
theorem C41_estimate_enough {overhead items data preBytes n : Nat} {d : Bool} (ho : overhead ≤ 128) (h : estimate overhead items data preBytes d = .ok n) :
    n ≤ bufferEnough ∧ bufferEnough ≤ bufferLimit ∧ n ≤ bufLimit ∧ items ≤ maxFields ∧ data + preBytes ≤ maxTupleBytesNetto := by
  have e1 : bufferEnough = 295028 := by decide
  have e2 : bufferLimit = 524272 := by decide
  have e3 : bufLimit = 524272 := by decide
  have e4 : maxFields = 8191 := by decide
  have e5 : maxTupleBytesNetto = 262136 := by decide
  have e6 : maxBytesNetto = 262136 := by decide
  have e7 : Audit.maxFields = 8191 := by decide
  unfold estimate at h
  by_cases c1 : preBytes > maxBytesNetto
  · rw [if_pos c1] at h; cases h
  rw [if_neg c1] at h
  by_cases c2 : data > maxBytesNetto - preBytes ∨ items > Audit.maxFields
  · rw [if_pos c2] at h; cases h
  rw [if_neg c2] at h
  have h := Except.ok.inj h
  rw [e1, e2, e3, e4, e5]
  rw [e6] at c1 c2
  rw [e7] at c2
  cases d
  · rw [if_neg (by decide)] at h; omega
  · rw [if_pos rfl] at h; omega

example : estimate 44 8191 262136 0 false = .ok (44 + 8191 * 4 + 262136) := by decide +kernel

/-- **C01 (holes).** The tag of a hole of up to 2047 units names the type of holes and their size, which no token of a field does (`C01_loose_token_lossless`). -/
theorem C01_hole (n : Nat) (hn : n ≤ 2047) :
    tag2genus (makeHole n) = .hole ∧ tag2id (makeHole n) = n ∧ isLoose (makeHole n) = true ∧ isLooseCollection (makeHole n) = true ∧ makeHole n < 2 ^ 32 := by
  have e : makeHole n = collectionThreshold + 31 * 2 ^ 11 + n := by
    unfold makeHole
    have : collectionThreshold + 31 * 2 ^ 11 + 2047 < 2 ^ 32 := by decide
    exact Nat.mod_eq_of_lt (by omega)
  have ec : collectionThreshold % 65536 = 0 := by decide
  have el : looseThreshold ≤ collectionThreshold := by decide
  have eb : collectionThreshold + 31 * 2 ^ 11 + 2047 < 2 ^ 32 := by decide
  have hg : tag2genusCode (makeHole n) = 31 := by rw [tag2genusCode_eq, e]; omega
  refine ⟨?_, by rw [tag2id_eq, e]; omega, ?_, ?_, by omega⟩
  · unfold tag2genus; rw [hg]; rfl
  · simp [isLoose]; omega
  · simp [isLooseCollection]; omega

/-- **C01 (values in the index).** The token of a loose field tells whether the value is kept in the index entry itself: the integers of 8 and 16 bits. -/
theorem C01_inplaced {g : Genus} {id : Nat} {c d s : Bool} {tag : Nat} (h : tokenLoose g.code id c d s = .ok tag) :
    tagIsInplaced tag = true ↔ g = .i8 ∨ g = .u8 ∨ g = .i16 ∨ g = .u16 := by
  obtain ⟨_, _, _, _, _, h3, _⟩ := C01_loose_token_lossless _ _ _ _ _ _ h
  unfold tagIsInplaced tag2genus
  rw [h3, Genus.ofCode_code]
  cases g <;> decide

example : tokenLoose Genus.u16.code 7 false false false = .ok (makeTag .u16 7 false false false) ∧ tag2id (makeHole 100) = 100 := by decide +kernel

end Fptu.Props
