import Verif.Lemmas.TupleCopy
import Verif.Lemmas.TupleSum
import Verif.Model.Compact
/-!
# First pass of the compaction: the index without its holes
-/
namespace Fptu.Compact
open Fptu.Gear Fptu.Rw Finset

/-- The descriptor `c'` at `b` refers to the same payload as `c` at `a`. -/
structure Shifted (c c' : Cell) (a b : Nat) : Prop where
  hi : c'.hi = c.hi
  null : c'.lo = 0 ↔ c.lo = 0
  inplaced : (cellGenus c).isInplaced = true → c'.lo = c.lo
  start : (cellGenus c).isInplaced = false → c.lo ≠ 0 → b + c'.lo = a + c.lo

theorem Shifted.refl (c : Cell) (a : Nat) : Shifted c c a a := ⟨rfl, Iff.rfl, fun _ => rfl, fun _ _ => rfl⟩

/-- State of the first pass when the `n` lowest entries are left. -/
structure Squeezed (m0 : Memory) (head pivot n : Nat) (m : Memory) (d : Nat) (f : Nat → Nat) : Prop where
  le : head + n ≤ d
  dp : d ≤ pivot
  cnt : ((d - (head + n) : Nat) : ℤ) = T phiC m0 (head + n) pivot
  low : ∀ x, x < head + n → m x = m0 x
  high : ∀ x, pivot ≤ x → m x = m0 x
  entry : ∀ b, d ≤ b → b < pivot → head + n ≤ f b ∧ f b ≤ b ∧ ¬ Cell.isHole (m0 (f b)) ∧ Shifted (m0 (f b)) (m b) (f b) b
  mono : ∀ b c, d ≤ b → b < c → c < pivot → f b < f c
  onto : ∀ a, head + n ≤ a → a < pivot → ¬ Cell.isHole (m0 a) → ∃ b, d ≤ b ∧ b < pivot ∧ f b = a

theorem Squeezed.push {m0 m : Memory} {head pivot n d : Nat} {f : Nat → Nat} (h : Squeezed m0 head pivot (n + 1) m d f)
    (hh : ¬ Cell.isHole (m0 (head + n))) {c : Cell} (hc : Shifted (m0 (head + n)) c (head + n) (d - 1))
    {m' : Memory} (hm : ∀ x, m' x = if x = d - 1 then c else m x) :
    Squeezed m0 head pivot n m' (d - 1) (fun b => if b = d - 1 then head + n else f b) := by
  have hle := h.le
  have hdp := h.dp
  have hcnt := h.cnt
  refine ⟨by omega, by omega, ?_, fun x hx => ?_, fun x hx => ?_, fun b h1 h2 => ?_, fun b c h1 h2 h3 => ?_, fun a h1 h2 h3 => ?_⟩
  · rw [T_succ _ _ (by omega : head + n < pivot)]
    unfold phiC at *
    rw [if_neg hh, zero_add]
    rw [← Nat.add_assoc] at hcnt
    rw [← hcnt]; omega
  · rw [hm, if_neg (by omega)]; exact h.low x (by omega)
  · rw [hm, if_neg (by omega)]; exact h.high x hx
  · by_cases hb : b = d - 1
    · rw [if_pos hb, hm, if_pos hb]
      exact ⟨le_rfl, by omega, hh, hb ▸ hc⟩
    · rw [if_neg hb, hm, if_neg hb]
      obtain ⟨k1, k2, k3, k4⟩ := h.entry b (by omega) h2
      exact ⟨by omega, k2, k3, k4⟩
  · rw [if_neg (by omega : ¬ c = d - 1)]
    by_cases hb : b = d - 1
    · rw [if_pos hb]
      have := (h.entry c (by omega) h3).1
      omega
    · rw [if_neg hb]; exact h.mono b c (by omega) h2 h3
  · by_cases ha : a = head + n
    · exact ⟨d - 1, le_rfl, by omega, by simp [ha]⟩
    · obtain ⟨b, k1, k2, k3⟩ := h.onto a (by omega) h2 h3
      exact ⟨b, by omega, k2, by rw [if_neg (by omega)]; exact k3⟩

theorem Squeezed.skip {m0 m : Memory} {head pivot n d : Nat} {f : Nat → Nat} (h : Squeezed m0 head pivot (n + 1) m d f)
    (hh : Cell.isHole (m0 (head + n))) : Squeezed m0 head pivot n m d f := by
  have hle := h.le
  have hdp := h.dp
  have hcnt := h.cnt
  refine ⟨by omega, hdp, ?_, fun x hx => h.low x (by omega), h.high, fun b h1 h2 => ?_, h.mono, fun a h1 h2 h3 => ?_⟩
  · rw [T_succ _ _ (by omega : head + n < pivot)]
    rw [← Nat.add_assoc] at hcnt
    rw [← hcnt]
    unfold phiC
    rw [if_pos hh]; omega
  · obtain ⟨k1, k2, k3, k4⟩ := h.entry b h1 h2
    exact ⟨by omega, k2, k3, k4⟩
  · by_cases ha : a = head + n
    · exact absurd (ha ▸ hh) h3
    · exact h.onto a (by omega) h2 h3

theorem squeeze_spec {guard : Bool} {m0 : Memory} {head pivot : Nat}
    (hpay : ∀ a, head ≤ a → a < pivot → ¬ Cell.isHole (m0 a) → (cellGenus (m0 a)).isInplaced = false → (m0 a).lo ≠ 0 → pivot ≤ a + (m0 a).lo)
    (hnil : guard = true ∨ ∀ a, head ≤ a → a < pivot → ¬ Cell.isHole (m0 a) → (cellGenus (m0 a)).isInplaced = false → (m0 a).lo ≠ 0) :
    ∀ n m d f, Squeezed m0 head pivot n m d f →
      ∃ m' d' f', squeeze guard head n m d = some (m', d') ∧ Squeezed m0 head pivot 0 m' d' f' := by
  intro n
  induction n with
  | zero => exact fun m d f h => ⟨m, d, f, rfl, h⟩
  | succ n ih =>
    intro m d f h
    have hle := h.le
    have hdp := h.dp
    have hsrc : m (head + n) = m0 (head + n) := h.low _ (by omega)
    unfold squeeze
    simp only []
    rw [hsrc]
    by_cases hh : Cell.isHole (m0 (head + n))
    · rw [if_pos hh]; exact ih _ _ _ (h.skip hh)
    rw [if_neg hh]
    by_cases c1 : head + n = d - 1
    · rw [if_pos c1]
      refine ih _ _ _ (h.push hh (c := m0 (head + n)) (by rw [← c1]; exact Shifted.refl _ _) fun x => ?_)
      split_ifs with hx
      · rw [hx, ← c1, hsrc]
      · rfl
    rw [if_neg c1]
    by_cases c2 : (cellGenus (m0 (head + n))).isInplaced = true
    · rw [if_pos c2]
      exact ih _ _ _ (h.push hh (c := m0 (head + n)) ⟨rfl, Iff.rfl, fun _ => rfl, fun k => absurd (c2.symm.trans k) (by decide)⟩ fun x => rfl)
    rw [if_neg c2]
    have c2' : (cellGenus (m0 (head + n))).isInplaced = false := by simpa using c2
    by_cases c3 : (m0 (head + n)).lo = 0
    · have hg : guard = true := hnil.resolve_right fun k => k _ (by omega) (by omega) hh c2' c3
      rw [if_pos ⟨c3, hg⟩]
      exact ih _ _ _ (h.push hh (c := m0 (head + n)) ⟨rfl, Iff.rfl, fun _ => rfl, fun _ k => absurd c3 k⟩ fun x => rfl)
    · have hp := hpay (head + n) (by omega) (by omega) hh c2' c3
      rw [if_neg (fun k => c3 k.1), if_neg (by omega)]
      refine ih _ _ _ (h.push hh (c := ⟨(m0 (head + n)).lo - (d - 1 - (head + n)), (m0 (head + n)).hi⟩)
        ⟨rfl, ?_, fun k => absurd k c2, fun _ _ => ?_⟩ fun x => rfl)
      · show (m0 (head + n)).lo - _ = 0 ↔ _
        omega
      · show d - 1 + ((m0 (head + n)).lo - _) = _
        omega

theorem squeeze_all {guard : Bool} {m0 : Memory} {head pivot : Nat} (hp : head ≤ pivot)
    (hpay : ∀ a, head ≤ a → a < pivot → ¬ Cell.isHole (m0 a) → (cellGenus (m0 a)).isInplaced = false → (m0 a).lo ≠ 0 → pivot ≤ a + (m0 a).lo)
    (hnil : guard = true ∨ ∀ a, head ≤ a → a < pivot → ¬ Cell.isHole (m0 a) → (cellGenus (m0 a)).isInplaced = false → (m0 a).lo ≠ 0) :
    ∃ m' d' f', squeeze guard head (pivot - head) m0 pivot = some (m', d') ∧ Squeezed m0 head pivot 0 m' d' f' := by
  refine squeeze_spec hpay hnil _ _ _ id ⟨by omega, le_rfl, ?_, fun _ _ => rfl, fun _ _ => rfl, fun b h1 h2 => by omega,
    fun b c h1 h2 h3 => by omega, fun a h1 h2 => by omega⟩
  rw [T_empty _ _ (by omega), show pivot - (head + (pivot - head)) = 0 by omega]; rfl

/-! ## The tuple after the first pass -/

/-- No field of the index is a null of a stretchy type. -/
def NoNil (s : RW) : Prop := ∀ a, s.live a → (cellGenus (s.mem a)).isInplaced = false → (s.mem a).lo ≠ 0

theorem live_pay {σ : Sch} {s : RW} (h : WF σ s) {a : Nat} (ha : s.live a) (hi : (cellGenus (s.mem a)).isInplaced = false)
    (h0 : (cellGenus (s.mem a)).isFixed = true ∨ (s.mem a).lo ≠ 0) :
    0 < fieldUnits s.mem (cellGenus (s.mem a)) a ∧ s.base ≤ a + (s.mem a).lo ∧
      a + (s.mem a).lo + fieldUnits s.mem (cellGenus (s.mem a)) a ≤ s.tail := by
  have hf : FieldAt σ s a (cellGenus (s.mem a)) := Or.inl ⟨ha, rfl⟩
  have hpos : 0 < fieldUnits s.mem (cellGenus (s.mem a)) a := by
    by_cases hfx : (cellGenus (s.mem a)).isFixed = true
    · unfold fieldUnits; rw [if_pos hfx]
      exact fixed_pos _ hfx hi (live_genus ha (h.word _ ha))
    · rw [← hf.len]; exact h.pos _ _ ⟨by simpa using hfx, hf⟩ (h0.resolve_left hfx)
  have hcl : clen s.pivot (lenOf σ s) a (s.mem a) = fieldUnits s.mem (cellGenus (s.mem a)) a := by
    unfold clen; rw [if_neg (fun k => ha.2.2 k.2), hf.len]
  have := h.inv.inside (a := a) ha.1 (lt_of_lt_of_le ha.2.1 (Nat.le_add_right _ _)) (by rw [hcl]; exact hpos)
  rw [hcl] at this
  exact ⟨hpos, this⟩

/-- Coverage of unit `u` by the fields: index entries and stretchy preplaced fields. -/
def cov (σ : Sch) (s : RW) (u : Nat) : ℤ :=
  (∑ a ∈ liveSet s, ind (a + (s.mem a).lo) (fieldUnits s.mem (cellGenus (s.mem a)) a) u) +
    ∑ k ∈ range s.pre, (match σ k with
      | some g => ind (s.pivot + k + (s.mem (s.pivot + k)).lo) (fieldUnits s.mem g (s.pivot + k)) u
      | none => 0)

/-- Coverage by the holes. -/
def covHoles (s : RW) (u : Nat) : ℤ := T (fun a c => if Cell.isHole c then ind (a + c.lo) (Cell.units c) u else 0) s.mem s.head s.pivot

theorem liveSet_eq (s : RW) : liveSet s = (Ico s.head s.pivot).filter fun a => ¬ s.isHole a := by
  ext a
  rw [mem_liveSet, Finset.mem_filter, Finset.mem_Ico]
  unfold RW.live
  tauto

theorem T_cov (σ : Sch) (s : RW) (hhp : s.head ≤ s.pivot) (u : Nat) :
    T (phiW s.pivot (lenOf σ s) u) s.mem s.head s.base = covHoles s u + cov σ s u := by
  have hbase : s.base = s.pivot + s.pre := rfl
  rw [T_split (mid := s.pivot) hhp (by omega)]
  have e1 : T (phiW s.pivot (lenOf σ s) u) s.mem s.head s.pivot = covHoles s u +
      ∑ a ∈ liveSet s, ind (a + (s.mem a).lo) (fieldUnits s.mem (cellGenus (s.mem a)) a) u := by
    unfold covHoles T
    rw [liveSet_eq, Finset.sum_filter, ← Finset.sum_add_distrib]
    refine Finset.sum_congr rfl fun a ha => ?_
    rw [Finset.mem_Ico] at ha
    unfold phiW clen
    by_cases hh : Cell.isHole (s.mem a)
    · rw [if_pos ⟨ha.2, hh⟩]; beta_reduce; rw [if_pos hh, if_neg (fun k : ¬ s.isHole a => k hh), add_zero]
    · rw [if_neg (fun k => hh k.2)]; beta_reduce; rw [if_neg hh, if_pos (show ¬ s.isHole a from hh), zero_add]
      unfold lenOf
      rw [if_pos ha.2]
  have e2 : T (phiW s.pivot (lenOf σ s) u) s.mem s.pivot s.base = ∑ k ∈ range s.pre, (match σ k with
      | some g => ind (s.pivot + k + (s.mem (s.pivot + k)).lo) (fieldUnits s.mem g (s.pivot + k)) u
      | none => 0) := by
    unfold T
    rw [hbase, Finset.sum_Ico_eq_sum_range, show s.pivot + s.pre - s.pivot = s.pre by omega]
    refine Finset.sum_congr rfl fun k hk => ?_
    unfold phiW clen
    rw [if_neg (by omega)]
    unfold lenOf
    rw [if_neg (by omega), Nat.add_sub_cancel_left]
    cases σ k with
    | none => exact ind_zero _ _
    | some g => rfl
  rw [e1, e2]
  unfold cov
  rw [add_assoc]

theorem covHoles_nonneg (s : RW) (u : Nat) : 0 ≤ covHoles s u := by
  unfold covHoles
  refine T_nonneg fun a c => ?_
  split_ifs
  · exact ind_nonneg _ _ _
  · exact le_rfl

theorem covHoles_none {s : RW} (h : ∀ a, s.head ≤ a → a < s.pivot → ¬ s.isHole a) (u : Nat) : covHoles s u = 0 := by
  unfold covHoles T
  refine Finset.sum_eq_zero fun a ha => ?_
  rw [Finset.mem_Ico] at ha
  beta_reduce
  rw [if_neg (h a ha.1 ha.2)]

theorem covHoles_jv {σ : Sch} {s : RW} (h : WF σ s) (hj : s.jv = 0) (u : Nat) : covHoles s u = 0 := by
  unfold covHoles T
  refine Finset.sum_eq_zero fun a ha => ?_
  rw [Finset.mem_Ico] at ha
  beta_reduce
  by_cases hh : Cell.isHole (s.mem a)
  · rw [if_pos hh]
    have hv := h.inv.vol
    have := le_T (φ := phiV) (m := s.mem) phiV_nonneg ha.1 ha.2
    rw [← hv, hj] at this
    unfold phiV at this
    rw [if_pos hh] at this
    have : Cell.units (s.mem a) = 0 := by omega
    rw [this, ind_zero]
  · rw [if_neg hh]

theorem jc_no_holes {σ : Sch} {s : RW} (h : WF σ s) (hj : s.jc = 0) : ∀ a, s.head ≤ a → a < s.pivot → ¬ s.isHole a := by
  intro a h1 h2 hh
  have hv := h.inv.cnt
  have := le_T (φ := phiC) (m := s.mem) phiC_nonneg h1 h2
  rw [← hv, hj] at this
  unfold phiC at this
  rw [if_pos hh] at this
  omega

/-- Sums over the fields do not depend on their place. -/
theorem Copied.sum {σ : Sch} {s t : RW} {f : Nat → Nat} (c : Copied σ s t f) {φ ψ : Nat → ℤ}
    (h : ∀ b, t.live b → ψ b = φ (f b)) : ∑ b ∈ liveSet t, ψ b = ∑ a ∈ liveSet s, φ a := by
  refine Finset.sum_nbij f (fun b hb => mem_liveSet.2 (c.live b (mem_liveSet.1 hb)).1)
    (fun b hb d hd he => c.inj (mem_liveSet.1 hb) (mem_liveSet.1 hd) he) (fun a ha => ?_) (fun b hb => h b (mem_liveSet.1 hb))
  obtain ⟨b, hb, rfl⟩ := c.onto a (mem_liveSet.1 ha)
  exact ⟨b, mem_liveSet.2 hb, rfl⟩

theorem Copied.payload {σ : Sch} {s t : RW} {f : Nat → Nat} (c : Copied σ s t f) : payloadOf σ t = payloadOf σ s := by
  unfold payloadOf
  have e1 : ∑ a ∈ liveSet t, fieldUnits t.mem (cellGenus (t.mem a)) a = ∑ a ∈ liveSet s, fieldUnits s.mem (cellGenus (s.mem a)) a := by
    have := Copied.sum c (φ := fun a => (fieldUnits s.mem (cellGenus (s.mem a)) a : ℤ))
      (ψ := fun a => (fieldUnits t.mem (cellGenus (t.mem a)) a : ℤ)) (fun b hb => ?_)
    · rw [← Nat.cast_sum, ← Nat.cast_sum] at this; exact_mod_cast this
    · obtain ⟨_, k2, k3⟩ := c.live b hb
      show ((fieldUnits t.mem (cellGenus (t.mem b)) b : Nat) : ℤ) = _
      rw [show cellGenus (t.mem b) = cellGenus (s.mem (f b)) by unfold cellGenus; rw [k2], k3.units]
  rw [e1, c.pre]
  congr 1
  refine Finset.sum_congr rfl fun k hk => ?_
  rw [Finset.mem_range] at hk
  cases hσ : σ k with
  | none => rfl
  | some g => exact (c.stretchy k g hσ hk).2.units

theorem dropHoles_spec {guard : Bool} {σ : Sch} {s : RW} (h : WF σ s) (hnil : guard = true ∨ s.jc = 0 ∨ NoNil s) :
    ∃ t f, dropHoles guard s = .ok () t ∧ Copied σ s t f ∧ t.head = s.head + s.jc ∧ t.pivot = s.pivot ∧ t.pre = s.pre ∧
      t.tail = s.tail ∧ t.lim = s.lim ∧ t.jc = 0 ∧ t.jv = s.jv ∧ (∀ a, t.head ≤ a → a < t.pivot → ¬ t.isHole a) ∧
      (∀ a, t.live a → (t.mem a).hi < 65536) ∧
      (∀ x, s.pivot ≤ x → t.mem x = s.mem x) ∧ (∀ x, x < s.head → t.mem x = s.mem x) ∧ (s.jc = 0 → t = s) ∧
      (NoNil s → NoNil t) ∧
      Inv { t with jv := 0 } (lenOf σ t) (fun u => covHoles s u) := by
  have hhp := h.inv.hp
  have hb := h.inv.bt
  have hbase : s.base = s.pivot + s.pre := rfl
  unfold dropHoles
  by_cases hj : s.jc = 0
  · rw [if_pos hj]
    have nh := jc_no_holes h hj
    refine ⟨s, id, rfl, ⟨fun b hb => ⟨hb, rfl, Same.refl fun hf h0 => ?_⟩, fun a ha => ⟨a, ha, rfl⟩, fun _ _ _ _ k => k, rfl,
      fun k g hk hp => ⟨rfl, Same.refl fun hf h0 => ?_⟩, fun _ _ _ => rfl⟩, by omega, rfl, rfl, rfl, rfl, hj, rfl, nh, h.word, fun _ _ => rfl, fun _ _ => rfl,
      fun _ => rfl, id, ?_⟩
    · show 0 < fieldUnits s.mem (cellGenus (s.mem b)) b
      rw [← FieldAt.len (σ := σ) (Or.inl ⟨hb, rfl⟩)]; exact h.pos _ _ ⟨hf, Or.inl ⟨hb, rfl⟩⟩ h0
    · have fa : FieldAt σ s (s.pivot + k) g := Or.inr ⟨by omega, by omega, by rw [Nat.add_sub_cancel_left]; exact hk⟩
      rw [← fa.len]; exact h.pos _ _ ⟨hf, fa⟩ h0
    · have e : covHoles s = fun _ => 0 := funext fun u => covHoles_none nh u
      have i := h.inv
      refine ⟨i.hp, i.bt, i.tl, i.ll, fun u => ?_, i.cnt, ?_, fun u => covHoles_nonneg s u⟩
      · rw [e]; exact i.cover u
      · show ((0:Nat):ℤ) = T phiV s.mem s.head s.pivot
        unfold T
        refine (Finset.sum_eq_zero fun a ha => ?_).symm
        rw [Finset.mem_Ico] at ha
        unfold phiV; rw [if_neg (nh a ha.1 ha.2)]
  rw [if_neg hj]
  obtain ⟨m', d', f, hsq, q⟩ := squeeze_all (guard := guard) (m0 := s.mem) hhp
    (fun a h1 h2 h3 h4 h5 => by have := (live_pay h ⟨h1, h2, h3⟩ h4 (Or.inr h5)).2.1; omega)
    (hnil.imp_right fun k a h1 h2 h3 h4 => (k.resolve_left hj) a ⟨h1, h2, h3⟩ h4)
  rw [hsq]
  simp only []
  have hd : d' = s.head + s.jc := by
    have := q.cnt
    rw [Nat.add_zero, ← h.inv.cnt] at this
    have := q.le
    omega
  have hdp := q.dp
  have ent := q.entry
  rw [hd] at ent
  set t : RW := { s with mem := m', head := s.head + s.jc, jc := 0 } with ht
  have tm : t.mem = m' := rfl
  have nh : ∀ a, t.head ≤ a → a < t.pivot → ¬ t.isHole a := by
    intro a h1 h2 hh
    obtain ⟨k1, k2, k3, k4⟩ := ent a h1 h2
    apply k3
    have hh : (m' a).hi / 2048 = 31 := hh
    rw [k4.hi] at hh
    exact hh
  have lv : ∀ b, t.live b → s.live (f b) := fun b hb => by
    obtain ⟨k1, k2, k3, k4⟩ := ent b hb.1 hb.2.1
    have h2 : b < s.pivot := hb.2.1
    exact ⟨by omega, by omega, k3⟩
  have smaller : ∀ b, t.live b → Shifted (s.mem (f b)) (m' b) (f b) b := fun b hb => (ent b hb.1 hb.2.1).2.2.2
  have starts : ∀ b, t.live b → (cellGenus (s.mem (f b))).isInplaced = false →
      ((cellGenus (s.mem (f b))).isFixed = true ∨ (s.mem (f b)).lo ≠ 0) → b + (m' b).lo = f b + (s.mem (f b)).lo := by
    intro b hb h1 h2
    refine (smaller b hb).start h1 fun h0 => ?_
    have p := (live_pay h (lv b hb) h1 h2).2.1
    have := (lv b hb).2.1
    omega
  have same : ∀ b, t.live b → Same (cellGenus (s.mem (f b))) s.mem t.mem (f b) b := by
    intro b hb
    have sh := smaller b hb
    refine ⟨sh.inplaced, sh.null, fun h0 i hi => ?_, fun hf h0 => ?_⟩
    · by_cases hi' : (cellGenus (s.mem (f b))).isInplaced = true
      · obtain ⟨k1, k2⟩ := inplaced_facts _ hi'
        unfold fieldUnits at hi
        rw [if_pos k1, k2] at hi
        omega
      · have hi' : (cellGenus (s.mem (f b))).isInplaced = false := by simpa using hi'
        have p := (live_pay h (lv b hb) hi' h0).2.1
        rw [tm, starts b hb hi' h0]
        exact q.high _ (by omega)
    · have hi' : (cellGenus (s.mem (f b))).isInplaced = false := by
        by_contra k
        rw [(inplaced_facts _ (by simpa using k)).1] at hf
        cases hf
      exact (live_pay h (lv b hb) hi' (Or.inr h0)).1
  have preSame : ∀ k g, σ k = some g → k < s.pre → Same g s.mem t.mem (s.pivot + k) (s.pivot + k) := by
    intro k g hk hp
    have e : t.mem (s.pivot + k) = s.mem (s.pivot + k) := q.high _ (by omega)
    have fa : FieldAt σ s (s.pivot + k) g := Or.inr ⟨by omega, by omega, by rw [Nat.add_sub_cancel_left]; exact hk⟩
    refine ⟨fun _ => by rw [e], by rw [e], fun _ i _ => ?_, fun hf h0 => by rw [← fa.len]; exact h.pos _ _ ⟨hf, fa⟩ h0⟩
    rw [e]; exact q.high _ (by omega)
  have cp : Copied σ s t f := by
    refine ⟨fun b hb => ⟨lv b hb, (smaller b hb).hi, same b hb⟩, fun a ha => ?_, fun b c hb hc hbc => ?_, rfl,
      fun k g hk hp => ⟨?_, preSame k g hk hp⟩, fun k hk hp => q.high _ (Nat.le_add_right _ _)⟩
    · obtain ⟨b, k1, k2, k3⟩ := q.onto a ha.1 ha.2.1 ha.2.2
      have k1' : t.head ≤ b := by show s.head + s.jc ≤ b; omega
      exact ⟨b, ⟨k1', k2, nh b k1' k2⟩, k3⟩
    · exact q.mono b c (by rw [hd]; exact hb.1) hbc hc.2.1
    · show (m' (s.pivot + k)).hi = _
      rw [q.high _ (by omega)]
  refine ⟨t, f, rfl, cp, rfl, rfl, rfl, rfl, rfl, rfl, rfl, nh, fun a ha => ?_, q.high, fun x hx => q.low x (by omega), fun k => absurd k hj,
    fun hn b hb hi h0 => ?_, ?_⟩
  · rw [tm, (smaller a ha).hi]; exact h.word _ (lv a ha)
  · have e : cellGenus (t.mem b) = cellGenus (s.mem (f b)) := by unfold cellGenus; rw [tm, (smaller b hb).hi]
    rw [e] at hi
    exact hn _ (lv b hb) hi ((smaller b hb).null.1 h0)
  · have tz : ∀ ψ : Nat → Cell → ℤ, (∀ a c, ¬ Cell.isHole c → ψ a c = 0) → T ψ t.mem t.head t.pivot = 0 := by
      intro ψ hψ
      unfold T
      refine Finset.sum_eq_zero fun a ha => ?_
      rw [Finset.mem_Ico] at ha
      exact hψ _ _ (nh a ha.1 ha.2)
    refine ⟨by show s.head + s.jc ≤ s.pivot; omega, hb, h.inv.tl, h.inv.ll, fun u => ?_, ?_, ?_, fun u => covHoles_nonneg s u⟩
    · show T (phiW t.pivot (lenOf σ t) u) t.mem t.head t.base + covHoles s u = _
      rw [T_cov σ t (by show s.head + s.jc ≤ s.pivot; omega) u, covHoles_none nh, zero_add, add_comm]
      have c := h.inv.cover u
      rw [T_cov σ s hhp u, add_zero] at c
      rw [show ind s.base (s.tail - s.base) u = ind t.base (t.tail - t.base) u from rfl] at c
      refine Eq.trans ?_ c
      congr 1
      unfold cov
      have e1 := Copied.sum cp (φ := fun a => ind (a + (s.mem a).lo) (fieldUnits s.mem (cellGenus (s.mem a)) a) u)
        (ψ := fun a => ind (a + (t.mem a).lo) (fieldUnits t.mem (cellGenus (t.mem a)) a) u) (fun b hb => by
          have e : cellGenus (t.mem b) = cellGenus (s.mem (f b)) := by unfold cellGenus; rw [tm, (smaller b hb).hi]
          rw [e, (same b hb).units]
          by_cases hz : fieldUnits s.mem (cellGenus (s.mem (f b))) (f b) = 0
          · rw [hz, ind_zero, ind_zero]
          · have hi' : (cellGenus (s.mem (f b))).isInplaced = false := by
              by_contra k
              obtain ⟨k1, k2⟩ := inplaced_facts _ (by simpa using k)
              unfold fieldUnits at hz
              rw [if_pos k1, k2] at hz
              exact hz rfl
            have h0 : (cellGenus (s.mem (f b))).isFixed = true ∨ (s.mem (f b)).lo ≠ 0 := by
              by_contra k
              push Not at k
              unfold fieldUnits at hz
              rw [if_neg k.1, if_pos k.2] at hz
              exact hz rfl
            rw [tm, starts b hb hi' h0])
      rw [e1]
      congr 1
      refine Finset.sum_congr rfl fun k hk => ?_
      have hk : k < s.pre := Finset.mem_range.1 hk
      cases hσ : σ k with
      | none => rfl
      | some g =>
        have := (preSame k g hσ hk).units
        show ind (s.pivot + k + (t.mem (s.pivot + k)).lo) (fieldUnits t.mem g (s.pivot + k)) u = _
        rw [this, show t.mem (s.pivot + k) = s.mem (s.pivot + k) from q.high _ (by omega)]
    · show ((0:Nat):ℤ) = T phiC t.mem t.head t.pivot
      rw [tz phiC fun a c k => by unfold phiC; rw [if_neg k]]; rfl
    · show ((0:Nat):ℤ) = T phiV t.mem t.head t.pivot
      rw [tz phiV fun a c k => by unfold phiV; rw [if_neg k]]; rfl

end Fptu.Compact
