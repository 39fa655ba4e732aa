import Verif.Lemmas.AuditMap
import Verif.Lemmas.TupleView
/-!
# Soundness and completeness of the passes of the validation
-/
namespace Fptu.Audit
open Fptu.Gear Fptu.Rw Finset

theorem pass_bind {r : Res} {f : St → Res} {t : St} (h : r.bind f = .pass t) : ∃ s, r = .pass s ∧ f s = .pass t := by
  cases r with
  | pass s => exact ⟨s, rfl, h⟩
  | fail => cases h
  | bug => cases h

/-! ## One chunk -/

theorem checkChunk_sound {s t : St} {cb cu pb pe : Nat} (hM : Good s.map) (hp : pe ≤ pb + 65535)
    (h : checkChunk s cb cu pb pe = .pass t) :
    pb ≤ cb ∧ cb + cu ≤ pe ∧ ∃ M, t = { s with map := M } ∧ Inserted s.map (cb - pb) (cb - pb + cu) M := by
  unfold checkChunk at h
  by_cases c1 : cb < pb
  · rw [if_pos c1] at h; cases h
  rw [if_neg c1] at h
  by_cases c2 : cu > maxFieldBytes
  · rw [if_pos c2] at h; cases h
  rw [if_neg c2] at h
  by_cases c3 : cb + cu > pe
  · rw [if_pos c3] at h; cases h
  rw [if_neg c3, Nat.mod_eq_of_lt (by omega), Nat.mod_eq_of_lt (by omega)] at h
  cases hi : mapInsert s.map (cb - pb) (cb - pb + cu) with
  | none => rw [hi] at h; cases h
  | some M =>
    rw [hi] at h
    injection h with h
    exact ⟨by omega, by omega, M, h.symm, mapInsert_sound hM (by omega) hi⟩

theorem ind_shift {pb cb n v : Nat} (h : pb ≤ cb) : ind (cb - pb) n v = ind cb n (pb + v) := by
  unfold ind; split_ifs <;> omega

theorem checkChunk_complete {s : St} {cb cu pb pe : Nat} (hM : Good s.map) (hs : ∀ i ∈ s.map, i.1 < i.2) (hp : pe ≤ pb + 65535)
    (hn : 0 < cu) (h1 : pb ≤ cb) (h2 : cb + cu ≤ pe) (hd : ∀ v, cov s.map v + ind cb cu (pb + v) ≤ 1) :
    ∃ M, checkChunk s cb cu pb pe = .pass { s with map := M } := by
  obtain ⟨M, hm⟩ := mapInsert_complete (b := cb - pb) (e := cb - pb + cu) hM hs (by omega) fun v => by
    rw [Nat.add_sub_cancel_left, ind_shift h1]; exact hd v
  refine ⟨M, ?_⟩
  unfold checkChunk
  have h4 : ¬ cu > maxFieldBytes := by
    have : maxFieldBytes = 262132 := rfl
    omega
  rw [if_neg (by omega), if_neg h4, if_neg (by omega),
    Nat.mod_eq_of_lt (by omega), Nat.mod_eq_of_lt (by omega), hm]

/-- Effect of visiting one owner with the chunk `[p, p + n)`; `ptr`: the owner refers to a payload. -/
structure Visited (s t : St) (p n pb pe : Nat) (ptr : Prop) : Prop where
  good : Good t.map
  cov : ∀ v, cov t.map v = cov s.map v + ind p n (pb + v)
  grow : ∀ i ∈ s.map, ∃ j ∈ t.map, j.1 ≤ i.1 ∧ i.2 ≤ j.2
  inside : 0 < n ∨ ptr → pb ≤ p ∧ p + n ≤ pe ∧ ∃ j ∈ t.map, j.1 ≤ p - pb ∧ p - pb + n ≤ j.2
  strict : (ptr → 0 < n) → (∀ i ∈ s.map, i.1 < i.2) → ∀ i ∈ t.map, i.1 < i.2

theorem Visited.none {s t : St} {p pb pe : Nat} {ptr : Prop} (hM : Good s.map) (ht : t.map = s.map) (hp : ¬ ptr) :
    Visited s t p 0 pb pe ptr := by
  refine ⟨ht ▸ hM, fun v => by rw [ht]; simp, fun i hi => ⟨i, ht ▸ hi, le_rfl, le_rfl⟩, ?_, fun _ hs => ht ▸ hs⟩
  rintro (h | h)
  · omega
  · exact absurd h hp

theorem Visited.chunk {s s0 t : St} {p n pb pe : Nat} {ptr : Prop} (hM : Good s.map) (hpe : pe ≤ pb + 65535)
    (hptr : ptr) (h : checkChunk s0 p n pb pe = .pass t) (hs0 : s0.map = s.map) :
    Visited s t p n pb pe ptr ∧ t.hc = s0.hc ∧ t.hv = s0.hv := by
  obtain ⟨h1, h2, M, rfl, ins⟩ := checkChunk_sound (hs0 ▸ hM) hpe h
  rw [hs0] at ins
  refine ⟨⟨ins.good, fun v => ?_, ins.grow, fun _ => ⟨h1, h2, ins.here⟩, fun hn hs => ins.strict (by have := hn hptr; omega) hs⟩, rfl, rfl⟩
  show Audit.cov M v = _
  rw [ins.cov, Nat.add_sub_cancel_left, ind_shift h1]

/-! ## Descriptors -/

/-- Units owned by the index entry `a`. -/
def elen (m : Memory) (a : Nat) : Nat :=
  if Cell.isHole (m a) then Cell.units (m a) else fieldUnits m (cellGenus (m a)) a
/-- The index entry `a` refers to a payload. -/
def hasPtr (m : Memory) (a : Nat) : Prop := (cellGenus (m a)).isInplaced = false ∧ (m a).lo ≠ 0

theorem genus_hole {c : Cell} (h : c.hi < 65536) : cellGenus c = .hole ↔ Cell.isHole c := by
  constructor
  · intro hh
    unfold cellGenus at hh
    have e := code_ofCode (n := c.hi / 2048) (by omega)
    rw [hh] at e
    exact e.symm
  · intro hh
    have hh : c.hi / 2048 = 31 := hh
    unfold cellGenus
    rw [hh]; rfl

theorem elen_hole {m : Memory} {a : Nat} (h : Cell.isHole (m a)) : elen m a = Cell.units (m a) := by
  unfold elen; rw [if_pos h]
theorem elen_field {m : Memory} {a : Nat} (h : ¬ Cell.isHole (m a)) : elen m a = fieldUnits m (cellGenus (m a)) a := by
  unfold elen; rw [if_neg h]

theorem checkLoose_sound {m : Memory} {pb pe a : Nat} {s t : St} (hM : Good s.map) (hpe : pe ≤ pb + 65535)
    (hw : (m a).hi < 65536) (h : checkLoose m pb pe a s = .pass t) :
    Visited s t (a + (m a).lo) (elen m a) pb pe (hasPtr m a) ∧ (t.hc : ℤ) = s.hc + phiC a (m a) ∧
      (t.hv : ℤ) = s.hv + phiV a (m a) := by
  unfold checkLoose at h
  simp only at h
  by_cases c1 : (cellGenus (m a)).isInplaced = true
  · rw [if_pos c1] at h
    injection h with h
    subst h
    have hnh : ¬ Cell.isHole (m a) := by
      intro hh
      rw [(genus_hole hw).2 hh] at c1
      exact absurd c1 (by decide)
    have e0 : elen m a = 0 := by
      rw [elen_field hnh]
      unfold fieldUnits
      rw [(inplaced_facts _ c1).1, if_pos rfl, (inplaced_facts _ c1).2]
    rw [e0]
    refine ⟨Visited.none hM rfl (fun hp => by rw [hp.1] at c1; cases c1), ?_, ?_⟩
    · unfold phiC; rw [if_neg hnh]; simp [St.read]
    · unfold phiV; rw [if_neg hnh]; simp [St.read]
  rw [if_neg c1] at h
  have hin : (cellGenus (m a)).isInplaced = false := by simpa using c1
  by_cases c2 : cellGenus (m a) = .hole
  · rw [if_pos c2] at h
    have hh := (genus_hole hw).1 c2
    rw [elen_hole hh]
    have p1 : phiC a (m a) = 1 := by unfold phiC; rw [if_pos hh]
    have p2 : phiV a (m a) = (Cell.units (m a) : ℤ) := by unfold phiV; rw [if_pos hh]
    rw [p1, p2]
    by_cases c3 : Cell.units (m a) = 0
    · rw [if_pos c3] at h
      by_cases c4 : (m a).lo > 0
      · rw [if_pos c4] at h; cases h
      · rw [if_neg c4] at h
        injection h with h
        subst h
        rw [c3]
        exact ⟨Visited.none hM rfl (fun hp => by have := hp.2; omega), by simp [St.read], by simp [St.read]⟩
    · rw [if_neg c3] at h
      by_cases c4 : (m a).lo = 0
      · rw [if_pos c4] at h; cases h
      · rw [if_neg c4] at h
        obtain ⟨h1, h2, h3⟩ := Visited.chunk (ptr := hasPtr m a) hM hpe ⟨hin, c4⟩ h rfl
        exact ⟨h1, by rw [h2]; simp [St.read], by rw [h3]; simp [St.read]⟩
  · rw [if_neg c2] at h
    have hnh : ¬ Cell.isHole (m a) := fun hh => c2 ((genus_hole hw).2 hh)
    rw [elen_field hnh]
    have p1 : phiC a (m a) = 0 := by unfold phiC; rw [if_neg hnh]
    have p2 : phiV a (m a) = 0 := by unfold phiV; rw [if_neg hnh]
    rw [p1, p2]
    unfold fieldUnits
    by_cases c3 : (cellGenus (m a)).isFixed = true
    · rw [if_pos c3] at h ⊢
      by_cases c4 : (m a).lo = 0
      · rw [if_pos c4] at h; cases h
      · rw [if_neg c4] at h
        obtain ⟨h1, h2, h3⟩ := Visited.chunk (ptr := hasPtr m a) hM hpe ⟨hin, c4⟩ h rfl
        exact ⟨h1, by rw [h2]; simp [St.read], by rw [h3]; simp [St.read]⟩
    · rw [if_neg c3] at h ⊢
      by_cases c4 : (m a).lo > 0
      · rw [if_pos c4] at h
        rw [if_neg (by omega)]
        obtain ⟨h1, h2, h3⟩ := Visited.chunk (ptr := hasPtr m a) hM hpe ⟨hin, by omega⟩ h rfl
        exact ⟨h1, by rw [h2]; simp [St.read], by rw [h3]; simp [St.read]⟩
      · rw [if_neg c4] at h
        injection h with h
        subst h
        rw [if_pos (by omega)]
        exact ⟨Visited.none hM rfl (fun hp => by have := hp.2; omega), by simp [St.read], by simp [St.read]⟩

/-- What the validation requires of the index entry `a`. -/
structure EntryOk (m : Memory) (pb pe a : Nat) : Prop where
  word : (m a).hi < 65536
  pure : Cell.isHole (m a) → Cell.units (m a) = 0 → (m a).lo = 0
  inside : 0 < elen m a → (m a).lo ≠ 0 ∧ pb ≤ a + (m a).lo ∧ a + (m a).lo + elen m a ≤ pe
  ptr : hasPtr m a → 0 < elen m a

theorem checkLoose_complete {m : Memory} {pb pe a : Nat} {s : St} (hM : Good s.map) (hs : ∀ i ∈ s.map, i.1 < i.2)
    (hpe : pe ≤ pb + 65535) (he : EntryOk m pb pe a)
    (hd : ∀ v, cov s.map v + ind (a + (m a).lo) (elen m a) (pb + v) ≤ 1) : ∃ t, checkLoose m pb pe a s = .pass t := by
  have hw := he.word
  unfold checkLoose
  simp only
  by_cases c1 : (cellGenus (m a)).isInplaced = true
  · rw [if_pos c1]; exact ⟨_, rfl⟩
  rw [if_neg c1]
  have hin : (cellGenus (m a)).isInplaced = false := by simpa using c1
  by_cases c2 : cellGenus (m a) = .hole
  · rw [if_pos c2]
    have hh := (genus_hole hw).1 c2
    by_cases c3 : Cell.units (m a) = 0
    · rw [if_pos c3, if_neg (by rw [he.pure hh c3]; omega)]; exact ⟨_, rfl⟩
    · rw [if_neg c3]
      have hi := he.inside (by rw [elen_hole hh]; omega)
      rw [elen_hole hh] at hi hd
      rw [if_neg hi.1]
      obtain ⟨M, h⟩ := checkChunk_complete (s := { (s.read a) with hc := (s.read a).hc + 1, hv := (s.read a).hv + Cell.units (m a) })
        hM hs hpe (by omega) hi.2.1 hi.2.2 hd
      exact ⟨_, h⟩
  · rw [if_neg c2]
    have hnh : ¬ Cell.isHole (m a) := fun hh => c2 ((genus_hole hw).2 hh)
    by_cases c3 : (cellGenus (m a)).isFixed = true
    · rw [if_pos c3]
      have e : elen m a = (cellGenus (m a)).looseUnits := by
        rw [elen_field hnh]; unfold fieldUnits; rw [if_pos c3]
      have hn := fixed_pos _ c3 hin c2
      rw [e] at hd
      have hi := he.inside (by rw [e]; omega)
      rw [e] at hi
      rw [if_neg hi.1]
      obtain ⟨M, h⟩ := checkChunk_complete (s := s.read a) hM hs hpe hn hi.2.1 hi.2.2 hd
      exact ⟨_, h⟩
    · rw [if_neg c3]
      by_cases c4 : (m a).lo > 0
      · rw [if_pos c4]
        have e : elen m a = brutto (cellGenus (m a)) m (a + (m a).lo) := by
          rw [elen_field hnh]; unfold fieldUnits; rw [if_neg c3, if_neg (by omega)]
        have hn := he.ptr ⟨hin, by omega⟩
        have hi := he.inside hn
        rw [e] at hd hn hi
        obtain ⟨M, h⟩ := checkChunk_complete (s := (s.read a).read (a + (m a).lo)) hM hs hpe hn hi.2.1 hi.2.2 hd
        exact ⟨_, h⟩
      · rw [if_neg c4]; exact ⟨_, rfl⟩

/-! ## The whole index -/

/-- Effect of a pass over a set of owners: `cv v` = how often they cover the unit `pb + v`. -/
structure Passed (s t : St) (pb pe : Nat) (cv : Nat → ℤ) (own : Nat → Nat → Prop) : Prop where
  good : Good t.map
  cov : ∀ v, cov t.map v = cov s.map v + cv v
  grow : ∀ i ∈ s.map, ∃ j ∈ t.map, j.1 ≤ i.1 ∧ i.2 ≤ j.2
  inside : ∀ p n, own p n → pb ≤ p ∧ p + n ≤ pe ∧ ∃ j ∈ t.map, j.1 ≤ p - pb ∧ p - pb + n ≤ j.2

def idxCov (m : Memory) (pb lo hi v : Nat) : ℤ := ∑ a ∈ Ico lo hi, ind (a + (m a).lo) (elen m a) (pb + v)
/-- `[p, p + n)` is the chunk of an index entry of `[lo, hi)`. -/
def idxOwn (m : Memory) (lo hi p n : Nat) : Prop :=
  ∃ a, lo ≤ a ∧ a < hi ∧ (0 < elen m a ∨ hasPtr m a) ∧ p = a + (m a).lo ∧ n = elen m a

theorem scanDown_sound {m : Memory} {pb pe lo : Nat} (hpe : pe ≤ pb + 65535) :
    ∀ (n : Nat) {s t : St}, Good s.map → (∀ a, lo ≤ a → a < lo + n → (m a).hi < 65536) →
      scanDown (checkLoose m pb pe) lo n s = .pass t →
      Passed s t pb pe (idxCov m pb lo (lo + n)) (idxOwn m lo (lo + n)) ∧
      (t.hc : ℤ) = s.hc + T phiC m lo (lo + n) ∧ (t.hv : ℤ) = s.hv + T phiV m lo (lo + n) ∧
      ((∀ a, lo ≤ a → a < lo + n → hasPtr m a → 0 < elen m a) → (∀ i ∈ s.map, i.1 < i.2) → ∀ i ∈ t.map, i.1 < i.2) := by
  intro n
  induction n with
  | zero =>
    intro s t hM hw h
    injection h with h
    subst h
    refine ⟨⟨hM, fun v => by simp [idxCov], fun i hi => ⟨i, hi, le_rfl, le_rfl⟩, ?_⟩, ?_, ?_, fun _ hs => hs⟩
    · rintro p n ⟨a, h1, h2, _⟩; omega
    · rw [T_empty _ _ (by omega)]; omega
    · rw [T_empty _ _ (by omega)]; omega
  | succ n ih =>
    intro s t hM hw h
    obtain ⟨s1, h1, h2⟩ := pass_bind h
    obtain ⟨v1, v2, v3⟩ := checkLoose_sound hM hpe (hw _ (by omega) (by omega)) h1
    obtain ⟨p1, p2, p3, p4⟩ := ih v1.good (fun a k1 k2 => hw a k1 (by omega)) h2
    have top : ∀ f : Nat → ℤ, ∑ a ∈ Ico lo (lo + (n + 1)), f a = (∑ a ∈ Ico lo (lo + n), f a) + f (lo + n) := by
      intro f
      rw [← Nat.add_assoc]
      exact Finset.sum_Ico_succ_top (by omega) f
    refine ⟨⟨p1.good, fun v => ?_, fun i hi => ?_, ?_⟩, ?_, ?_, fun hp hs => ?_⟩
    · rw [p1.cov, v1.cov]
      unfold idxCov
      rw [top]; omega
    · obtain ⟨j, hj, k1, k2⟩ := v1.grow i hi
      obtain ⟨j', hj', k3, k4⟩ := p1.grow j hj
      exact ⟨j', hj', by omega, by omega⟩
    · rintro p k ⟨a, k1, k2, k3, rfl, rfl⟩
      by_cases c : a < lo + n
      · exact p1.inside _ _ ⟨a, k1, c, k3, rfl, rfl⟩
      · obtain rfl : a = lo + n := by omega
        obtain ⟨q1, q2, j, hj, q3, q4⟩ := v1.inside k3
        obtain ⟨j', hj', k3, k4⟩ := p1.grow j hj
        exact ⟨q1, q2, j', hj', by omega, by omega⟩
    · rw [p2, v2]; unfold T; rw [top (fun a => phiC a (m a))]; omega
    · rw [p3, v3]; unfold T; rw [top (fun a => phiV a (m a))]; omega
    · exact p4 (fun a k1 k2 => hp a k1 (by omega)) (v1.strict (hp _ (by omega) (by omega)) hs)

theorem scanDown_complete {m : Memory} {pb pe lo : Nat} (hpe : pe ≤ pb + 65535) :
    ∀ (n : Nat) {s : St}, Good s.map → (∀ i ∈ s.map, i.1 < i.2) → (∀ a, lo ≤ a → a < lo + n → EntryOk m pb pe a) →
      (∀ v, cov s.map v + idxCov m pb lo (lo + n) v ≤ 1) →
      ∃ t, scanDown (checkLoose m pb pe) lo n s = .pass t := by
  intro n
  induction n with
  | zero => intro s _ _ _ _; exact ⟨s, rfl⟩
  | succ n ih =>
    intro s hM hs he hd
    have top : ∀ v, idxCov m pb lo (lo + (n + 1)) v =
        idxCov m pb lo (lo + n) v + ind (lo + n + (m (lo + n)).lo) (elen m (lo + n)) (pb + v) := by
      intro v
      unfold idxCov
      rw [← Nat.add_assoc]
      exact Finset.sum_Ico_succ_top (by omega) _
    have nn : ∀ v, 0 ≤ idxCov m pb lo (lo + n) v := fun v => Finset.sum_nonneg fun a _ => ind_nonneg _ _ _
    have hk := he (lo + n) (by omega) (by omega)
    obtain ⟨t1, h1⟩ := checkLoose_complete hM hs hpe hk fun v => by
      have := hd v; rw [top] at this; have := nn v; omega
    obtain ⟨v1, _, _⟩ := checkLoose_sound hM hpe hk.word h1
    obtain ⟨t, h2⟩ := ih (s := t1) v1.good (v1.strict hk.ptr hs) (fun a k1 k2 => he a k1 (by omega)) fun v => by
      have := hd v
      rw [top] at this
      rw [v1.cov]
      omega
    exact ⟨t, by show Res.bind _ _ = _; rw [h1]; exact h2⟩

/-! ## The preplaced fields -/

/-- The unit of the preplaced area with the relative offset of the field. -/
def preCell (pivot t : Nat) : Nat := pivot + tag2offset t / 4
def preLen (m : Memory) (pivot t : Nat) : Nat := fieldUnits m (tag2genus t) (preCell pivot t)

def preCov (m : Memory) (pivot : Nat) (ts : List Nat) (v : Nat) : ℤ :=
  (ts.map fun t => ind (preCell pivot t + (m (preCell pivot t)).lo) (preLen m pivot t) (pivot + v)).sum
def preOwn (m : Memory) (pivot : Nat) (ts : List Nat) (p n : Nat) : Prop :=
  ∃ t ∈ ts, (m (preCell pivot t)).lo ≠ 0 ∧ p = preCell pivot t + (m (preCell pivot t)).lo ∧ n = preLen m pivot t

theorem isStretchyPre_iff {t : Nat} : isStretchyPre t = true ↔ isPreplaced t = true ∧ (tag2genus t).isFixed = false := by
  unfold isStretchyPre; simp

theorem preplacedFirst_nil {ts : List Nat} {t : Nat} (h : (t :: ts).Pairwise fun a b => isPreplaced b = true → isPreplaced a = true)
    (ht : ¬ isPreplaced t = true) : (t :: ts).filter isStretchyPre = [] := by
  rw [List.filter_eq_nil_iff]
  intro x hx hc
  rw [isStretchyPre_iff] at hc
  rcases List.mem_cons.1 hx with rfl | hm
  · exact ht hc.1
  · exact ht ((List.pairwise_cons.1 h).1 x hm hc.1)

theorem scanPre_sound {m : Memory} {pivot pe : Nat} (hpe : pe ≤ pivot + 65535) :
    ∀ (ts : List Nat) {s t : St}, ts.Pairwise (fun a b => isPreplaced b = true → isPreplaced a = true) → Good s.map →
      scanPre m pivot pe ts s = .pass t →
      Passed s t pivot pe (preCov m pivot (ts.filter isStretchyPre)) (preOwn m pivot (ts.filter isStretchyPre)) ∧
      t.hc = s.hc ∧ t.hv = s.hv ∧
      ((∀ x ∈ ts.filter isStretchyPre, (m (preCell pivot x)).lo ≠ 0 → 0 < preLen m pivot x) →
        (∀ i ∈ s.map, i.1 < i.2) → ∀ i ∈ t.map, i.1 < i.2) := by
  intro ts
  have nil : ∀ {s : St}, Good s.map → Passed s s pivot pe (preCov m pivot []) (preOwn m pivot []) := by
    intro s hM
    refine ⟨hM, fun v => by simp [preCov], fun i hi => ⟨i, hi, le_rfl, le_rfl⟩, ?_⟩
    rintro p n ⟨t, ht, _⟩; simp at ht
  induction ts with
  | nil =>
    intro s t _ hM h
    injection h with h
    subst h
    exact ⟨nil hM, rfl, rfl, fun _ hs => hs⟩
  | cons x ts ih =>
    intro s t hpw hM h
    unfold scanPre at h
    by_cases c1 : isPreplaced x = true
    · rw [if_neg (by simpa using c1)] at h
      by_cases c2 : (tag2genus x).isFixed = true
      · rw [if_pos c2] at h
        have e : (x :: ts).filter isStretchyPre = ts.filter isStretchyPre := by
          rw [List.filter_cons_of_neg]
          rw [isStretchyPre_iff]
          rintro ⟨_, k⟩; rw [k] at c2; cases c2
        rw [e]
        exact ih (List.pairwise_cons.1 hpw).2 hM h
      · rw [if_neg c2] at h
        simp only at h
        have hx : isStretchyPre x = true := isStretchyPre_iff.2 ⟨c1, by simpa using c2⟩
        rw [List.filter_cons_of_pos hx]
        have covc : ∀ v, preCov m pivot (x :: ts.filter isStretchyPre) v =
            ind (preCell pivot x + (m (preCell pivot x)).lo) (preLen m pivot x) (pivot + v) + preCov m pivot (ts.filter isStretchyPre) v := by
          intro v; simp [preCov]
        by_cases c3 : (m (pivot + tag2offset x / 4)).lo = 0
        · rw [if_pos c3] at h
          obtain ⟨p1, p2, p3, p4⟩ := ih (List.pairwise_cons.1 hpw).2 (s := s.read _) hM h
          have e0 : preLen m pivot x = 0 := by
            unfold preLen fieldUnits preCell
            rw [if_neg c2, if_pos c3]
          refine ⟨⟨p1.good, fun v => ?_, p1.grow, ?_⟩, p2, p3, fun hp hs => p4 (fun y hy => hp y (List.mem_cons_of_mem _ hy)) hs⟩
          · rw [covc, e0, p1.cov]; simp [St.read]
          · rintro p n ⟨y, hy, k1, k2, k3⟩
            rcases List.mem_cons.1 hy with rfl | hm
            · exact absurd c3 k1
            · exact p1.inside p n ⟨y, hm, k1, k2, k3⟩
        · rw [if_neg c3] at h
          obtain ⟨s1, h1, h2⟩ := pass_bind h
          obtain ⟨v1, v2, v3⟩ := Visited.chunk (ptr := (m (preCell pivot x)).lo ≠ 0) hM hpe c3 h1 rfl
          obtain ⟨p1, p2, p3, p4⟩ := ih (List.pairwise_cons.1 hpw).2 v1.good h2
          have e0 : preLen m pivot x = brutto (tag2genus x) m (pivot + tag2offset x / 4 + (m (pivot + tag2offset x / 4)).lo) := by
            unfold preLen fieldUnits preCell
            rw [if_neg c2, if_neg c3]
          refine ⟨⟨p1.good, fun v => ?_, fun i hi => ?_, ?_⟩, p2.trans v2, p3.trans v3, fun hp hs => ?_⟩
          · rw [covc, e0, p1.cov, v1.cov]
            unfold preCell
            omega
          · obtain ⟨j, hj, k1, k2⟩ := v1.grow i hi
            obtain ⟨j', hj', k3, k4⟩ := p1.grow j hj
            exact ⟨j', hj', by omega, by omega⟩
          · rintro p n ⟨y, hy, k1, k2, k3⟩
            rcases List.mem_cons.1 hy with rfl | hm
            · obtain ⟨q1, q2, j, hj, q3, q4⟩ := v1.inside (Or.inr k1)
              obtain ⟨j', hj', k5, k6⟩ := p1.grow j hj
              rw [k2, k3, e0]
              unfold preCell
              exact ⟨q1, q2, j', hj', by omega, by omega⟩
            · exact p1.inside p n ⟨y, hm, k1, k2, k3⟩
          · refine p4 (fun y hy => hp y (List.mem_cons_of_mem _ hy)) (v1.strict (fun _ => ?_) hs)
            rw [← e0]
            exact hp x List.mem_cons_self c3
    · rw [if_pos (by simpa using c1)] at h
      injection h with h
      subst h
      rw [preplacedFirst_nil hpw c1]
      exact ⟨nil hM, rfl, rfl, fun _ hs => hs⟩

theorem scanPre_complete {m : Memory} {pivot pe : Nat} (hpe : pe ≤ pivot + 65535) :
    ∀ (ts : List Nat) {s : St}, ts.Pairwise (fun a b => isPreplaced b = true → isPreplaced a = true) → Good s.map →
      (∀ i ∈ s.map, i.1 < i.2) →
      (∀ x ∈ ts.filter isStretchyPre, (m (preCell pivot x)).lo ≠ 0 → 0 < preLen m pivot x ∧
        pivot ≤ preCell pivot x + (m (preCell pivot x)).lo ∧
        preCell pivot x + (m (preCell pivot x)).lo + preLen m pivot x ≤ pe) →
      (∀ v, cov s.map v + preCov m pivot (ts.filter isStretchyPre) v ≤ 1) →
      ∃ t, scanPre m pivot pe ts s = .pass t := by
  intro ts
  induction ts with
  | nil => intro s _ _ _ _ _; exact ⟨s, rfl⟩
  | cons x ts ih =>
    intro s hpw hM hs hin hd
    unfold scanPre
    by_cases c1 : isPreplaced x = true
    · rw [if_neg (by simpa using c1)]
      by_cases c2 : (tag2genus x).isFixed = true
      · rw [if_pos c2]
        have e : (x :: ts).filter isStretchyPre = ts.filter isStretchyPre := by
          rw [List.filter_cons_of_neg]
          rw [isStretchyPre_iff]
          rintro ⟨_, k⟩; rw [k] at c2; cases c2
        rw [e] at hin hd
        exact ih (List.pairwise_cons.1 hpw).2 hM hs hin hd
      · rw [if_neg c2]
        simp only
        have hx : isStretchyPre x = true := isStretchyPre_iff.2 ⟨c1, by simpa using c2⟩
        rw [List.filter_cons_of_pos hx] at hin hd
        have covc : ∀ v, preCov m pivot (x :: ts.filter isStretchyPre) v =
            ind (preCell pivot x + (m (preCell pivot x)).lo) (preLen m pivot x) (pivot + v) + preCov m pivot (ts.filter isStretchyPre) v := by
          intro v; simp [preCov]
        have nn : ∀ v, 0 ≤ preCov m pivot (ts.filter isStretchyPre) v := by
          intro v
          refine List.sum_nonneg fun y hy => ?_
          obtain ⟨z, _, rfl⟩ := List.mem_map.1 hy
          exact ind_nonneg _ _ _
        have hin' : ∀ y ∈ ts.filter isStretchyPre, (m (preCell pivot y)).lo ≠ 0 → 0 < preLen m pivot y ∧
            pivot ≤ preCell pivot y + (m (preCell pivot y)).lo ∧
            preCell pivot y + (m (preCell pivot y)).lo + preLen m pivot y ≤ pe := fun y hy => hin y (List.mem_cons_of_mem _ hy)
        by_cases c3 : (m (pivot + tag2offset x / 4)).lo = 0
        · rw [if_pos c3]
          refine ih (s := s.read _) (List.pairwise_cons.1 hpw).2 hM hs hin' fun v => ?_
          have := hd v
          rw [covc] at this
          have := ind_nonneg (preCell pivot x + (m (preCell pivot x)).lo) (preLen m pivot x) (pivot + v)
          show cov s.map v + _ ≤ 1
          omega
        · rw [if_neg c3]
          have e0 : preLen m pivot x = brutto (tag2genus x) m (pivot + tag2offset x / 4 + (m (pivot + tag2offset x / 4)).lo) := by
            unfold preLen fieldUnits preCell
            rw [if_neg c2, if_neg c3]
          have hk := hin x List.mem_cons_self c3
          rw [e0] at hk
          obtain ⟨M, h1⟩ := checkChunk_complete
            (s := (s.read (pivot + tag2offset x / 4)).read (pivot + tag2offset x / 4 + (m (pivot + tag2offset x / 4)).lo))
            (cb := pivot + tag2offset x / 4 + (m (pivot + tag2offset x / 4)).lo) hM hs hpe hk.1 hk.2.1 hk.2.2 fun v => by
              have := hd v
              rw [covc, e0] at this
              have := nn v
              unfold preCell at *
              show cov s.map v + _ ≤ 1
              omega
          obtain ⟨v1, _, _⟩ := Visited.chunk (s := s) (ptr := (m (preCell pivot x)).lo ≠ 0) hM hpe c3 h1 rfl
          rw [h1]
          refine ih (List.pairwise_cons.1 hpw).2 v1.good (v1.strict (fun _ => hk.1) hs) hin' fun v => ?_
          have := hd v
          rw [covc, e0] at this
          rw [v1.cov]
          unfold preCell at *
          omega
    · rw [if_pos (by simpa using c1)]
      exact ⟨s, rfl⟩

end Fptu.Audit
