import Verif.Lemmas.AuditStep
import Mathlib.Algebra.BigOperators.Group.List.Basic
/-!
# Soundness and completeness of the validation of a tuple
-/
namespace Fptu.Audit
open Fptu.Gear Fptu.Rw Finset

/-- A schema as `fptu::schema` maintains it (schema.cxx:112-217, C30): preplaced tokens come first; stretchy preplaced
fields are unit-aligned, inside the preplaced area and do not share a unit. -/
structure SchemaOk (S : Schema) : Prop where
  first : S.tokens.Pairwise fun a b => isPreplaced b = true → isPreplaced a = true
  align : ∀ t ∈ S.tokens, isStretchyPre t = true → tag2offset t % 4 = 0 ∧ tag2offset t + 4 ≤ S.bytes
  apart : (S.tokens.filter isStretchyPre).Pairwise fun a b => tag2offset a ≠ tag2offset b

def Schema.sch (S : Schema) : Sch := fun k =>
  ((S.tokens.filter isStretchyPre).find? fun t => decide (tag2offset t / 4 = k)).map tag2genus

/-- The stretchy preplaced tokens of a schema, if there is one. -/
def preTokens (sch : Option Schema) : List Nat := match sch with | some S => S.tokens.filter isStretchyPre | none => []
/-- The preplaced part of an optional schema. -/
def schOf (sch : Option Schema) : Sch := match sch with | some S => S.sch | none => fun _ => none

theorem b2u' (n : Nat) : bytes2units n = (n + 3) / 4 := by
  unfold bytes2units; rw [Nat.shiftRight_eq_div_pow]; omega

theorem find_key {ts : List Nat} (h : ts.Pairwise fun a b => tag2offset a ≠ tag2offset b)
    (hal : ∀ t ∈ ts, tag2offset t % 4 = 0) {t : Nat} (ht : t ∈ ts) :
    ts.find? (fun x => decide (tag2offset x / 4 = tag2offset t / 4)) = some t := by
  induction ts with
  | nil => cases ht
  | cons x ts ih =>
    rcases List.mem_cons.1 ht with rfl | hm
    · simp
    · have hne := (List.pairwise_cons.1 h).1 t hm
      have a1 := hal x List.mem_cons_self
      have a2 := hal t ht
      rw [List.find?_cons_of_neg (by simp; omega)]
      exact ih (List.pairwise_cons.1 h).2 (fun y hy => hal y (List.mem_cons_of_mem _ hy)) hm

theorem sch_token {sch : Option Schema} (hS : ∀ S, sch = some S → SchemaOk S) {t : Nat} (ht : t ∈ preTokens sch) :
    schOf sch (tag2offset t / 4) = some (tag2genus t) ∧ (tag2genus t).isFixed = false ∧ tag2offset t % 4 = 0 ∧
      tag2offset t + 4 ≤ preBytesOf sch := by
  cases sch with
  | none => cases ht
  | some S =>
    have hs := hS S rfl
    have ht : t ∈ S.tokens.filter isStretchyPre := ht
    have hm := List.mem_filter.1 ht
    have hal := hs.align t hm.1 hm.2
    refine ⟨?_, (isStretchyPre_iff.1 hm.2).2, hal.1, hal.2⟩
    show Option.map tag2genus (List.find? _ _) = _
    rw [find_key hs.apart (fun y hy => (hs.align y (List.mem_filter.1 hy).1 (List.mem_filter.1 hy).2).1) ht]
    rfl

theorem sch_some {sch : Option Schema} {k : Nat} {g : Genus} (h : schOf sch k = some g) :
    ∃ t ∈ preTokens sch, tag2offset t / 4 = k ∧ tag2genus t = g := by
  cases sch with
  | none => cases h
  | some S =>
    have h : Option.map tag2genus (List.find? (fun t => decide (tag2offset t / 4 = k)) (S.tokens.filter isStretchyPre)) = some g := h
    obtain ⟨t, h1, h2⟩ := Option.map_eq_some_iff.1 h
    exact ⟨t, List.mem_of_find?_eq_some h1, by simpa using List.find?_some h1, h2⟩

theorem sch_stretchy {sch : Option Schema} {k : Nat} {g : Genus} (h : schOf sch k = some g) : g.isFixed = false := by
  obtain ⟨t, h1, _, rfl⟩ := sch_some h
  cases sch with
  | none => cases h1
  | some S => exact (isStretchyPre_iff.1 (List.mem_filter.1 h1).2).2

theorem sum_keys {ts : List Nat} {key : Nat → Nat} (hn : (ts.map key).Nodup) {lo hi : Nat}
    (hk : ∀ t ∈ ts, lo ≤ key t ∧ key t < hi) {F : Nat → ℤ} (hF : ∀ a, lo ≤ a → a < hi → (∀ t ∈ ts, key t ≠ a) → F a = 0) :
    ∑ a ∈ Ico lo hi, F a = (ts.map fun t => F (key t)).sum := by
  have e : (ts.map fun t => F (key t)).sum = ((ts.map key).map F).sum := by rw [List.map_map]; rfl
  rw [e, ← List.sum_toFinset F hn]
  symm
  refine Finset.sum_subset (fun a ha => ?_) fun a ha hna => ?_
  · rw [List.mem_toFinset] at ha
    obtain ⟨t, ht, rfl⟩ := List.mem_map.1 ha
    exact Finset.mem_Ico.2 (hk t ht)
  · rw [Finset.mem_Ico] at ha
    refine hF a ha.1 ha.2 fun t ht hc => hna ?_
    rw [List.mem_toFinset]
    exact List.mem_map.2 ⟨t, ht, hc⟩

theorem preCov_sum {sch : Option Schema} (hS : ∀ S, sch = some S → SchemaOk S) {s : RW}
    (hpre : s.pre = bytes2units (preBytesOf sch)) (v : Nat) :
    ∑ a ∈ Ico s.pivot s.base, ind (a + (s.mem a).lo) (lenOf (schOf sch) s a) (s.pivot + v) =
      preCov s.mem s.pivot (preTokens sch) v := by
  have len : ∀ t ∈ preTokens sch, lenOf (schOf sch) s (preCell s.pivot t) = preLen s.mem s.pivot t := by
    intro t ht
    unfold lenOf preCell
    rw [if_neg (by omega), Nat.add_sub_cancel_left, (sch_token hS ht).1]
    rfl
  rw [sum_keys (ts := preTokens sch) (key := preCell s.pivot)]
  · unfold preCov
    congr 1
    refine List.map_congr_left fun t ht => ?_
    rw [len t ht]
  · cases sch with
    | none => exact List.nodup_nil
    | some S =>
      have hs := hS S rfl
      show List.Pairwise _ _
      rw [List.pairwise_map]
      refine List.Pairwise.imp_of_mem ?_ hs.apart
      intro a b ha hb hab hc
      have := (sch_token hS ha).2.2.1
      have := (sch_token hS hb).2.2.1
      unfold preCell at hc
      omega
  · intro t ht
    have := sch_token hS ht
    have : s.base = s.pivot + s.pre := rfl
    rw [b2u'] at hpre
    unfold preCell
    omega
  · intro a h1 h2 hne
    have : lenOf (schOf sch) s a = 0 := by
      unfold lenOf
      rw [if_neg (by omega)]
      cases hk : schOf sch (a - s.pivot) with
      | none => rfl
      | some g =>
        obtain ⟨t, ht, k1, _⟩ := sch_some hk
        exact absurd (show preCell s.pivot t = a by unfold preCell; omega) (hne t ht)
    rw [this, ind_zero]

theorem elen_clen {σ : Sch} {s : RW} {a : Nat} (h : a < s.pivot) : clen s.pivot (lenOf σ s) a (s.mem a) = elen s.mem a := by
  unfold clen elen
  by_cases c : Cell.isHole (s.mem a)
  · rw [if_pos ⟨h, c⟩, if_pos c]
  · rw [if_neg (fun k => c k.2), if_neg c]
    unfold lenOf; rw [if_pos h]

/-- The coverage of the layout invariant, split into the index and the preplaced area. -/
theorem cover_split {sch : Option Schema} (hS : ∀ S, sch = some S → SchemaOk S) {s : RW}
    (hpre : s.pre = bytes2units (preBytesOf sch)) (hp : s.head ≤ s.pivot) (v : Nat) :
    T (phiW s.pivot (lenOf (schOf sch) s) (s.pivot + v)) s.mem s.head s.base =
      idxCov s.mem s.pivot s.head s.pivot v + preCov s.mem s.pivot (preTokens sch) v := by
  unfold T
  rw [← Finset.sum_Ico_consecutive _ hp (Nat.le_add_right s.pivot s.pre), ← preCov_sum hS hpre]
  congr 1
  · unfold idxCov
    refine Finset.sum_congr rfl fun a ha => ?_
    rw [Finset.mem_Ico] at ha
    unfold phiW
    rw [elen_clen ha.2]
  · refine Finset.sum_congr rfl fun a ha => ?_
    rw [Finset.mem_Ico] at ha
    unfold phiW clen
    rw [if_neg (by omega)]

/-! ## The final checks -/

theorem scanAdjacent_keeps {m : Memory} {lo pb : Nat} : ∀ (n : Nat) {M : Map} {k : Nat} {s t : St},
    scanAdjacent m lo pb n M k s = .pass t → t.map = s.map ∧ t.hc = s.hc ∧ t.hv = s.hv := by
  intro n
  induction n with
  | zero => intro M k s t h; injection h with h; subst h; exact ⟨rfl, rfl, rfl⟩
  | succ n ih =>
    intro M k s t h
    unfold scanAdjacent at h
    simp only at h
    split_ifs at h
    · exact ih (s := s.read (lo + n)) h
    · exact ih (s := s.read (lo + n)) h

theorem finish_sound {m : Memory} {ib pivot pe preBytes : Nat} {fl : Flags} {s t : St}
    (h : finish m ib pivot pe preBytes fl s = .pass t) :
    t.map = s.map ∧ t.hc = s.hc ∧ t.hv = s.hv ∧
      (s.map = [] ∨ s.map = [(bytes2units preBytes, pe - pivot)] ∧ pivot ≤ pe) ∧
      (fl.sorted = true → sortedIndex m ib (pivot - ib) = true) := by
  unfold finish at h
  obtain ⟨s1, h1, h2⟩ := pass_bind h
  have last : t.map = s1.map ∧ t.hc = s1.hc ∧ t.hv = s1.hv ∧ (fl.sorted = true → sortedIndex m ib (pivot - ib) = true) := by
    cases c : fl.sorted with
    | false =>
      rw [c, if_neg (by decide)] at h2
      injection h2 with h2
      subst h2
      exact ⟨rfl, rfl, rfl, fun k => by cases k⟩
    | true =>
      rw [c, if_pos rfl] at h2
      simp only at h2
      by_cases c2 : sortedIndex m ib (pivot - ib) = true
      · rw [if_pos c2] at h2
        injection h2 with h2
        subst h2
        exact ⟨rfl, rfl, rfl, fun _ => c2⟩
      · rw [if_neg c2] at h2; cases h2
  have first : s1.map = s.map ∧ s1.hc = s.hc ∧ s1.hv = s.hv ∧
      (s.map = [] ∨ s.map = [(bytes2units preBytes, pe - pivot)] ∧ pivot ≤ pe) := by
    by_cases c0 : s.map = []
    · rw [if_neg (by simpa using c0)] at h1
      injection h1 with h1
      subst h1
      exact ⟨rfl, rfl, rfl, Or.inl c0⟩
    rw [if_pos c0] at h1
    by_cases c1 : fl.havePre ≠ decide (mapBegin s.map > 0)
    · rw [if_pos c1] at h1; cases h1
    rw [if_neg c1] at h1
    by_cases c2 : mapBegin s.map ≠ bytes2units preBytes
    · rw [if_pos c2] at h1; cases h1
    rw [if_neg c2] at h1
    by_cases c3 : pivot + mapEnd s.map ≠ pe
    · rw [if_pos c3] at h1; cases h1
    rw [if_neg c3] at h1
    by_cases c4 : s.map.length > 1
    · rw [if_pos c4] at h1; cases h1
    rw [if_neg c4] at h1
    have hm : s.map = [(bytes2units preBytes, pe - pivot)] ∧ pivot ≤ pe := by
      cases hM : s.map with
      | nil => exact absurd hM c0
      | cons i l =>
        cases l with
        | cons j l => rw [hM] at c4; simp at c4
        | nil =>
          rw [hM] at c2 c3
          have c2 : i.1 = bytes2units preBytes := by simpa [mapBegin] using c2
          have c3 : pivot + i.2 = pe := by simpa [mapEnd] using c3
          refine ⟨?_, by omega⟩
          have : i = (bytes2units preBytes, pe - pivot) := Prod.ext c2 (by show i.2 = pe - pivot; omega)
          rw [this]
    by_cases c5 : fl.adjacent = true ∧ s.hc > 1
    · rw [if_pos c5] at h1
      obtain ⟨k1, k2, k3⟩ := scanAdjacent_keeps _ h1
      exact ⟨k1, k2, k3, Or.inr hm⟩
    · rw [if_neg c5] at h1
      injection h1 with h1
      subst h1
      exact ⟨rfl, rfl, rfl, Or.inr hm⟩
  exact ⟨last.1.trans first.1, last.2.1.trans first.2.1, last.2.2.1.trans first.2.2.1, first.2.2.2, last.2.2.2⟩

/-- What acceptance by `audit_tuple` means. -/
structure Accepted (sch : Option Schema) (s : RW) (st : St) : Prop where
  fits : s.base ≤ s.tail
  cover : ∀ u, T (phiW s.pivot (lenOf (schOf sch) s) u) s.mem s.head s.base =
    if s.pivot ≤ u then cov st.map (u - s.pivot) else 0
  good : Good st.map
  whole : st.map = [] ∨ st.map = [(s.pre, s.tail - s.pivot)]
  count : (st.hc : ℤ) = T phiC s.mem s.head s.pivot
  volume : (st.hv : ℤ) = T phiV s.mem s.head s.pivot
  index : ∀ p n, idxOwn s.mem s.head s.pivot p n → s.base ≤ p ∧ p + n ≤ s.tail
  preplaced : ∀ p n, preOwn s.mem s.pivot (preTokens sch) p n → s.base ≤ p ∧ p + n ≤ s.tail
  some : ∀ p n, idxOwn s.mem s.head s.pivot p n ∨ preOwn s.mem s.pivot (preTokens sch) p n → st.map ≠ []

theorem passPre_sound {sch : Option Schema} (hS : ∀ S, sch = some S → SchemaOk S) {m : Memory} {pivot pe : Nat}
    (hpe : pe ≤ pivot + 65535) {s t : St} (hM : Good s.map) (h : passPre sch m pivot pe (preBytesOf sch) s = .pass t) :
    Passed s t pivot pe (preCov m pivot (preTokens sch)) (preOwn m pivot (preTokens sch)) ∧ t.hc = s.hc ∧ t.hv = s.hv ∧
      (preBytesOf sch ≤ 4 * (pe - pivot)) := by
  have nil : ∀ {s : St}, Good s.map → Passed s s pivot pe (preCov m pivot []) (preOwn m pivot []) := by
    intro s hM
    refine ⟨hM, fun v => by simp [preCov], fun i hi => ⟨i, hi, le_rfl, le_rfl⟩, ?_⟩
    rintro p n ⟨t, ht, _⟩; simp at ht
  unfold passPre at h
  by_cases c0 : preBytesOf sch ≠ 0
  · rw [if_pos c0] at h
    split_ifs at h with c1 c2
    cases sch with
    | none =>
      injection h with h; subst h
      exact ⟨nil hM, rfl, rfl, by omega⟩
    | some S =>
      obtain ⟨k1, k2, k3, _⟩ := scanPre_sound hpe S.tokens (hS S rfl).first hM h
      exact ⟨k1, k2, k3, by omega⟩
  · rw [if_neg c0] at h
    injection h with h
    subst h
    have e : preTokens sch = [] := by
      cases hp : preTokens sch with
      | nil => rfl
      | cons x l =>
        have := (sch_token hS (t := x) (by rw [hp]; simp)).2.2.2
        omega
    rw [e]
    exact ⟨nil hM, rfl, rfl, by omega⟩

theorem auditTuple_sound {sch : Option Schema} (hS : ∀ S, sch = some S → SchemaOk S) {s : RW} {st : St} {fl : Flags}
    (hpre : s.pre = bytes2units (preBytesOf sch)) (hp : s.head ≤ s.pivot) (hpt : s.pivot ≤ s.tail) (ht : s.tail ≤ 65535)
    (hw : ∀ a, s.head ≤ a → a < s.pivot → (s.mem a).hi < 65536)
    (h : auditTuple sch s.mem s.head s.pivot s.tail fl = .pass st) :
    Accepted sch s st ∧ (fl.sorted = true → sortedIndex s.mem s.head (s.pivot - s.head) = true) := by
  unfold auditTuple at h
  simp only at h
  by_cases c0 : s.pivot - s.head + stretchyOf sch > maxFields
  · rw [if_pos c0] at h; cases h
  rw [if_neg c0] at h
  obtain ⟨s1, h1, h'⟩ := pass_bind h
  clear h
  split_ifs at h' with c1 c2
  obtain ⟨s2, h2, h3⟩ := pass_bind h'
  have hr : s.head + (s.pivot - s.head) = s.pivot := by omega
  obtain ⟨p1, p2, p3, _⟩ := scanDown_sound (pe := s.tail) (pb := s.pivot) (by omega) (s.pivot - s.head) (s := ⟨[], 0, 0, []⟩) Good.nil
    (fun a k1 k2 => hw a k1 (by omega)) h1
  rw [hr] at p1 p2 p3
  obtain ⟨q1, q2, q3, q4⟩ := passPre_sound hS (by omega) p1.good h2
  obtain ⟨f1, f2, f3, f4, f5⟩ := finish_sound h3
  change s2.map = [] ∨ s2.map = [(bytes2units (preBytesOf sch), _)] ∧ _ at f4
  have hb : s.base = s.pivot + s.pre := rfl
  have hcov : ∀ v, cov st.map v = idxCov s.mem s.pivot s.head s.pivot v + preCov s.mem s.pivot (preTokens sch) v := by
    intro v
    rw [f1, q1.cov, p1.cov]
    simp
  have closed : ∀ p n, (s.pivot ≤ p ∧ p + n ≤ s.tail ∧ ∃ j ∈ s2.map, j.1 ≤ p - s.pivot ∧ p - s.pivot + n ≤ j.2) →
      s.base ≤ p ∧ p + n ≤ s.tail := by
    rintro p n ⟨k1, k2, j, hj, k3, k4⟩
    refine ⟨?_, k2⟩
    rcases f4 with f4 | ⟨f4, _⟩
    · rw [f4] at hj; cases hj
    · rw [f4] at hj
      rw [List.mem_singleton] at hj
      rw [hj, ← hpre] at k3
      simp only at k3
      omega
  have hidx : ∀ p n, idxOwn s.mem s.head s.pivot p n → s.base ≤ p ∧ p + n ≤ s.tail := by
    intro p n ho
    obtain ⟨k1, k2, j, hj, k3, k4⟩ := p1.inside p n ho
    obtain ⟨j', hj', k5, k6⟩ := q1.grow j hj
    exact closed p n ⟨k1, k2, j', hj', by omega, by omega⟩
  have hpr : ∀ p n, preOwn s.mem s.pivot (preTokens sch) p n → s.base ≤ p ∧ p + n ≤ s.tail :=
    fun p n ho => closed p n (q1.inside p n ho)
  have hsome : ∀ p n, idxOwn s.mem s.head s.pivot p n ∨ preOwn s.mem s.pivot (preTokens sch) p n → st.map ≠ [] := by
    rintro p n (ho | ho) hm
    · obtain ⟨_, _, j, hj, _⟩ := p1.inside p n ho
      obtain ⟨j', hj', _⟩ := q1.grow j hj
      rw [← f1, hm] at hj'; cases hj'
    · obtain ⟨_, _, j, hj, _⟩ := q1.inside p n ho
      rw [← f1, hm] at hj; cases hj
  refine ⟨⟨?_, fun u => ?_, f1 ▸ q1.good, ?_, ?_, ?_, hidx, hpr, hsome⟩, f5⟩
  · rw [b2u'] at hpre
    omega
  · by_cases c : s.pivot ≤ u
    · rw [if_pos c, hcov, ← cover_split hS hpre hp]
      rw [show s.pivot + (u - s.pivot) = u by omega]
    · rw [if_neg c]
      unfold T
      refine Finset.sum_eq_zero fun a ha => ?_
      rw [Finset.mem_Ico] at ha
      unfold phiW
      by_cases hz : clen s.pivot (lenOf (schOf sch) s) a (s.mem a) = 0
      · rw [hz, ind_zero]
      have hin : s.base ≤ a + (s.mem a).lo := by
        by_cases hap : a < s.pivot
        · rw [elen_clen hap] at hz
          exact (hidx _ _ ⟨a, ha.1, hap, Or.inl (by omega), rfl, rfl⟩).1
        · unfold clen at hz
          rw [if_neg (by omega)] at hz
          unfold lenOf at hz
          rw [if_neg (by omega)] at hz
          cases hk : schOf sch (a - s.pivot) with
          | none => rw [hk] at hz; exact absurd rfl hz
          | some g =>
            rw [hk] at hz
            simp only at hz
            obtain ⟨t, ht', k1, k2⟩ := sch_some hk
            have ea : preCell s.pivot t = a := by unfold preCell; omega
            have hlo : (s.mem (preCell s.pivot t)).lo ≠ 0 := by
              intro h0
              unfold fieldUnits at hz
              rw [sch_stretchy hk, if_neg (by decide), if_pos (ea ▸ h0)] at hz
              exact hz rfl
            have := hpr _ _ ⟨t, ht', hlo, rfl, rfl⟩
            rw [ea] at this
            exact this.1
      unfold ind
      rw [if_neg (by omega)]
  · rw [f1]
    rcases f4 with f4 | ⟨f4, _⟩
    · exact Or.inl f4
    · right; rw [f4, hpre]
  · rw [f2, q2, p2]; simp
  · rw [f3, q3, p3]; simp

end Fptu.Audit
