import Verif.Lemmas.AuditTuple
import Verif.Lemmas.TuplePure
/-!
# Completeness of the validation: valid tuples are accepted
-/
namespace Fptu.Audit
open Fptu.Gear Fptu.Rw Finset

/-- Inserting an interval that touches none of the others. -/
theorem mapInsert_apart {M : Map} {b e : Nat} (hM : Good M) (hbe : b < e) (h : ∀ i ∈ M, i.2 < b ∨ e < i.1) :
    ∃ M', mapInsert M b e = some M' ∧ M'.length = M.length + 1 ∧ ∀ j ∈ M', j ∈ M ∨ j = (b, e) := by
  have hlo := split_lo M e
  have hsp := List.takeWhile_append_dropWhile (p := fun i : Nat × Nat => decide (i.1 ≤ e)) (l := M)
  unfold mapInsert
  generalize List.takeWhile (fun i : Nat × Nat => decide (i.1 ≤ e)) M = lo at *
  generalize List.dropWhile (fun i : Nat × Nat => decide (i.1 ≤ e)) M = hi at *
  subst hsp
  simp only
  cases hr : lo.reverse with
  | nil =>
    have : lo = [] := by simpa using hr
    subst this
    exact ⟨_, rfl, by simp, by intro j hj; simp at hj ⊢; tauto⟩
  | cons here before =>
    have hmem : here ∈ lo := by rw [← List.mem_reverse, hr]; simp
    have h1 := hlo here hmem
    have h2 := (h here (by simp [hmem])).resolve_right (by omega)
    simp only
    rw [if_pos h2]
    exact ⟨_, rfl, by simp; omega, by intro j hj; simp at hj ⊢; tauto⟩

theorem scanAdjacent_complete {s : RW} {len : Nat → Nat} {ex : Nat → ℤ} (h : Inv s len ex) (hc : Canon s) :
    ∀ (n : Nat), n ≤ s.pivot - s.head → ∀ {M : Map} {st : St}, Good M → (∀ i ∈ M, i.1 < i.2) →
      (∀ i ∈ M, ∃ b, s.hole b ∧ s.units b ≠ 0 ∧ s.head + n ≤ b ∧ i = (s.start b - s.pivot, s.holeEnd b - s.pivot)) →
      ∃ t, scanAdjacent s.mem s.head s.pivot n M M.length st = .pass t := by
  intro n
  induction n with
  | zero => intro _ M st _ _ _; exact ⟨st, rfl⟩
  | succ n ih =>
    intro hn M st hM hs hh
    unfold scanAdjacent
    simp only
    by_cases c : ¬ Cell.isHole (s.mem (s.head + n)) ∨ Cell.units (s.mem (s.head + n)) = 0
    · rw [if_pos c]
      refine ih (by omega) hM hs fun i hi => ?_
      obtain ⟨b, h1, h2, h3, h4⟩ := hh i hi
      exact ⟨b, h1, h2, by omega, h4⟩
    · rw [if_neg c]
      rw [not_or, not_not] at c
      have hole : s.hole (s.head + n) := ⟨by omega, by omega, c.1⟩
      have hu : s.units (s.head + n) ≠ 0 := c.2
      have hin := h.hole_inside hole hu
      have hl := h.lt16
      have hpb : s.pivot ≤ s.base := base_ge s
      have e1 : s.head + n + (s.mem (s.head + n)).lo = s.start (s.head + n) := rfl
      have e2 : Cell.units (s.mem (s.head + n)) = s.units (s.head + n) := rfl
      rw [e1, e2]
      have e3 : s.holeEnd (s.head + n) = s.start (s.head + n) + s.units (s.head + n) := rfl
      rw [e3] at hin
      rw [if_neg (by
        rw [not_not]
        exact ⟨by omega, by omega, by omega⟩)]
      obtain ⟨M', m1, m2, m3⟩ := mapInsert_apart (b := s.start (s.head + n) - s.pivot)
        (e := s.start (s.head + n) - s.pivot + s.units (s.head + n)) hM (by omega) (by
          intro i hi
          obtain ⟨b, h1, h2, h3, h4⟩ := hh i hi
          have hb := h.hole_inside h1 h2
          have n1 := hc.noAdj _ _ hole h1 hu h2
          have n2 := hc.noAdj _ _ h1 hole h2 hu
          have d := h.disjoint (a := s.head + n) (b := b) (by omega) hole.1 (by have := hole.2.1; omega) h1.1 (by have := h1.2.1; omega)
          have dd : s.holeEnd b = s.start b + s.units b := rfl
          have d1 := d (s.start b)
          have d2 := d (s.start (s.head + n))
          rw [Gear.Inv.clen_hole hole, Gear.Inv.clen_hole h1] at d1 d2
          have x1 := h.exnn (s.start b)
          have x2 := h.exnn (s.start (s.head + n))
          have y1 := ind_le_one s.base (s.tail - s.base) (s.start b)
          have y2 := ind_le_one s.base (s.tail - s.base) (s.start (s.head + n))
          rw [h4]
          simp only
          have k1 : ¬ (s.start (s.head + n) ≤ s.start b ∧ s.start b < s.start (s.head + n) + s.units (s.head + n)) := by
            intro k
            have e : ind (s.start b) (s.units b) (s.start b) = 1 := ind_start (by omega)
            have e' : ind (s.start (s.head + n)) (s.units (s.head + n)) (s.start b) = 1 := by
              unfold ind; rw [if_pos k]
            omega
          have k2 : ¬ (s.start b ≤ s.start (s.head + n) ∧ s.start (s.head + n) < s.start b + s.units b) := by
            intro k
            have e : ind (s.start (s.head + n)) (s.units (s.head + n)) (s.start (s.head + n)) = 1 := ind_start (by omega)
            have e' : ind (s.start b) (s.units b) (s.start (s.head + n)) = 1 := by
              unfold ind; rw [if_pos k]
            omega
          omega)
      rw [m1]
      show ∃ t, (if M.length + 1 ≠ M'.length then _ else _ : Res) = .pass t
      rw [if_neg (by omega), ← m2]
      have ins := mapInsert_sound hM (by omega) m1
      refine ih (by omega) ins.good (ins.strict (by omega) hs) fun i hi => ?_
      rcases m3 i hi with k | k
      · obtain ⟨b, h1, h2, h3, h4⟩ := hh i k
        exact ⟨b, h1, h2, by omega, h4⟩
      · refine ⟨s.head + n, hole, hu, le_rfl, ?_⟩
        rw [k, e3]
        congr 1
        omega

theorem entryOk {sch : Option Schema} {s : RW} (h : WF (schOf sch) s) (hp : Pure s) {a : Nat} (h1 : s.head ≤ a) (h2 : a < s.pivot) :
    EntryOk s.mem s.pivot s.tail a := by
  have hb : a < s.base := by have := base_ge s; omega
  have hin : 0 < elen s.mem a → s.base ≤ s.start a ∧ s.start a + elen s.mem a ≤ s.tail := by
    intro hn
    have := h.inv.inside h1 hb (by rw [elen_clen h2]; exact hn)
    rw [elen_clen h2] at this
    exact this
  refine ⟨?_, fun k1 k2 => hp a h1 h2 (fun k => k) k1 k2, fun hn => ?_, fun hptr => ?_⟩
  · by_cases c : Cell.isHole (s.mem a)
    · have c : (s.mem a).hi / 2048 = 31 := c
      omega
    · exact h.word a ⟨h1, h2, c⟩
  · have := hin hn
    have e : s.start a = a + (s.mem a).lo := rfl
    have := base_ge s
    refine ⟨by omega, by omega, by omega⟩
  · by_cases c : Cell.isHole (s.mem a)
    · rw [elen_hole c]
      have : Cell.units (s.mem a) ≠ 0 := fun k => hptr.2 (hp a h1 h2 (fun k => k) c k)
      omega
    · rw [elen_field c]
      have hl : s.live a := ⟨h1, h2, c⟩
      cases hfx : (cellGenus (s.mem a)).isFixed with
      | true =>
        unfold fieldUnits
        rw [hfx, if_pos rfl]
        have hw := h.word a hl
        exact fixed_pos _ hfx hptr.1 (fun k => c ((genus_hole hw).1 k))
      | false =>
        have := h.pos a _ ⟨hfx, Or.inl ⟨hl, rfl⟩⟩ hptr.2
        rw [lenOf_index h2] at this
        exact this

theorem preOk {sch : Option Schema} (hS : ∀ S, sch = some S → SchemaOk S) {s : RW} (h : WF (schOf sch) s)
    (hpre : s.pre = bytes2units (preBytesOf sch)) {t : Nat} (ht : t ∈ preTokens sch) (h0 : (s.mem (preCell s.pivot t)).lo ≠ 0) :
    0 < preLen s.mem s.pivot t ∧ s.base ≤ preCell s.pivot t + (s.mem (preCell s.pivot t)).lo ∧
      preCell s.pivot t + (s.mem (preCell s.pivot t)).lo + preLen s.mem s.pivot t ≤ s.tail := by
  obtain ⟨k1, k2, k3, k4⟩ := sch_token hS ht
  have hb : s.base = s.pivot + s.pre := rfl
  rw [b2u'] at hpre
  have a1 : s.pivot ≤ preCell s.pivot t := Nat.le_add_right _ _
  have a2 : preCell s.pivot t < s.base := by unfold preCell; omega
  have a3 : schOf sch (preCell s.pivot t - s.pivot) = some (tag2genus t) := by
    unfold preCell; rw [Nat.add_sub_cancel_left]; exact k1
  have el : lenOf (schOf sch) s (preCell s.pivot t) = preLen s.mem s.pivot t := by
    unfold lenOf
    rw [if_neg (by omega), a3]
    rfl
  have hpos := h.pos (preCell s.pivot t) _ ⟨k2, Or.inr ⟨a1, a2, a3⟩⟩ h0
  have := h.payload_ge (Or.inr ⟨a1, a2⟩) hpos
  rw [el] at hpos this
  exact ⟨hpos, this⟩

/-- Every valid tuple is accepted, and the holes are counted as the tuple counts them. -/
theorem auditTuple_complete {sch : Option Schema} (hS : ∀ S, sch = some S → SchemaOk S) {s : RW} (h : WF (schOf sch) s) (hp : Pure s)
    (hpre : s.pre = bytes2units (preBytesOf sch)) (hmax : s.pivot - s.head + stretchyOf sch ≤ maxFields) {fl : Flags}
    (hfl : fl.havePre = decide (preBytesOf sch ≠ 0))
    (hsort : fl.sorted = true → sortedIndex s.mem s.head (s.pivot - s.head) = true) :
    ∃ st, auditTuple sch s.mem s.head s.pivot s.tail fl = .pass st ∧ st.hc = s.jc ∧ st.hv = s.jv := by
  have hi := h.inv
  have hl := hi.lt16
  have hb : s.base = s.pivot + s.pre := rfl
  have hhp := hi.hp
  have hbt := hi.bt
  have hr : s.head + (s.pivot - s.head) = s.pivot := by omega
  have hpe : s.tail ≤ s.pivot + 65535 := by omega
  have cover : ∀ v, idxCov s.mem s.pivot s.head s.pivot v + preCov s.mem s.pivot (preTokens sch) v =
      ind s.pre (s.tail - s.base) v := by
    intro v
    rw [← cover_split hS hpre hhp]
    have := hi.cover (s.pivot + v)
    rw [add_zero] at this
    rw [this, ← ind_shift (by omega)]
    congr 1
    omega
  have nn1 : ∀ v, 0 ≤ idxCov s.mem s.pivot s.head s.pivot v := fun v => Finset.sum_nonneg fun a _ => ind_nonneg _ _ _
  have nn2 : ∀ v, 0 ≤ preCov s.mem s.pivot (preTokens sch) v := by
    intro v
    refine List.sum_nonneg fun x hx => ?_
    obtain ⟨t, _, rfl⟩ := List.mem_map.1 hx
    exact ind_nonneg _ _ _
  have hent : ∀ a, s.head ≤ a → a < s.head + (s.pivot - s.head) → EntryOk s.mem s.pivot s.tail a :=
    fun a k1 k2 => entryOk h hp k1 (by omega)
  obtain ⟨s1, h1⟩ := scanDown_complete (m := s.mem) (pb := s.pivot) hpe (s.pivot - s.head) (s := ⟨[], 0, 0, []⟩) Good.nil
    (by intro i hi; cases hi) hent (fun v => by
      rw [hr]
      have := cover v
      have := ind_le_one s.pre (s.tail - s.base) v
      have := nn2 v
      rw [cov_nil]
      omega)
  obtain ⟨p1, p2, p3, p4⟩ := scanDown_sound hpe (s.pivot - s.head) (s := ⟨[], 0, 0, []⟩) Good.nil
    (fun a k1 k2 => (hent a k1 k2).word) h1
  rw [hr] at p1 p2 p3
  have hstrict1 := p4 (fun a k1 k2 => (hent a k1 k2).ptr) (by intro i hi; cases hi)
  have ehc : s1.hc = s.jc := by
    have := hi.cnt
    simp only [Nat.cast_zero, zero_add] at p2
    omega
  have ehv : s1.hv = s.jv := by
    have := hi.vol
    simp only [Nat.cast_zero, zero_add] at p3
    omega
  have hjc := hi.jc_le
  have hjv := hi.vol_le (p := 0) (n := 0) (fun u => by rw [ind_zero])
  have cov1 : ∀ v, cov s1.map v = idxCov s.mem s.pivot s.head s.pivot v := by
    intro v; rw [p1.cov]; simp
  -- no payload of the index lies before the preplaced fields
  have low1 : ∀ i ∈ s1.map, s.pre ≤ i.1 := by
    intro i hi1
    by_contra hlt
    have h3 := hstrict1 i hi1
    have : 1 ≤ cov s1.map i.1 := by
      obtain ⟨A, B, e⟩ := List.append_of_mem hi1
      rw [e, cov_append, cov_cons]
      have := cov_nonneg A i.1
      have := cov_nonneg B i.1
      have := ind_start (p := i.1) (n := i.2 - i.1) (by omega)
      omega
    rw [cov1] at this
    have := cover i.1
    have := nn2 i.1
    have : ind s.pre (s.tail - s.base) i.1 = 0 := by
      unfold ind; rw [if_neg (by omega)]
    omega
  obtain ⟨s2, h2, hstrict2⟩ : ∃ s2, passPre sch s.mem s.pivot s.tail (preBytesOf sch) s1 = .pass s2 ∧ ∀ i ∈ s2.map, i.1 < i.2 := by
    unfold passPre
    by_cases c0 : preBytesOf sch ≠ 0
    · rw [if_pos c0]
      rw [if_neg (by
        rintro ⟨k1, k2⟩
        cases hm : s1.map with
        | nil => exact k1 hm
        | cons i l =>
          rw [hm] at k2
          have := low1 i (by rw [hm]; simp)
          have k2 : bytes2units (preBytesOf sch) > i.1 := k2
          omega)]
      rw [if_neg (by rw [b2u'] at hpre; omega)]
      cases sch with
      | none => exact absurd rfl c0
      | some S =>
        have hf := (hS S rfl).first
        obtain ⟨s2, k⟩ := scanPre_complete hpe S.tokens hf p1.good hstrict1
          (fun x hx k => by
            have := preOk hS h hpre (t := x) hx k
            exact ⟨this.1, by omega, this.2.2⟩)
          (fun v => by
            rw [cov1]
            have := cover v
            have e : preTokens (some S) = S.tokens.filter isStretchyPre := rfl
            rw [e] at this
            have := ind_le_one s.pre (s.tail - s.base) v
            omega)
        obtain ⟨_, _, _, q4⟩ := scanPre_sound hpe S.tokens hf p1.good k
        exact ⟨s2, k, q4 (fun x hx k => (preOk hS h hpre (t := x) hx k).1) hstrict1⟩
    · rw [if_neg c0]
      exact ⟨s1, rfl, hstrict1⟩
  obtain ⟨q1, q2, q3, q4⟩ := passPre_sound hS hpe p1.good h2
  have cov2 : ∀ v, cov s2.map v = ind s.pre (s.tail - s.base) v := by
    intro v; rw [q1.cov, cov1, cover]
  obtain ⟨w1, w2⟩ := q1.good.single hstrict2 cov2
  have fin : ∃ st, finish s.mem s.head s.pivot s.tail (preBytesOf sch) fl s2 = .pass st := by
    have last : ∀ s3 : St, ∃ st, (if fl.sorted = true then
        if sortedIndex s.mem s.head (s.pivot - s.head) = true then
          Res.pass { s3 with reads := (List.range' s.head (s.pivot - s.head)) ++ s3.reads }
        else Res.fail "loose fields mis-sorted" ((List.range' s.head (s.pivot - s.head)) ++ s3.reads)
      else .pass s3) = .pass st := by
      intro s3
      cases c : fl.sorted with
      | false => exact ⟨s3, rfl⟩
      | true =>
        rw [if_pos rfl, if_pos (hsort c)]
        exact ⟨_, rfl⟩
    have first : ∃ s3, (if s2.map ≠ [] then
        if fl.havePre ≠ decide (mapBegin s2.map > 0) then Res.fail (presence fl) s2.reads
        else if mapBegin s2.map ≠ bytes2units (preBytesOf sch) then .fail (presence fl) s2.reads
        else if s.pivot + mapEnd s2.map ≠ s.tail then .fail (if s.pivot + mapEnd s2.map > s.tail then "allocated beyond end of tuple" else "lose space at the end of tuple") s2.reads
        else if s2.map.length > 1 then .fail "tuple have unaccounted holes" s2.reads
        else if fl.adjacent ∧ s2.hc > 1 then scanAdjacent s.mem s.head s.pivot (s.pivot - s.head) [] 0 s2
        else .pass s2
      else .pass s2) = .pass s3 := by
      by_cases c : s.tail - s.base = 0
      · rw [if_neg (by rw [w1 c]; simp)]
        exact ⟨s2, rfl⟩
      · have e := w2 (by omega)
        rw [if_pos (by rw [e]; simp), e]
        have hpz : s.pre > 0 ↔ preBytesOf sch ≠ 0 := by rw [b2u'] at hpre; omega
        rw [if_neg (by
          rw [hfl]
          simp only [mapBegin, not_not]
          exact decide_eq_decide.2 hpz.symm)]
        rw [if_neg (by simp only [mapBegin, not_not]; exact hpre)]
        rw [if_neg (by simp only [mapEnd, List.getLast?_singleton, not_not]; omega)]
        rw [if_neg (by simp)]
        by_cases c2 : fl.adjacent = true ∧ s2.hc > 1
        · rw [if_pos c2]
          exact scanAdjacent_complete hi h.canon (s.pivot - s.head) le_rfl (M := []) Good.nil (by intro i hi; cases hi) (by intro i hi; cases hi)
        · rw [if_neg c2]; exact ⟨s2, rfl⟩
    obtain ⟨s3, e3⟩ := first
    obtain ⟨st, e4⟩ := last s3
    refine ⟨st, ?_⟩
    unfold finish
    rw [e3]
    exact e4
  obtain ⟨st, h3⟩ := fin
  obtain ⟨f1, f2, f3, _, _⟩ := finish_sound h3
  refine ⟨st, ?_, by rw [f2, q2, ehc], by rw [f3, q3, ehv]⟩
  unfold auditTuple
  simp only
  rw [if_neg (by omega), h1]
  show (if s1.hc > 32767 then _ else _ : Res) = _
  have hmf : maxFields = 8191 := rfl
  rw [if_neg (by omega), if_neg (by omega), if_neg (by
    rintro ⟨k1, k2⟩
    cases sch with
    | none => rw [hfl] at k1; exact absurd k1 (by decide)
    | some S => cases k2), if_neg (by rw [hfl]; exact fun k => k rfl), h2]
  exact h3

/-- The validation of a modifiable tuple accepts every valid one. -/
theorem auditRw_complete {sch : Option Schema} (hS : ∀ S, sch = some S → SchemaOk S) {s : RW} (h : WF (schOf sch) s) (hp : Pure s)
    (hpre : s.pre = bytes2units (preBytesOf sch)) (hmax : s.pivot - s.head + stretchyOf sch ≤ maxFields) :
    ∃ st, auditRw sch s = .pass st := by
  obtain ⟨st, h1, h2, h3⟩ := auditTuple_complete hS h hp hpre hmax (fl := ⟨false, decide (preBytesOf sch > 0), true⟩)
    (decide_eq_decide.2 (by omega)) (fun k => by cases k)
  have hi := h.inv
  have := hi.hp
  have := hi.bt
  have := hi.tl
  have := hi.ll
  have hb : s.base = s.pivot + s.pre := rfl
  have hjc := hi.jc_le
  have hjv := hi.vol_le (p := 0) (n := 0) (fun u => by rw [ind_zero])
  refine ⟨st, ?_⟩
  unfold auditRw
  rw [if_neg (by omega), if_neg (by omega), if_neg (by omega), if_neg (by omega), if_neg (by omega), if_neg (by omega),
    if_neg (by omega), h1]
  show (if s.jc ≠ st.hc % 65536 then _ else _ : Res) = _
  have hl := hi.lt16
  rw [if_neg (by omega), if_neg (by omega)]

end Fptu.Audit
