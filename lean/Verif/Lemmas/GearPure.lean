import Verif.Lemmas.GearRealloc
/-!
# Empty holes have no payload

Every index entry that is a hole of zero units has the relative offset 0 (checked by `check_loose`, audit.cxx:203-205).
The exceptions `X` serve intermediate states.
-/
namespace Fptu.Gear

/-- A hole of zero units has no payload. -/
def PC (c : Cell) : Prop := Cell.isHole c → Cell.units c = 0 → c.lo = 0

def PN (X : Nat → Prop) (s : RW) : Prop := ∀ a, s.head ≤ a → a < s.pivot → ¬ X a → PC (s.mem a)

theorem Out.bind_ok {α β : Type} {o : Out α} {f : α → RW → Out β} {b : β} {t : RW} (h : o.bind f = .ok b t) :
    ∃ a s, o = .ok a s ∧ f a s = .ok b t := by
  cases o with
  | ok a s => exact ⟨a, s, rfl, h⟩
  | exc => cases h
  | ub => cases h

theorem PC.field {c : Cell} (h : ¬ Cell.isHole c) : PC c := fun k => absurd k h
theorem PC.units {c : Cell} (h : Cell.units c ≠ 0) : PC c := fun _ k => absurd k h
theorem PC.lo {c : Cell} (h : c.lo = 0) : PC c := fun _ _ => h

theorem holeWord_units {n : Nat} (h : n ≤ 2047) : holeWord n % 2048 = n := by unfold holeWord; omega

theorem PN.mono {X Y : Nat → Prop} {s : RW} (h : PN X s) (hxy : ∀ a, X a → Y a) : PN Y s :=
  fun a h1 h2 h3 => h a h1 h2 fun k => h3 (hxy a k)

/-- Only the cells `a` with `Y a` changed. -/
theorem PN.change {X Y : Nat → Prop} {s t : RW} (h : PN X s) (hh : s.head ≤ t.head) (hp : t.pivot = s.pivot)
    (hm : ∀ b, ¬ Y b → t.mem b = s.mem b) : PN (fun b => X b ∨ Y b) t := by
  intro a h1 h2 h3
  rw [hm a fun k => h3 (Or.inr k)]
  exact h a (by omega) (by omega) fun k => h3 (Or.inl k)

theorem PN.fix {X : Nat → Prop} {s : RW} {a : Nat} (h : PN (fun b => X b ∨ b = a) s) (ha : PC (s.mem a)) : PN X s := by
  intro b h1 h2 h3
  by_cases c : b = a
  · rw [c]; exact ha
  · exact h b h1 h2 (by rintro (k | k) <;> contradiction)

theorem PN.cell {X : Nat → Prop} {s : RW} (h : PN X s) (a : Nat) (c : Cell) : PN (fun b => X b ∨ b = a) (s.setCell a c) :=
  h.change le_rfl rfl fun b hb => mem_setCell_ne s c hb

/-- Writing a good cell. -/
theorem PN.put {X : Nat → Prop} {s : RW} {a : Nat} {c : Cell} (h : PN (fun b => X b ∨ b = a) s) (hc : PC c) : PN X (s.setCell a c) := by
  refine PN.fix (a := a) ?_ (by rw [mem_setCell_same]; exact hc)
  refine (h.cell a c).mono ?_
  rintro b ((k | k) | k)
  · exact Or.inl k
  · exact Or.inr k
  · exact Or.inr k

theorem PN.put' {X : Nat → Prop} {s : RW} {a : Nat} {c : Cell} (h : PN X s) (hc : PC c) : PN X (s.setCell a c) :=
  PN.put (h.mono fun _ => Or.inl) hc

theorem PN.purge {X : Nat → Prop} {s : RW} (h : PN X s) (a : Nat) : PN X (s.purge a) := h.put' (PC.lo rfl)

theorem PN.setUnits {X : Nat → Prop} {s t : RW} {a n : Nat} {u : Unit} (h : PN (fun b => X b ∨ b = a) s) (hn : n ≠ 0)
    (hs : s.setUnits a n = .ok u t) : PN X t ∧ t = s.setHi a (holeWord n) ∧ n ≤ 2047 := by
  unfold RW.setUnits at hs
  by_cases c : n > 2047
  · rw [if_pos c] at hs; cases hs
  · rw [if_neg c] at hs
    injection hs with _ hs
    subst hs
    refine ⟨PN.put h (PC.units ?_), rfl, by omega⟩
    show holeWord n % 2048 ≠ 0
    rw [holeWord_units (by omega)]; exact hn

theorem trim_mem (s : RW) : (trim s).mem = s.mem ∧ (trim s).pivot = s.pivot ∧ s.head ≤ (trim s).head := by
  have h := trim_head_gt s
  have key : (trim s).mem = s.mem ∧ (trim s).pivot = s.pivot := by
    clear h
    induction hk : s.pivot - s.head using Nat.strong_induction_on generalizing s with
    | _ k ih =>
      rw [trim]
      simp only
      split_ifs with c1 c2 c3 <;>
        first
        | exact ⟨rfl, rfl⟩
        | exact ih (s.pivot - (s.head + 1)) (by omega) { s with jc := sub16 s.jc 1, head := s.head + 1 } rfl
        | exact ih (s.pivot - (s.head + 1)) (by omega)
            { s with jc := sub16 s.jc 1, head := s.head + 1, jv := sub16 s.jv (Cell.units (s.mem (s.head + 1))), tail := s.tail - Cell.units (s.mem (s.head + 1)) } rfl
  exact ⟨key.1, key.2, by omega⟩

theorem trimIf_mem (s : RW) (a : Nat) : (trimIf s a).mem = s.mem ∧ (trimIf s a).pivot = s.pivot ∧ s.head ≤ (trimIf s a).head := by
  unfold trimIf
  split_ifs
  · exact trim_mem s
  · exact ⟨rfl, rfl, le_rfl⟩

theorem PN.same {X : Nat → Prop} {s t : RW} (h : PN X s) (ht : t.mem = s.mem ∧ t.pivot = s.pivot ∧ s.head ≤ t.head) : PN X t := by
  intro a h1 h2 h3
  rw [ht.1]
  exact h a (by omega) (by omega) h3

theorem PN.trimIf {X : Nat → Prop} {s : RW} (h : PN X s) (a : Nat) : PN X (trimIf s a) := h.same (trimIf_mem s a)
theorem PN.trim {X : Nat → Prop} {s : RW} (h : PN X s) : PN X (trim s) := h.same (trim_mem s)

theorem indexAlloc_pure {X : Nat → Prop} {s t : RW} {n a : Nat} (h : PN X s) (hs : indexAlloc s n = .ok a t) :
    PN (fun b => X b ∨ b = a) t ∧ t.mem = s.mem ∧ t.pivot = s.pivot := by
  unfold indexAlloc at hs
  cases hl : (if s.jc > 0 then s.lookup (holeWord 0) else none) with
  | some x =>
    rw [hl] at hs
    injection hs with _ hs
    rw [← hs]
    refine ⟨?_, rfl, rfl⟩
    exact PN.same (h.mono fun _ => Or.inl) ⟨rfl, rfl, le_rfl⟩
  | none =>
    rw [hl] at hs
    simp only at hs
    by_cases c : s.head < 1
    · rw [if_pos c] at hs; cases hs
    · rw [if_neg c] at hs
      injection hs with ha hs
      subst hs
      refine ⟨fun b h1 h2 h3 => h b ?_ h2 fun k => h3 (Or.inl k), rfl, rfl⟩
      have h1 : s.head - 1 ≤ b := h1
      have : b ≠ a := fun k => h3 (Or.inr k)
      omega

theorem tailAlloc_pure {X : Nat → Prop} {s t : RW} {n p : Nat} (h : PN X s) (hs : tailAlloc s n = .ok p t) : PN X t := by
  unfold tailAlloc at hs
  split_ifs at hs
  injection hs with _ hs
  subst hs
  exact h

theorem allocDataAt_pure {X : Nat → Prop} {s t : RW} {n p : Nat} {o : Option Nat} (h : PN X s) (hs : allocDataAt s n o = .ok p t) : PN X t := by
  unfold allocDataAt at hs
  cases o with
  | none => exact tailAlloc_pure h hs
  | some x =>
    simp only at hs
    by_cases c : s.units x - n = 0
    · rw [if_pos c] at hs
      injection hs with _ hs
      subst hs
      exact (PN.purge (s := { s with jv := sub16 s.jv n }) h x).trimIf x
    · rw [if_neg c] at hs
      obtain ⟨u, s2, h1, h2⟩ := Out.bind_ok hs
      injection h2 with _ h2
      subst h2
      exact (PN.setUnits (PN.cell (s := { s with jv := sub16 s.jv n }) h x _) c h1).1

theorem allocLoose_pure {X : Nat → Prop} {fixed : Bool} {s t : RW} {tag n a : Nat} (ht : tag % 65536 / 2048 ≠ 31) (h : PN X s)
    (hs : allocLooseWith fixed s tag n = .ok a t) : PN X t := by
  unfold allocLooseWith at hs
  by_cases c0 : n = 0
  · rw [if_pos c0] at hs
    obtain ⟨b, s1, h1, h2⟩ := Out.bind_ok hs
    injection h2 with _ h2
    subst h2
    exact PN.put (indexAlloc_pure h h1).1 (PC.lo rfl)
  · rw [if_neg c0] at hs
    cases hl : lookupBest s n with
    | none => rw [hl] at hs; cases hs
    | some o =>
      rw [hl] at hs
      cases o with
      | none =>
        simp only at hs
        by_cases c1 : s.lim - s.tail < n
        · rw [if_pos c1] at hs; cases hs
        · rw [if_neg c1] at hs
          obtain ⟨b, s1, h1, h2⟩ := Out.bind_ok hs
          injection h2 with _ h2
          subst h2
          have k := (indexAlloc_pure h h1).1
          show PN X ((s1.setHi b (tag % 65536)).setPayload b s1.tail)
          refine PN.put ?_ (PC.field ?_)
          · exact (k.cell b _).mono (by rintro x ((k | k) | k) <;> simp [k])
          · show ¬ ((s1.setHi b (tag % 65536)).mem b).hi / 2048 = 31
            rw [mem_setHi_same]; exact ht
      | some x =>
        simp only at hs
        by_cases c1 : s.units x - n = 0
        · rw [if_pos c1] at hs
          injection hs with _ hs
          rw [← hs]
          refine PN.put' ?_ (PC.field ht)
          exact h.same ⟨rfl, rfl, le_rfl⟩
        · rw [if_neg c1] at hs
          obtain ⟨b, s1, h1, h2⟩ := Out.bind_ok hs
          obtain ⟨u, s2, h3, h4⟩ := Out.bind_ok h2
          injection h4 with _ h4
          subst h4
          have k := (indexAlloc_pure h h1).1
          have k1 : PN X ((s1.setHi b (tag % 65536)).setPayload b (s1.start x)) := by
            refine PN.put ?_ (PC.field ?_)
            · exact (k.cell b _).mono (by rintro x ((k | k) | k) <;> simp [k])
            · show ¬ ((s1.setHi b (tag % 65536)).mem b).hi / 2048 = 31
              rw [mem_setHi_same]; exact ht
          exact (PN.setUnits (k1.cell x _) c1 h3).1

theorem mergeHoles_pure {X : Nat → Prop} {s t : RW} {f g r : Nat} (h : PN X s) (hfg : f ≠ g) (hu : s.units f + s.units g ≠ 0)
    (hs : mergeHoles s f g = .ok r t) : PN X t ∧ (r = f ∨ r = g) ∧ t.units r = s.units f + s.units g := by
  unfold mergeHoles at hs
  simp only at hs
  by_cases c : f ≠ s.head
  · rw [if_pos c] at hs
    obtain ⟨u, s1, h1, h2⟩ := Out.bind_ok hs
    obtain ⟨k1, k2, k3⟩ := PN.setUnits (h.mono fun _ => Or.inl) hu h1
    injection h2 with hr h2
    subst h2
    subst hr
    refine ⟨(k1.purge g).trimIf g, Or.inl rfl, ?_⟩
    show Cell.units ((trimIf (s1.purge g) g).mem f) = _
    rw [(trimIf_mem _ _).1, mem_purge_ne _ hfg, k2, mem_setHi_same]
    exact holeWord_units k3
  · rw [if_neg c] at hs
    obtain ⟨u, s1, h1, h2⟩ := Out.bind_ok hs
    obtain ⟨k1, k2, k3⟩ := PN.setUnits (h.cell g _) hu h1
    injection h2 with hr h2
    subst h2
    subst hr
    refine ⟨(k1.purge f).trim, Or.inr rfl, ?_⟩
    show Cell.units ((trim (s1.purge f)).mem g) = _
    rw [(trim_mem _).1, mem_purge_ne _ hfg.symm, k2, mem_setHi_same]
    exact holeWord_units k3

theorem scanHoles_inv {σ : Type} {s : RW} {f : σ → Nat → σ} {P : σ → Prop} (hf : ∀ acc a, P acc → P (f acc a)) :
    ∀ (k scan left : Nat) (acc r : σ), s.pivot - scan = k → P acc → scanHoles s f scan left acc = some r → P r := by
  intro k
  induction k with
  | zero =>
    intro scan left acc r hk hP h
    rw [scanHoles] at h
    split_ifs at h with c1 c2
    · injection h with h; exact h ▸ hP
    · omega
    · omega
  | succ k ih =>
    intro scan left acc r hk hP h
    rw [scanHoles] at h
    split_ifs at h with c1 c2
    · injection h with h; exact h ▸ hP
    · exact ih _ _ _ _ (by omega) (hf _ _ hP) h
    · exact ih _ _ _ _ (by omega) hP h

/-- What `lookup_adjacent_holes` returns, without assumptions about the state. -/
theorem adjacent_raw {s : RW} {b e : Nat} {x y : Option Nat} (h : lookupAdjacent s b e = some (x, y)) :
    (∀ z, x = some z → s.units z ≠ 0 ∧ s.holeEnd z = b) ∧ (∀ z, y = some z → s.units z ≠ 0 ∧ s.start z = e) := by
  unfold lookupAdjacent at h
  refine scanHoles_inv (P := fun ba : Option Nat × Option Nat => (∀ z, ba.1 = some z → s.units z ≠ 0 ∧ s.holeEnd z = b) ∧
    (∀ z, ba.2 = some z → s.units z ≠ 0 ∧ s.start z = e)) ?_ _ _ _ _ _ rfl ⟨by simp, by simp⟩ h
  rintro ⟨u, v⟩ a ⟨h1, h2⟩
  by_cases c : s.units a ≠ 0
  · rw [if_pos c]
    refine ⟨fun z hz => ?_, fun z hz => ?_⟩
    · simp only at hz
      by_cases c2 : s.holeEnd a = b
      · rw [if_pos c2] at hz; injection hz with hz; subst hz; exact ⟨c, c2⟩
      · rw [if_neg c2] at hz; exact h1 z hz
    · simp only at hz
      by_cases c2 : e = s.start a
      · rw [if_pos c2] at hz; injection hz with hz; subst hz; exact ⟨c, c2.symm⟩
      · rw [if_neg c2] at hz; exact h2 z hz
  · rw [if_neg c]; exact ⟨h1, h2⟩

theorem releaseLoose_pure {X : Nat → Prop} {s t : RW} {a n : Nat} {u : Unit} (h : PN X s) (hs : releaseLoose s a n = .ok u t) : PN X t := by
  unfold releaseLoose at hs
  simp only at hs
  by_cases c0 : n = 0
  · rw [if_pos c0] at hs
    injection hs with _ hs
    subst hs
    exact (PN.purge (s := { s with jc := add16 s.jc 1 }) h a).trimIf a
  · rw [if_neg c0] at hs
    obtain ⟨u1, s1, h1, h2⟩ := Out.bind_ok hs
    obtain ⟨k1, k2, k3⟩ := PN.setUnits (PN.mono (s := { s with jc := add16 s.jc 1 }) h fun _ => Or.inl) c0 h1
    generalize hs2 : ({ s1 with jv := add16 s1.jv n } : RW) = s2 at h2
    have p2 : PN X s2 := by rw [← hs2]; exact k1
    have ua : s2.units a = n := by
      rw [← hs2]
      show Cell.units (s1.mem a) = n
      rw [k2, mem_setHi_same]
      exact holeWord_units k3
    cases hl : lookupAdjacent s2 (s2.start a) (s2.holeEnd a) with
    | none => rw [hl] at h2; cases h2
    | some ba =>
      obtain ⟨before, after⟩ := ba
      rw [hl] at h2
      obtain ⟨r1, r2⟩ := adjacent_raw hl
      simp only at h2
      obtain ⟨r, s3, h3, h4⟩ := Out.bind_ok h2
      obtain ⟨q, s4, h5, h6⟩ := Out.bind_ok h4
      have p3 : PN X s3 ∧ (r = a ∨ before = some r) ∧ s3.units r ≠ 0 := by
        cases before with
        | none =>
          injection h3 with e1 e2
          subst e2; subst e1
          exact ⟨p2, Or.inl rfl, by omega⟩
        | some b =>
          have hb := r1 b rfl
          have hne : b ≠ a := by
            intro e; subst e
            have := hb.2
            unfold RW.holeEnd at this
            omega
          obtain ⟨m1, m2, m3⟩ := mergeHoles_pure p2 hne (by omega) h3
          exact ⟨m1, m2.symm.imp id (fun e => by rw [e]), by omega⟩
      have p4 : PN X s4 := by
        cases after with
        | none => injection h5 with e1 e2; subst e2; exact p3.1
        | some c =>
          have hc := r2 c rfl
          have hne : r ≠ c := by
            intro e; subst e
            have h7 := hc.2
            unfold RW.holeEnd at h7
            rcases p3.2.1 with e | e
            · subst e; omega
            · have := (r1 r e).2
              unfold RW.holeEnd at this
              omega
          exact (mergeHoles_pure p3.1 hne (by omega) h5).1
      by_cases c2 : s4.holeEnd q ≠ s4.tail
      · rw [if_pos c2] at h6
        injection h6 with _ h6
        subst h6; exact p4
      · rw [if_neg c2] at h6
        injection h6 with _ h6
        subst h6
        exact (PN.purge (s := { s4 with tail := s4.tail - s4.units q, jv := sub16 s4.jv (s4.units q) }) p4 q).trimIf q

theorem releaseDataAt_pure {X : Nat → Prop} {s t : RW} {chunk n : Nat} {before after hole0 res : Option Nat} (h : PN X s) (hn : n ≠ 0)
    (hba : ∀ b c, before = some b → after = some c → b ≠ c) (hs : releaseDataAt s chunk n before after hole0 = .ok res t) : PN X t := by
  unfold releaseDataAt at hs
  simp only at hs
  by_cases c0 : chunk + n = s.tail
  · rw [if_pos c0] at hs
    cases before with
    | none => injection hs with _ hs; subst hs; exact h
    | some b =>
      injection hs with _ hs
      subst hs
      exact PN.trimIf (PN.purge (s := { s with tail := s.tail - n - s.units b, jv := sub16 s.jv (s.units b) }) h b) b
  · rw [if_neg c0] at hs
    generalize hs1 : ({ s with jv := add16 s.jv n } : RW) = s1 at hs
    have p1 : PN X s1 := by rw [← hs1]; exact h
    cases before with
    | none =>
      cases after with
      | none =>
        simp only at hs
        obtain ⟨x, s2, h1, h2⟩ := Out.bind_ok hs
        obtain ⟨u, s3, h3, h4⟩ := Out.bind_ok h2
        injection h4 with _ h4
        subst h4
        have p2 : PN (fun b => X b ∨ b = x) s2 := by
          cases hole0 with
          | some z => injection h1 with e1 e2; subst e2; exact p1.mono fun _ => Or.inl
          | none =>
            obtain ⟨y, s4, h5, h6⟩ := Out.bind_ok h1
            injection h6 with e1 e2
            subst e2; subst e1
            exact (indexAlloc_pure p1 h5).1
        obtain ⟨k1, k2, k3⟩ := PN.setUnits p2 hn h3
        refine PN.put' k1 (PC.units ?_)
        show Cell.units ⟨_, (s3.mem x).hi⟩ ≠ 0
        rw [k2, mem_setHi_same]
        show holeWord n % 2048 ≠ 0
        rw [holeWord_units k3]; exact hn
      | some c =>
        simp only at hs
        obtain ⟨u, s2, h1, h2⟩ := Out.bind_ok hs
        injection h2 with _ h2
        subst h2
        exact (PN.setUnits (p1.cell c _) (by omega) h1).1
    | some b =>
      cases after with
      | none =>
        simp only at hs
        obtain ⟨u, s2, h1, h2⟩ := Out.bind_ok hs
        injection h2 with _ h2
        subst h2
        exact (PN.setUnits (p1.mono fun _ => Or.inl) (by omega) h1).1
      | some c =>
        simp only at hs
        obtain ⟨u, s2, h1, h2⟩ := Out.bind_ok hs
        obtain ⟨r, s3, h3, h4⟩ := Out.bind_ok h2
        injection h4 with _ h4
        subst h4
        obtain ⟨k1, k2, k3⟩ := PN.setUnits (p1.mono fun _ => Or.inl) (by omega) h1
        have : s2.units b ≠ 0 := by
          show Cell.units (s2.mem b) ≠ 0
          rw [k2, mem_setHi_same]
          show holeWord _ % 2048 ≠ 0
          rw [holeWord_units k3]; omega
        exact (mergeHoles_pure k1 (hba b c rfl rfl) (by omega) h3).1

theorem adjacent_apart {s : RW} {b n : Nat} {x y : Option Nat} (hn : n ≠ 0) (h : lookupAdjacent s b (b + n) = some (x, y)) :
    ∀ u v, x = some u → y = some v → u ≠ v := by
  intro u v hu hv e
  subst e
  obtain ⟨r1, r2⟩ := adjacent_raw h
  have h1 := (r1 u hu).2
  have h2 := (r2 u hv).2
  unfold RW.holeEnd at h1
  omega

theorem releaseData_pure {X : Nat → Prop} {s t : RW} {chunk n : Nat} {u : Unit} (h : PN X s) (hn : n ≠ 0)
    (hs : releaseData s chunk n = .ok u t) : PN X t := by
  unfold releaseData at hs
  cases hl : lookupAdjacent s chunk (chunk + n) with
  | none => rw [hl] at hs; cases hs
  | some ba =>
    obtain ⟨b, c⟩ := ba
    rw [hl] at hs
    simp only at hs
    obtain ⟨r, s1, h1, h2⟩ := Out.bind_ok hs
    injection h2 with _ h2
    subst h2
    exact releaseDataAt_pure h hn (adjacent_apart hn hl) h1

theorem allocData_pure {X : Nat → Prop} {s t : RW} {n p : Nat} (h : PN X s) (hs : allocData s n = .ok p t) : PN X t := by
  unfold allocData at hs
  cases hl : lookupBest s n with
  | none => rw [hl] at hs; cases hs
  | some o => rw [hl] at hs; exact allocDataAt_pure h hs

theorem PN.payload {ref : Nat} {s : RW} (h : PN (fun b => b = ref) s) (p : Nat) : PN (fun b => b = ref) (s.setPayload ref p) :=
  (h.cell ref _).mono (by rintro x (k | k) <;> exact k)

theorem releaseAndAlloc_pure {s t : RW} {ref n needed p : Nat} {before after h4r h4a : Option Nat} (h : PN (fun b => b = ref) s)
    (hn : n ≠ 0) (hba : ∀ b c, before = some b → after = some c → b ≠ c)
    (hs : releaseAndAlloc s ref n needed before after h4r h4a = .ok p t) : PN (fun b => b = ref) t := by
  unfold releaseAndAlloc at hs
  obtain ⟨r, s1, h1, h2⟩ := Out.bind_ok hs
  obtain ⟨q, s2, h3, h4⟩ := Out.bind_ok h2
  obtain ⟨x, s3, h5, h6⟩ := Out.bind_ok h4
  injection h6 with _ h6
  subst h6
  have p1 := releaseDataAt_pure h hn hba h1
  have e : s2 = s1 := by
    cases h4a with
    | none =>
      simp only at h3
      cases hl : lookupBest s1 needed with
      | none => rw [hl] at h3; cases h3
      | some o => rw [hl] at h3; injection h3 with _ h3; exact h3.symm
    | some y =>
      simp only at h3
      by_cases c : y ≥ s1.head ∧ s1.units y ≠ 0
      · rw [if_pos c] at h3; injection h3 with _ h3; exact h3.symm
      · rw [if_neg c] at h3
        cases hl : lookupBest s1 needed with
        | none => rw [hl] at h3; cases h3
        | some o => rw [hl] at h3; injection h3 with _ h3; exact h3.symm
  subst e
  exact (allocDataAt_pure p1 h5).payload x

theorem realloc_pure {fixed : Bool} {s t : RW} {ref n needed p : Nat} (h : PN (fun b => b = ref) s) (hn : n ≠ 0) (hne : needed ≠ n)
    (hs : reallocDataWith fixed s ref n needed = .ok p t) : PN (fun b => b = ref) t := by
  unfold reallocDataWith at hs
  by_cases c0 : s.jv = 0
  · rw [if_pos c0] at hs
    by_cases c1 : s.start ref + n = s.tail
    · rw [if_pos c1] at hs
      by_cases c2 : n < needed ∧ s.lim - s.tail < needed - n
      · rw [if_pos c2] at hs; cases hs
      · rw [if_neg c2] at hs
        injection hs with _ hs
        subst hs; exact h
    · rw [if_neg c1] at hs
      by_cases c2 : needed > n
      · rw [if_pos c2] at hs
        by_cases c3 : s.lim - s.tail < needed ∨ s.head + s.jc < 1
        · rw [if_pos c3] at hs; cases hs
        · rw [if_neg c3] at hs
          obtain ⟨x, s1, h1, h2⟩ := Out.bind_ok hs
          obtain ⟨u, s2, h3, h4⟩ := Out.bind_ok h2
          simp only at h4
          obtain ⟨q, s3, h5, h6⟩ := Out.bind_ok h4
          injection h6 with _ h6
          subst h6
          obtain ⟨k1, k2, k3⟩ := PN.setUnits (indexAlloc_pure h h1).1 hn h3
          refine PN.payload ?_ _
          refine tailAlloc_pure ?_ h5
          show PN _ (s2.setPayload x (s2.start ref))
          refine PN.put' k1 (PC.units ?_)
          show Cell.units ⟨_, (s2.mem x).hi⟩ ≠ 0
          rw [k2, mem_setHi_same]
          show holeWord n % 2048 ≠ 0
          rw [holeWord_units k3]; exact hn
      · rw [if_neg c2] at hs
        obtain ⟨x, s1, h1, h2⟩ := Out.bind_ok hs
        obtain ⟨u, s2, h3, h4⟩ := Out.bind_ok h2
        simp only at h4
        injection h4 with _ h4
        subst h4
        obtain ⟨k1, k2, k3⟩ := PN.setUnits (indexAlloc_pure h h1).1 (by omega) h3
        show PN _ (s2.setPayload x (s2.start ref + needed))
        refine PN.put' k1 (PC.units ?_)
        show Cell.units ⟨_, (s2.mem x).hi⟩ ≠ 0
        rw [k2, mem_setHi_same]
        show holeWord _ % 2048 ≠ 0
        rw [holeWord_units k3]; omega
  · rw [if_neg c0] at hs
    cases hl : lookupAdjacent s (s.start ref) (s.start ref + n) with
    | none => rw [hl] at hs; cases hs
    | some ba =>
      obtain ⟨before, after⟩ := ba
      rw [hl] at hs
      have hba := adjacent_apart hn hl
      simp only at hs
      by_cases c1 : n < needed ∧ n + (optUnits s before + optUnits s after) ≥ needed
      · rw [if_pos c1] at hs; exact releaseAndAlloc_pure h hn hba hs
      rw [if_neg c1] at hs
      generalize (if optUnits s before + optUnits s after > 0 ∨ s.head > 0 then none else (lookupExact s 0).join) = h4r at hs
      by_cases c2 : ¬ (optUnits s before + optUnits s after > 0 ∨ s.head > 0 ∨ h4r.isSome = true)
      · rw [if_pos c2] at hs
        cases he : lookupExact s needed with
        | none => rw [he] at hs; cases hs
        | some o =>
          rw [he] at hs
          cases o with
          | none =>
            simp only at hs
            split_ifs at hs
            injection hs with _ hs
            subst hs; exact h
          | some x =>
            simp only at hs
            obtain ⟨u, s3, h3, h4⟩ := Out.bind_ok hs
            have p2 := (PN.setUnits ((h.payload (s.start x)).cell x _) hn h3).1
            have p3 : PN (fun b => b = ref) { s3 with jv := (s3.jv + (65536 + n - needed)) % 65536 } := p2
            by_cases c3 : (if fixed = true then s.start ref + n else s.start ref) = s3.tail
            · rw [if_pos c3] at h4
              injection h4 with _ h4
              subst h4
              exact PN.trimIf (PN.purge (s := { s3 with tail := s3.tail - n, jv := sub16 ((s3.jv + (65536 + n - needed)) % 65536) n }) p3 x) x
            · rw [if_neg c3] at h4
              injection h4 with _ h4
              subst h4; exact p3
      · rw [if_neg c2] at hs
        by_cases c3 : n > needed ∨ needed ≤ s.lim - s.tail
        · rw [if_pos c3] at hs; exact releaseAndAlloc_pure h hn hba hs
        · rw [if_neg c3] at hs
          cases he : lookupBest s needed with
          | none => rw [he] at hs; cases hs
          | some o =>
            rw [he] at hs
            cases o with
            | none => cases hs
            | some x => exact releaseAndAlloc_pure h hn hba hs

end Fptu.Gear
