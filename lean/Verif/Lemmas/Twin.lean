import Verif.Lemmas.GearPure
/-!
# Two runs of the allocator on memories which agree on the used part of the buffer

`D` collects the units which are known to be the same in both runs. The other units still have their original content.
-/
namespace Fptu.Gear

/-- What both runs start from and what no operation changes. -/
structure Ctx where
  m : Memory
  m' : Memory
  pivot : Nat
  pre : Nat
  lim : Nat

structure Twin (K : Ctx) (D : Nat → Prop) (s s' : RW) : Prop where
  same : s' = { s with mem := s'.mem }
  pivot : s.pivot = K.pivot
  pre : s.pre = K.pre
  lim : s.lim = K.lim
  hp : s.head ≤ K.pivot
  pl : K.pivot ≤ K.lim
  tl : s.tail ≤ K.lim
  eq : ∀ u, D u → s'.mem u = s.mem u
  out : ∀ u, ¬ D u → s.mem u = K.m u ∧ s'.mem u = K.m' u
  bd : ∀ u, D u → u < K.lim

/-- All units in use belong to `D`, except those in `X`. -/
def Cov (X D : Nat → Prop) (s : RW) : Prop := ∀ u, s.head ≤ u → (u < s.pivot ∨ u < s.tail) → D u ∨ X u

abbrev none' : Nat → Prop := fun _ => False

/-- Both runs end in the same way. -/
def Sim {α : Type} (K : Ctx) (D : Nat → Prop) (P : α → RW → (Nat → Prop) → Prop) : Out α → Out α → Prop
  | .ok a s, .ok b s' => b = a ∧ ∃ D', (∀ u, D u → D' u) ∧ Twin K D' s s' ∧ P a s D'
  | .exc e s, .exc e' s' => e' = e ∧ ∃ D', (∀ u, D u → D' u) ∧ Twin K D' s s' ∧ Cov none' D' s
  | .ub, .ub => True
  | _, _ => False

variable {K : Ctx} {D : Nat → Prop} {s s' : RW} {α β : Type}

theorem Twin.ex (h : Twin K D s s') : ∃ m', s' = { s with mem := m' } := ⟨_, h.same⟩

theorem Sim.ok {P : α → RW → (Nat → Prop) → Prop} {a : α} {D' : Nat → Prop} (hm : ∀ u, D u → D' u) (h : Twin K D' s s') (hp : P a s D') :
    Sim K D P (.ok a s) (.ok a s') := ⟨rfl, D', hm, h, hp⟩
theorem Sim.exc {P : α → RW → (Nat → Prop) → Prop} {e : Exc} (h : Twin K D s s') (hc : Cov none' D s) :
    Sim K D P (.exc e s) (.exc e s') := ⟨rfl, D, fun _ h => h, h, hc⟩
theorem Sim.ub {P : α → RW → (Nat → Prop) → Prop} : Sim K D P (.ub) (.ub) := trivial

theorem Sim.mono {P Q : α → RW → (Nat → Prop) → Prop} {o o' : Out α} {D1 : Nat → Prop} (hm : ∀ u, D u → D1 u) (h : Sim K D1 P o o')
    (hpq : ∀ a s D', P a s D' → Q a s D') : Sim K D Q o o' := by
  cases o <;> cases o' <;> first | exact h.elim | skip
  · obtain ⟨e, D', h1, h2, h3⟩ := h
    exact ⟨e, D', fun u hu => h1 u (hm u hu), h2, hpq _ _ _ h3⟩
  · obtain ⟨e, D', h1, h2, h3⟩ := h
    exact ⟨e, D', fun u hu => h1 u (hm u hu), h2, h3⟩
  · trivial

theorem Sim.bind {P : α → RW → (Nat → Prop) → Prop} {Q : β → RW → (Nat → Prop) → Prop} {o o' : Out α} {f f' : α → RW → Out β}
    (h : Sim K D P o o') (hf : ∀ a t t' D', (∀ u, D u → D' u) → Twin K D' t t' → P a t D' → Sim K D' Q (f a t) (f' a t')) :
    Sim K D Q (o.bind f) (o'.bind f') := by
  cases o <;> cases o' <;> first | exact h.elim | skip
  · obtain ⟨e, D', h1, h2, h3⟩ := h
    subst e
    exact Sim.mono h1 (hf _ _ _ _ h1 h2 h3) (fun _ _ _ h => h)
  · exact h
  · trivial

/-! ## Single changes -/

theorem Twin.scal (h : Twin K D s s') {t : RW} (hm : t.mem = s.mem) (hp : t.pivot = s.pivot) (hq : t.pre = s.pre) (hl : t.lim = s.lim)
    (hh : t.head ≤ K.pivot) (ht : t.tail ≤ K.lim) : Twin K D t { t with mem := s'.mem } where
  same := rfl
  pivot := hp.trans h.pivot
  pre := hq.trans h.pre
  lim := hl.trans h.lim
  hp := hh
  pl := h.pl
  tl := ht
  eq u hu := by rw [hm]; exact h.eq u hu
  out u hu := by rw [hm]; exact h.out u hu
  bd := h.bd

theorem Twin.put (h : Twin K D s s') {a : Nat} (ha : a < K.lim) (c : Cell) : Twin K (fun u => D u ∨ u = a) (s.setCell a c) (s'.setCell a c) where
  same := by obtain ⟨m', rfl⟩ := h.ex; rfl
  pivot := h.pivot
  pre := h.pre
  lim := h.lim
  hp := h.hp
  pl := h.pl
  tl := h.tl
  eq u hu := by
    show s'.mem.set a c u = s.mem.set a c u
    rw [Memory.set_apply, Memory.set_apply]
    by_cases e : u = a
    · rw [if_pos e, if_pos e]
    · rw [if_neg e, if_neg e]; exact h.eq u (hu.resolve_right e)
  out u hu := by
    have e : u ≠ a := fun e => hu (Or.inr e)
    have := h.out u (fun hd => hu (Or.inl hd))
    exact ⟨(Memory.set_ne _ _ e).trans this.1, (Memory.set_ne _ _ e).trans this.2⟩
  bd u hu := by
    rcases hu with hu | hu
    · exact h.bd u hu
    · rw [hu]; exact ha

theorem Twin.congr {D' : Nat → Prop} (h : Twin K D s s') (e : ∀ u, D' u ↔ D u) : Twin K D' s s' := by
  have : D' = D := funext fun u => propext (e u)
  rw [this]; exact h

theorem Twin.putIn (h : Twin K D s s') {a : Nat} (ha : D a) (c : Cell) : Twin K D (s.setCell a c) (s'.setCell a c) :=
  (h.put (h.bd a ha) c).congr fun _ => ⟨Or.inl, fun hu => hu.elim id (fun e => e ▸ ha)⟩

theorem Twin.setHi (h : Twin K D s s') {a : Nat} (ha : D a) (w : Nat) : Twin K D (s.setHi a w) (s'.setHi a w) := by
  have := h.putIn ha ⟨(s.mem a).lo, w⟩
  unfold RW.setHi
  rw [h.eq a ha]; exact this
theorem Twin.setLo (h : Twin K D s s') {a : Nat} (ha : D a) (l : Nat) : Twin K D (s.setLo a l) (s'.setLo a l) := by
  have := h.putIn ha ⟨l, (s.mem a).hi⟩
  unfold RW.setLo
  rw [h.eq a ha]; exact this
theorem Twin.setPayload (h : Twin K D s s') {a : Nat} (ha : D a) (p : Nat) : Twin K D (s.setPayload a p) (s'.setPayload a p) := h.setLo ha _
theorem Twin.addDelta (h : Twin K D s s') {a : Nat} (ha : D a) (d : Nat) : Twin K D (s.addDelta a d) (s'.addDelta a d) := by
  unfold RW.addDelta; rw [h.eq a ha]; exact h.setLo ha _
theorem Twin.subDelta (h : Twin K D s s') {a : Nat} (ha : D a) (d : Nat) : Twin K D (s.subDelta a d) (s'.subDelta a d) := by
  unfold RW.subDelta; rw [h.eq a ha]; exact h.setLo ha _
theorem Twin.purge (h : Twin K D s s') {a : Nat} (ha : D a) : Twin K D (s.purge a) (s'.purge a) := h.putIn ha _

theorem Twin.units (h : Twin K D s s') {a : Nat} (ha : D a) : s'.units a = s.units a := by show Cell.units (s'.mem a) = _; rw [h.eq a ha]
theorem Twin.start (h : Twin K D s s') {a : Nat} (ha : D a) : s'.start a = s.start a := by show a + (s'.mem a).lo = _; rw [h.eq a ha]
theorem Twin.holeEnd (h : Twin K D s s') {a : Nat} (ha : D a) : s'.holeEnd a = s.holeEnd a := by
  show s'.start a + s'.units a = _; rw [h.units ha, h.start ha]
theorem Twin.head (h : Twin K D s s') : s'.head = s.head := by rw [h.same]
theorem Twin.tail (h : Twin K D s s') : s'.tail = s.tail := by rw [h.same]
theorem Twin.jc (h : Twin K D s s') : s'.jc = s.jc := by rw [h.same]
theorem Twin.jv (h : Twin K D s s') : s'.jv = s.jv := by rw [h.same]
theorem Twin.piv (h : Twin K D s s') : s'.pivot = s.pivot := by rw [h.same]
theorem Twin.lm (h : Twin K D s s') : s'.lim = s.lim := by rw [h.same]

theorem Cov.idx (h : Cov none' D s) {a : Nat} (h1 : s.head ≤ a) (h2 : a < s.pivot) : D a := (h a h1 (Or.inl h2)).resolve_right id
theorem Cov.data (h : Cov none' D s) {a : Nat} (h1 : s.head ≤ a) (h2 : a < s.tail) : D a := (h a h1 (Or.inr h2)).resolve_right id
theorem Cov.sub {X D D' : Nat → Prop} {s t : RW} (h : Cov X D s) (hD : ∀ u, D u → D' u) (h1 : s.head ≤ t.head) (h2 : t.pivot = s.pivot) (h3 : t.tail ≤ s.tail) :
    Cov X D' t := by
  intro u hu hr
  refine (h u (by omega) ?_).imp_left (hD u)
  rw [h2] at hr; rcases hr with hr | hr
  · exact Or.inl hr
  · exact Or.inr (by omega)
theorem Cov.weaken {X Y D : Nat → Prop} {s : RW} (h : Cov X D s) (hx : ∀ u, X u → D u ∨ Y u) : Cov Y D s :=
  fun u h1 h2 => (h u h1 h2).elim Or.inl (hx u)

/-- A cell which may be given to the functions as an index entry. -/
def Idx (K : Ctx) (D : Nat → Prop) (o : Option Nat) : Prop := ∀ a, o = some a → a < K.pivot ∧ D a

theorem Idx.none : Idx K D .none := fun _ h => by cases h
theorem Idx.mono {D' : Nat → Prop} {o : Option Nat} (h : Idx K D o) (hm : ∀ u, D u → D' u) : Idx K D' o := fun a ha => ⟨(h a ha).1, hm a (h a ha).2⟩

/-! ## Searching -/

theorem lookupFrom_eq {m m' : Memory} {e : Nat} (w : Nat) : ∀ a, (∀ u, a ≤ u → u < e → m' u = m u) → lookupFrom m' w e a = lookupFrom m w e a := by
  intro a
  induction hn : e - a generalizing a with
  | zero =>
    intro _
    rw [lookupFrom.eq_1 m', lookupFrom.eq_1 m, if_neg (by omega), if_neg (by omega)]
  | succ n ih =>
    intro h
    rw [lookupFrom.eq_1 m', lookupFrom.eq_1 m, h a le_rfl (by omega), ih (a + 1) (by omega) (fun u h1 h2 => h u (by omega) h2)]

theorem lookupFrom_range {m : Memory} {e w : Nat} : ∀ a r, lookupFrom m w e a = some r → a ≤ r ∧ r < e := by
  intro a
  induction hn : e - a generalizing a with
  | zero =>
    intro r h
    rw [lookupFrom.eq_1, if_neg (by omega)] at h; cases h
  | succ n ih =>
    intro r h
    rw [lookupFrom.eq_1, if_pos (by omega)] at h
    by_cases c : (m a).hi = w
    · rw [if_pos c] at h
      have := Option.some.inj h
      omega
    · rw [if_neg c] at h
      have := ih (a + 1) (by omega) r h
      omega

theorem lookup_twin (h : Twin K D s s') (hc : Cov none' D s) (w : Nat) : s'.lookup w = s.lookup w ∧ Idx K D (s.lookup w) := by
  constructor
  · unfold RW.lookup
    rw [h.head, h.piv]
    exact lookupFrom_eq w _ fun u h1 h2 => h.eq u (hc.idx h1 h2)
  · intro a ha
    have := lookupFrom_range _ _ ha
    exact ⟨by rw [← h.pivot]; exact this.2, hc.idx this.1 this.2⟩

theorem scan_twin {σ : Type} {f f' : σ → Nat → σ} (I : σ → Prop) (h : Twin K D s s') (hc : Cov none' D s)
    (hf : ∀ acc a, I acc → a < K.pivot → D a → f' acc a = f acc a ∧ I (f acc a)) :
    ∀ scan left acc, s.head ≤ scan → I acc →
      scanHoles s' f' scan left acc = scanHoles s f scan left acc ∧ ∀ r, scanHoles s f scan left acc = some r → I r := by
  intro scan
  induction hn : s.pivot - scan generalizing scan with
  | zero =>
    intro left acc hs hi
    rw [scanHoles.eq_1 s', scanHoles.eq_1 s]
    by_cases c : left = 0
    · rw [if_pos c, if_pos c]
      exact ⟨rfl, fun r hr => Option.some.inj hr ▸ hi⟩
    · rw [if_neg c, if_neg c, h.piv, if_neg (by omega), if_neg (by omega)]
      exact ⟨rfl, fun r hr => by cases hr⟩
  | succ n ih =>
    intro left acc hs hi
    rw [scanHoles.eq_1 s', scanHoles.eq_1 s]
    by_cases c : left = 0
    · rw [if_pos c, if_pos c]
      exact ⟨rfl, fun r hr => Option.some.inj hr ▸ hi⟩
    · have hlt : scan < s.pivot := by omega
      have hd := hc.idx hs hlt
      obtain ⟨k1, k2⟩ := hf acc scan hi (by rw [← h.pivot]; exact hlt) hd
      have e : s'.isHole scan ↔ s.isHole scan := by
        show Cell.isHole (s'.mem scan) ↔ Cell.isHole (s.mem scan)
        rw [h.eq _ hd]
      rw [if_neg c, if_neg c, h.piv, if_pos hlt, if_pos hlt]
      by_cases c2 : s.isHole scan
      · rw [if_pos c2, if_pos (e.2 c2), k1]
        exact ih (scan + 1) (by omega) _ _ (by omega) k2
      · rw [if_neg c2, if_neg (fun hh => c2 (e.1 hh))]
        exact ih (scan + 1) (by omega) _ _ (by omega) hi

theorem bestFit_twin (h : Twin K D s s') {need r : Nat} {l : Option Nat} (hl : Idx K D l) (hr : D r) : bestFit s' need l r = bestFit s need l r := by
  unfold bestFit
  cases l with
  | none => rfl
  | some l =>
    have := (hl l rfl).2
    simp only
    rw [h.units this, h.units hr, h.start this, h.start hr]

theorem bestFit_idx {need r : Nat} {l : Option Nat} (hl : Idx K D l) (hr1 : r < K.pivot) (hr : D r) : Idx K D (some (bestFit s need l r)) := by
  intro a ha
  rw [← Option.some.inj ha]
  unfold bestFit
  cases l with
  | none => exact ⟨hr1, hr⟩
  | some l =>
    simp only
    split_ifs
    · exact hl l rfl
    · exact ⟨hr1, hr⟩
    · exact hl l rfl
    · exact ⟨hr1, hr⟩

theorem lookupBest_twin (h : Twin K D s s') (hc : Cov none' D s) (need : Nat) :
    lookupBest s' need = lookupBest s need ∧ ∀ r, lookupBest s need = some r → Idx K D r := by
  unfold lookupBest
  rw [h.jc, h.jv]
  by_cases c : s.jc < 1 ∨ s.jv < need
  · rw [if_pos c, if_pos c]
    exact ⟨rfl, fun r hr => Option.some.inj hr ▸ Idx.none⟩
  · rw [if_neg c, if_neg c, h.head]
    refine scan_twin (Idx K D) h hc (fun acc a hi ha hd => ?_) _ _ _ le_rfl Idx.none
    rw [h.units hd]
    by_cases c2 : s.units a ≥ need
    · rw [if_pos c2, if_pos c2, bestFit_twin h hi hd]
      exact ⟨rfl, bestFit_idx hi ha hd⟩
    · rw [if_neg c2, if_neg c2]
      exact ⟨rfl, hi⟩

theorem lookupExact_twin (h : Twin K D s s') (hc : Cov none' D s) (n : Nat) :
    lookupExact s' n = lookupExact s n ∧ ∀ r, lookupExact s n = some r → Idx K D r := by
  unfold lookupExact
  rw [h.jc, h.jv, (lookup_twin h hc _).1]
  refine ⟨rfl, fun r hr => ?_⟩
  by_cases c : s.jc < 1 ∨ s.jv < n
  · rw [if_pos c] at hr
    exact Option.some.inj hr ▸ Idx.none
  · rw [if_neg c] at hr
    by_cases c2 : n > 2047
    · rw [if_pos c2] at hr; cases hr
    · rw [if_neg c2] at hr
      exact Option.some.inj hr ▸ (lookup_twin h hc _).2

theorem lookupAdjacent_twin (h : Twin K D s s') (hc : Cov none' D s) (b e : Nat) :
    lookupAdjacent s' b e = lookupAdjacent s b e ∧ ∀ r, lookupAdjacent s b e = some r → Idx K D r.1 ∧ Idx K D r.2 := by
  unfold lookupAdjacent
  rw [h.head, h.jc]
  refine scan_twin (fun r : Option Nat × Option Nat => Idx K D r.1 ∧ Idx K D r.2) h hc (fun acc a hi ha hd => ?_) _ _ _ le_rfl ⟨Idx.none, Idx.none⟩
  rw [h.units hd, h.holeEnd hd, h.start hd]
  refine ⟨rfl, ?_⟩
  have ia : Idx K D (some a) := fun x hx => Option.some.inj hx ▸ ⟨ha, hd⟩
  split_ifs
  exacts [⟨ia, ia⟩, ⟨ia, hi.2⟩, ⟨hi.1, ia⟩, ⟨hi.1, hi.2⟩, hi]

/-! ## Allocation and release -/

/-- The rest of `trim` after the first entry is dropped. -/
private def trimRest (s1 : RW) : RW :=
  if s1.head < s1.pivot then
    if ¬ s1.isHole s1.head then s1
    else if s1.units s1.head = 0 then trim s1
    else if s1.holeEnd s1.head ≠ s1.tail then s1
    else trim { s1 with jv := sub16 s1.jv (s1.units s1.head), tail := s1.tail - s1.units s1.head }
  else s1
private theorem trim_rest (s : RW) : trim s = trimRest { s with jc := sub16 s.jc 1, head := s.head + 1 } := trim.eq_1 s

theorem trim_twin (h : Twin K D s s') (hc : Cov none' D s) (hlt : s.head < s.pivot) :
    Twin K D (trim s) (trim s') ∧ Cov none' D (trim s) := by
  induction hn : s.pivot - s.head generalizing s s' with
  | zero => omega
  | succ n ih =>
    rw [trim_rest s', trim_rest s]
    have hp := h.pivot
    set s1 : RW := { s with jc := sub16 s.jc 1, head := s.head + 1 } with hs1
    have e1 : ({ s' with jc := sub16 s'.jc 1, head := s'.head + 1 } : RW) = { s1 with mem := s'.mem } := by
      obtain ⟨m', rfl⟩ := h.ex; rfl
    have t1 : Twin K D s1 { s1 with mem := s'.mem } := h.scal rfl rfl rfl rfl (by show s.head + 1 ≤ _; omega) h.tl
    have c1 : Cov none' D s1 := hc.sub (fun _ h => h) (Nat.le_succ _) rfl le_rfl
    rw [e1]
    unfold trimRest
    by_cases a1 : s1.head < s1.pivot
    · rw [if_pos a1, if_pos (show ({ s1 with mem := s'.mem } : RW).head < ({ s1 with mem := s'.mem } : RW).pivot from a1)]
      have hd := c1.idx le_rfl a1
      have eh : ({ s1 with mem := s'.mem } : RW).isHole ({ s1 with mem := s'.mem } : RW).head ↔ s1.isHole s1.head := by
        show Cell.isHole (s'.mem s1.head) ↔ Cell.isHole (s1.mem s1.head)
        rw [show s'.mem s1.head = s1.mem s1.head from t1.eq _ hd]
      have eu : ({ s1 with mem := s'.mem } : RW).units ({ s1 with mem := s'.mem } : RW).head = s1.units s1.head := t1.units hd
      have ee : ({ s1 with mem := s'.mem } : RW).holeEnd ({ s1 with mem := s'.mem } : RW).head = s1.holeEnd s1.head := t1.holeEnd hd
      by_cases a2 : s1.isHole s1.head
      · rw [if_neg (not_not.2 a2), if_neg (not_not.2 (eh.2 a2)), eu, ee]
        by_cases a3 : s1.units s1.head = 0
        · rw [if_pos a3, if_pos a3]
          exact ih t1 c1 a1 (by show s.pivot - (s.head + 1) = n; omega)
        · rw [if_neg a3, if_neg a3]
          by_cases a4 : s1.holeEnd s1.head ≠ s1.tail
          · rw [if_pos a4, if_pos (show s1.holeEnd s1.head ≠ ({ s1 with mem := s'.mem } : RW).tail from a4)]
            exact ⟨t1, c1⟩
          · rw [if_neg a4, if_neg (show ¬ s1.holeEnd s1.head ≠ ({ s1 with mem := s'.mem } : RW).tail from a4)]
            have htl := h.tl
            refine ih (s := { s1 with jv := sub16 s1.jv (s1.units s1.head), tail := s1.tail - s1.units s1.head })
              (t1.scal rfl rfl rfl rfl t1.hp (by show s.tail - _ ≤ _; omega)) (c1.sub (fun _ h => h) le_rfl rfl (Nat.sub_le _ _)) a1
              (by show s.pivot - (s.head + 1) = n; omega)
      · rw [if_pos a2, if_pos (fun hh => a2 (eh.1 hh))]
        exact ⟨t1, c1⟩
    · rw [if_neg a1, if_neg (show ¬ ({ s1 with mem := s'.mem } : RW).head < ({ s1 with mem := s'.mem } : RW).pivot from a1)]
      exact ⟨t1, c1⟩

theorem trimIf_twin (h : Twin K D s s') (hc : Cov none' D s) {a : Nat} (ha : a < K.pivot) :
    Twin K D (trimIf s a) (trimIf s' a) ∧ Cov none' D (trimIf s a) := by
  unfold trimIf
  rw [h.head]
  by_cases c : a = s.head
  · rw [if_pos c, if_pos c]
    exact trim_twin h hc (by rw [h.pivot, ← c]; exact ha)
  · rw [if_neg c, if_neg c]
    exact ⟨h, hc⟩

theorem setUnits_twin (h : Twin K D s s') (hc : Cov none' D s) {a n : Nat} (ha : D a) :
    Sim K D (fun _ t D' => Cov none' D' t ∧ t.tail = s.tail) (s.setUnits a n) (s'.setUnits a n) := by
  unfold RW.setUnits
  by_cases c : n > 2047
  · rw [if_pos c, if_pos c]; trivial
  · rw [if_neg c, if_neg c]
    exact .ok (fun _ h => h) (h.setHi ha _) ⟨hc.sub (fun _ h => h) le_rfl rfl le_rfl, rfl⟩

/-- Tail allocation. -/
theorem tailAlloc_twin (h : Twin K D s s') (hc : Cov none' D s) {n : Nat} :
    Sim K D (fun p t D' => Cov (fun u => p ≤ u ∧ u < p + n) D' t) (tailAlloc s n) (tailAlloc s' n) := by
  unfold tailAlloc
  rw [h.tail, h.lm]
  have htl := h.tl
  have hl := h.lim
  by_cases c : s.lim - s.tail < n
  · rw [if_pos c, if_pos c]; exact .exc h hc
  · rw [if_neg c, if_neg c]
    obtain ⟨m', rfl⟩ := h.ex
    refine .ok (fun _ h => h) (h.scal rfl rfl rfl rfl h.hp (by show s.tail + n ≤ _; omega)) ?_
    intro u h1 h2
    have h1 : s.head ≤ u := h1
    have h2 : u < s.pivot ∨ u < s.tail + n := h2
    by_cases c2 : u < s.pivot ∨ u < s.tail
    · exact Or.inl ((hc u h1 c2).resolve_right id)
    · right; omega

theorem indexAlloc_twin (h : Twin K D s s') (hc : Cov none' D s) {n : Nat} :
    Sim K D (fun a t D' => t.tail = s.tail ∧ t.mem = s.mem ∧ a < K.pivot ∧ Cov (fun u => u = a) D' t) (indexAlloc s n) (indexAlloc s' n) := by
  unfold indexAlloc
  obtain ⟨l1, l2⟩ := lookup_twin h hc (holeWord 0)
  rw [l1]
  obtain ⟨m', rfl⟩ := h.ex
  have hp := h.pivot
  have hhp := h.hp
  have key : ∀ o : Option Nat, Idx K D o → Sim K D (fun a t D' => t.tail = s.tail ∧ t.mem = s.mem ∧ a < K.pivot ∧ Cov (fun u => u = a) D' t)
      (match o with
        | some h => Out.ok h { s with jc := sub16 s.jc 1 }
        | none => if s.head < 1 then Out.exc (.insufficientSpace 1 n) s else .ok (s.head - 1) { s with head := s.head - 1 })
      (match o with
        | some h => Out.ok h { s with mem := m', jc := sub16 s.jc 1 }
        | none => if s.head < 1 then Out.exc (.insufficientSpace 1 n) { s with mem := m' } else .ok (s.head - 1) { s with mem := m', head := s.head - 1 }) := by
    intro o ho
    cases o with
    | some x =>
      have t1 : Twin K D { s with jc := sub16 s.jc 1 } { s with mem := m', jc := sub16 s.jc 1 } := h.scal rfl rfl rfl rfl h.hp h.tl
      have c1 : Cov none' D { s with jc := sub16 s.jc 1 } := hc.sub (fun _ h => h) le_rfl rfl le_rfl
      exact .ok (fun _ h => h) t1 ⟨rfl, rfl, (ho x rfl).1, c1.weaken fun _ h => h.elim⟩
    | none =>
      simp only
      by_cases c : s.head < 1
      · rw [if_pos c, if_pos c]; exact .exc h hc
      · rw [if_neg c, if_neg c]
        refine .ok (fun _ h => h) (h.scal rfl rfl rfl rfl (by show s.head - 1 ≤ _; omega) h.tl) ⟨rfl, rfl, by omega, fun u h1 h2 => ?_⟩
        have h1 : s.head - 1 ≤ u := h1
        by_cases e : u = s.head - 1
        · exact Or.inr e
        · exact Or.inl ((hc u (by omega) h2).resolve_right id)
  refine key _ ?_
  split_ifs
  · exact l2
  · exact Idx.none

/-- Filling a new index cell. -/
theorem fill_twin {a : Nat} (h : Twin K D s s') (ha : a < K.pivot) (hc : Cov (fun u => u = a) D s) (c : Cell) :
    Twin K (fun u => D u ∨ u = a) (s.setCell a c) (s'.setCell a c) ∧ Cov none' (fun u => D u ∨ u = a) (s.setCell a c) :=
  ⟨h.put (by have := h.pl; omega) c, fun u h1 h2 => Or.inl (hc u h1 h2)⟩

theorem setHi_setPayload (s : RW) (a w p : Nat) : (s.setHi a w).setPayload a p = s.setCell a ⟨(p + 65536 - a) % 65536, w⟩ := by
  unfold RW.setPayload RW.setLo RW.setHi RW.setCell
  simp only [Memory.set_same]
  congr 1
  funext x
  simp only [Memory.set_apply]
  split_ifs <;> rfl

theorem setHi_start (s : RW) (a w x : Nat) : (s.setHi a w).start x = s.start x := by
  show x + ((s.setHi a w).mem x).lo = x + (s.mem x).lo
  unfold RW.setHi RW.setCell
  simp only [Memory.set_apply]
  split_ifs with h
  · rw [h]
  · rfl

theorem allocDataAt_twin (h : Twin K D s s') (hc : Cov none' D s) {n : Nat} {hole : Option Nat} (hh : Idx K D hole) :
    Sim K D (fun p t D' => Cov (fun u => p ≤ u ∧ u < p + n) D' t) (allocDataAt s n hole) (allocDataAt s' n hole) := by
  unfold allocDataAt
  cases hole with
  | none => exact tailAlloc_twin h hc
  | some x =>
    obtain ⟨h1, h2⟩ := hh x rfl
    simp only
    rw [h.units h2, h.start h2, h.jv]
    have t1 : Twin K D { s with jv := sub16 s.jv n } { s' with jv := sub16 s.jv n } := by
      obtain ⟨m', rfl⟩ := h.ex; exact h.scal rfl rfl rfl rfl h.hp h.tl
    have c1 : Cov none' D { s with jv := sub16 s.jv n } := hc.sub (fun _ h => h) le_rfl rfl le_rfl
    by_cases c : s.units x - n = 0
    · rw [if_pos c, if_pos c]
      obtain ⟨k1, k2⟩ := trimIf_twin (t1.purge h2) (c1.sub (fun _ h => h) le_rfl rfl le_rfl) h1
      exact .ok (fun _ h => h) k1 (k2.weaken fun _ h => h.elim)
    · rw [if_neg c, if_neg c]
      refine (setUnits_twin (t1.addDelta h2 _) (c1.sub (fun _ h => h) le_rfl rfl le_rfl) h2).bind fun _ t t' D' _ ht hp => ?_
      exact .ok (fun _ h => h) ht (hp.1.weaken fun _ h => h.elim)

theorem allocData_twin (h : Twin K D s s') (hc : Cov none' D s) {n : Nat} :
    Sim K D (fun p t D' => Cov (fun u => p ≤ u ∧ u < p + n) D' t) (allocData s n) (allocData s' n) := by
  unfold allocData
  obtain ⟨l1, l2⟩ := lookupBest_twin h hc n
  rw [l1]
  cases hb : lookupBest s n with
  | none => trivial
  | some o => exact allocDataAt_twin h hc (l2 o hb)

theorem allocLoose_twin (h : Twin K D s s') (hc : Cov none' D s) (fixed : Bool) {tag n : Nat} (hpt : s.pivot ≤ s.tail) (hll : K.lim ≤ 65534) :
    Sim K D (fun a t D' => D' a ∧ Cov (fun u => t.start a ≤ u ∧ u < t.start a + n) D' t) (allocLooseWith fixed s tag n)
      (allocLooseWith fixed s' tag n) := by
  have hp := h.pivot
  have htl := h.tl
  have hlim := h.lim
  unfold allocLooseWith
  by_cases c0 : n = 0
  · rw [if_pos c0, if_pos c0]
    refine (indexAlloc_twin h hc).bind fun a t t' D' hm ht k => ?_
    obtain ⟨k1, k2⟩ := fill_twin ht k.2.2.1 k.2.2.2 ⟨0, tag % 65536⟩
    exact .ok (fun _ h => Or.inl h) k1 ⟨Or.inr rfl, k2.weaken fun _ h => h.elim⟩
  · rw [if_neg c0, if_neg c0]
    obtain ⟨l1, l2⟩ := lookupBest_twin h hc n
    rw [l1]
    cases hb : lookupBest s n with
    | none => trivial
    | some o =>
      cases o with
      | none =>
        simp only
        rw [h.lm, h.tail]
        by_cases c1 : s.lim - s.tail < n
        · rw [if_pos c1, if_pos c1]; exact .exc h hc
        · rw [if_neg c1, if_neg c1]
          refine (indexAlloc_twin h hc).bind fun a t t' D' hm ht k => ?_
          obtain ⟨q1, q2, q3, q4⟩ := k
          rw [setHi_setPayload, setHi_setPayload, ht.tail]
          obtain ⟨k1, k2⟩ := fill_twin ht q3 q4 ⟨(t.tail + 65536 - a) % 65536, tag % 65536⟩
          have est : a + (t.tail + 65536 - a) % 65536 = t.tail := by omega
          refine .ok (D' := fun u => D' u ∨ u = a) (fun _ h => Or.inl h) ?_ ⟨Or.inr rfl, ?_⟩
          · obtain ⟨m', rfl⟩ := ht.ex
            exact k1.scal rfl rfl rfl rfl k1.hp (by show t.tail + n ≤ _; omega)
          · have es : RW.start { t.setCell a ⟨(t.tail + 65536 - a) % 65536, tag % 65536⟩ with
                tail := (t.setCell a ⟨(t.tail + 65536 - a) % 65536, tag % 65536⟩).tail + n } a = t.tail := by
              show a + (t.mem.set a ⟨(t.tail + 65536 - a) % 65536, tag % 65536⟩ a).lo = t.tail
              rw [Memory.set_same]; exact est
            rw [es]
            intro u h1 h2
            have h1 : t.head ≤ u := h1
            have h2 : u < t.pivot ∨ u < t.tail + n := h2
            by_cases c2 : u < t.pivot ∨ u < t.tail
            · exact Or.inl ((k2 u h1 c2).resolve_right id)
            · right; omega
      | some x =>
        obtain ⟨h1, h2⟩ := l2 _ hb x rfl
        simp only
        rw [h.units h2, h.jv, h.jc]
        by_cases c1 : s.units x - n = 0
        · rw [if_pos c1, if_pos c1]
          have t1 : Twin K D { s with jv := sub16 s.jv n, jc := sub16 s.jc 1 } { s' with jv := sub16 s.jv n, jc := sub16 s.jc 1 } := by
            obtain ⟨m', rfl⟩ := h.ex; exact h.scal rfl rfl rfl rfl h.hp h.tl
          exact .ok (fun _ h => h) (t1.setHi h2 _) ⟨h2, (hc.sub (fun _ h => h) le_rfl rfl le_rfl).weaken fun _ h => h.elim⟩
        · rw [if_neg c1, if_neg c1]
          refine (indexAlloc_twin h hc).bind fun a t t' D' hm ht k => ?_
          obtain ⟨q1, q2, q3, q4⟩ := k
          rw [setHi_setPayload, setHi_setPayload, ht.start (hm x h2)]
          obtain ⟨k1, k2⟩ := fill_twin ht q3 q4 ⟨(t.start x + 65536 - a) % 65536, tag % 65536⟩
          have hx : D' x ∨ x = a := Or.inl (hm x h2)
          refine Sim.mono (fun _ h => Or.inl h) ((setUnits_twin (k1.addDelta hx _) (k2.sub (fun _ h => h) le_rfl rfl le_rfl) hx).bind
            fun _ r r' D2 hm2 hr kk => ?_) (fun _ _ _ h => h)
          refine .ok (fun _ h => h) ?_ ⟨hm2 a (Or.inr rfl), (kk.1.sub (fun _ h => h) le_rfl rfl le_rfl).weaken fun _ h => h.elim⟩
          obtain ⟨m', rfl⟩ := hr.ex
          exact hr.scal rfl rfl rfl rfl hr.hp hr.tl

theorem mergeHoles_twin (h : Twin K D s s') (hc : Cov none' D s) {f g : Nat} (hf : f < K.pivot ∧ D f) (hg : g < K.pivot ∧ D g) :
    Sim K D (fun r t D' => Cov none' D' t ∧ r < K.pivot ∧ D' r) (mergeHoles s f g) (mergeHoles s' f g) := by
  unfold mergeHoles
  simp only
  rw [h.units hf.2, h.units hg.2, h.head]
  by_cases c : f ≠ s.head
  · rw [if_pos c, if_pos c]
    refine (setUnits_twin h hc hf.2).bind fun _ t t' D' hm ht k => ?_
    obtain ⟨k1, k2⟩ := trimIf_twin (ht.purge (hm g hg.2)) (k.1.sub (fun _ h => h) le_rfl rfl le_rfl) hg.1
    exact .ok (fun _ h => h) k1 ⟨k2, hf.1, hm f hf.2⟩
  · rw [if_neg c, if_neg c]
    have c : f = s.head := not_not.1 c
    unfold RW.setUnits
    by_cases c2 : s.units f + s.units g > 2047
    · rw [if_pos c2, if_pos c2]; trivial
    · rw [if_neg c2, if_neg c2]
      have t1 := ((h.subDelta hg.2 (s.units f)).setHi hg.2 (holeWord (s.units f + s.units g))).purge hf.2
      obtain ⟨k1, k2⟩ := trim_twin t1 (hc.sub (fun _ h => h) le_rfl rfl le_rfl) (by show s.head < s.pivot; rw [h.pivot, ← c]; exact hf.1)
      exact .ok (fun _ h => h) k1 ⟨k2, hg⟩

theorem releaseLoose_twin (h : Twin K D s s') (hc : Cov none' D s) {a n : Nat} (ha : a < K.pivot ∧ D a) :
    Sim K D (fun _ t D' => Cov none' D' t) (releaseLoose s a n) (releaseLoose s' a n) := by
  unfold releaseLoose
  simp only
  have t1 : Twin K D { s with jc := add16 s.jc 1 } { s' with jc := add16 s'.jc 1 } := by
    obtain ⟨m', rfl⟩ := h.ex; exact h.scal rfl rfl rfl rfl h.hp h.tl
  have c1 : Cov none' D { s with jc := add16 s.jc 1 } := hc.sub (fun _ h => h) le_rfl rfl le_rfl
  by_cases c : n = 0
  · rw [if_pos c, if_pos c]
    obtain ⟨k1, k2⟩ := trimIf_twin (t1.purge ha.2) (c1.sub (fun _ h => h) le_rfl rfl le_rfl) ha.1
    exact .ok (fun _ h => h) k1 k2
  · rw [if_neg c, if_neg c]
    refine (setUnits_twin t1 c1 ha.2).bind fun _ t t' D' hm ht k => ?_
    have ha' := hm a ha.2
    have t2 : Twin K D' { t with jv := add16 t.jv n } { t' with jv := add16 t'.jv n } := by
      obtain ⟨m', rfl⟩ := ht.ex; exact ht.scal rfl rfl rfl rfl ht.hp ht.tl
    have c2 : Cov none' D' { t with jv := add16 t.jv n } := k.1.sub (fun _ h => h) le_rfl rfl le_rfl
    rw [t2.start ha', t2.holeEnd ha']
    obtain ⟨l1, l2⟩ := lookupAdjacent_twin t2 c2 (RW.start { t with jv := add16 t.jv n } a) (RW.holeEnd { t with jv := add16 t.jv n } a)
    rw [l1]
    cases hl : lookupAdjacent { t with jv := add16 t.jv n } (RW.start { t with jv := add16 t.jv n } a) (RW.holeEnd { t with jv := add16 t.jv n } a) with
    | none => trivial
    | some r =>
      obtain ⟨before, after⟩ := r
      obtain ⟨i1, i2⟩ := l2 _ hl
      simp only
      refine Sim.bind (P := fun r t D' => Cov none' D' t ∧ r < K.pivot ∧ D' r) ?_ fun r w w' D2 hm2 hw kw => ?_
      · cases before with
        | none => exact .ok (fun _ h => h) t2 ⟨c2, ha.1, ha'⟩
        | some b => exact mergeHoles_twin t2 c2 (i1 b rfl) ⟨ha.1, ha'⟩
      · refine Sim.bind (P := fun r t D' => Cov none' D' t ∧ r < K.pivot ∧ D' r) ?_ fun r z z' D3 hm3 hz kz => ?_
        · cases after with
          | none => exact .ok (fun _ h => h) hw kw
          | some b => exact mergeHoles_twin hw kw.1 kw.2 ((i2.mono hm2) b rfl)
        · obtain ⟨q1, q2, q3⟩ := kz
          rw [hz.holeEnd q3, hz.tail, hz.units q3, hz.jv]
          by_cases c3 : z.holeEnd r ≠ z.tail
          · rw [if_pos c3, if_pos c3]
            exact .ok (fun _ h => h) hz q1
          · rw [if_neg c3, if_neg c3]
            have t3 : Twin K D3 { z with tail := z.tail - z.units r, jv := sub16 z.jv (z.units r) }
                { z' with tail := z.tail - z.units r, jv := sub16 z.jv (z.units r) } := by
              have := hz.tl
              obtain ⟨m', rfl⟩ := hz.ex; exact hz.scal rfl rfl rfl rfl hz.hp (by show z.tail - _ ≤ _; omega)
            obtain ⟨k1, k2⟩ := trimIf_twin (t3.purge q3) (q1.sub (fun _ h => h) le_rfl rfl (Nat.sub_le _ _)) q2
            exact .ok (fun _ h => h) k1 k2

theorem releaseDataAt_twin (h : Twin K D s s') (hc : Cov none' D s) {chunk n : Nat} {before after hole0 : Option Nat}
    (hb : Idx K D before) (ha : Idx K D after) (h0 : Idx K D hole0) :
    Sim K D (fun r t D' => Cov none' D' t ∧ Idx K D' r) (releaseDataAt s chunk n before after hole0) (releaseDataAt s' chunk n before after hole0) := by
  unfold releaseDataAt
  obtain ⟨m', rfl⟩ := h.ex
  simp only
  have htl := h.tl
  by_cases c : chunk + n = s.tail
  · rw [if_pos c, if_pos c]
    have t1 : Twin K D { s with tail := s.tail - n } { s with mem := m', tail := s.tail - n } := by
      exact h.scal rfl rfl rfl rfl h.hp (by show s.tail - _ ≤ _; omega)
    have c1 : Cov none' D { s with tail := s.tail - n } := hc.sub (fun _ h => h) le_rfl rfl (Nat.sub_le _ _)
    cases before with
    | none => exact .ok (fun _ h => h) t1 ⟨c1, Idx.none⟩
    | some b =>
      obtain ⟨b1, b2⟩ := hb b rfl
      simp only
      have eu : RW.units { s with mem := m', tail := s.tail - n } b = RW.units { s with tail := s.tail - n } b := t1.units b2
      rw [eu]
      have t2 : Twin K D { s with tail := s.tail - n - RW.units { s with tail := s.tail - n } b, jv := sub16 s.jv (RW.units { s with tail := s.tail - n } b) }
          { s with mem := m', tail := s.tail - n - RW.units { s with tail := s.tail - n } b, jv := sub16 s.jv (RW.units { s with tail := s.tail - n } b) } := by
        exact h.scal rfl rfl rfl rfl h.hp (by show s.tail - _ - _ ≤ _; omega)
      obtain ⟨k1, k2⟩ := trimIf_twin (t2.purge b2) (hc.sub (fun _ h => h) le_rfl rfl (by show s.tail - _ - _ ≤ _; omega)) b1
      exact .ok (fun _ h => h) k1 ⟨k2, Idx.none⟩
  · rw [if_neg c, if_neg c]
    have t1 : Twin K D { s with jv := add16 s.jv n } { s with mem := m', jv := add16 s.jv n } := by
      exact h.scal rfl rfl rfl rfl h.hp h.tl
    have c1 : Cov none' D { s with jv := add16 s.jv n } := hc.sub (fun _ h => h) le_rfl rfl le_rfl
    have ok1 : ∀ {D' : Nat → Prop} {x : Nat}, x < K.pivot → D' x → Idx K D' (some x) := fun h1 h2 y hy => Option.some.inj hy ▸ ⟨h1, h2⟩
    cases before with
    | some b =>
      obtain ⟨b1, b2⟩ := hb b rfl
      have eu : RW.units { s with mem := m', jv := add16 s.jv n } b = RW.units { s with jv := add16 s.jv n } b := t1.units b2
      cases after with
      | none =>
        simp only
        rw [eu]
        exact (setUnits_twin t1 c1 b2).bind fun _ t t' D' hm ht k => .ok (fun _ h => h) ht ⟨k.1, ok1 b1 (hm b b2)⟩
      | some x =>
        simp only
        rw [eu]
        exact (setUnits_twin t1 c1 b2).bind fun _ t t' D' hm ht k =>
          (mergeHoles_twin ht k.1 ⟨b1, hm b b2⟩ ((ha.mono hm) x rfl)).bind fun r z z' D2 hm2 hz kz => .ok (fun _ h => h) hz ⟨kz.1, ok1 kz.2.1 kz.2.2⟩
    | none =>
      cases after with
      | some x =>
        obtain ⟨b1, b2⟩ := ha x rfl
        simp only
        have t2 := t1.subDelta b2 n
        rw [t2.units b2]
        exact (setUnits_twin t2 (c1.sub (fun _ h => h) le_rfl rfl le_rfl) b2).bind fun _ t t' D' hm ht k => .ok (fun _ h => h) ht ⟨k.1, ok1 b1 (hm x b2)⟩
      | none =>
        simp only
        refine Sim.bind (P := fun x t D' => x < K.pivot ∧ Cov (fun u => u = x) D' t) ?_ fun x t t' D' hm ht k => ?_
        · cases hole0 with
          | some x => exact .ok (fun _ h => h) t1 ⟨(h0 x rfl).1, c1.weaken fun _ h => h.elim⟩
          | none =>
            refine (indexAlloc_twin t1 c1).bind fun a t t' D' hm ht k => .ok (fun _ h => h) (s := { t with jc := add16 t.jc 1 }) ?_
              ⟨k.2.2.1, k.2.2.2.sub (fun _ h => h) le_rfl rfl le_rfl⟩
            obtain ⟨m', rfl⟩ := ht.ex; exact ht.scal rfl rfl rfl rfl ht.hp ht.tl
        · unfold RW.setUnits
          by_cases c2 : n > 2047
          · rw [if_pos c2, if_pos c2]; trivial
          · rw [if_neg c2, if_neg c2]
            show Sim K D' _ (Out.ok (some x) ((t.setHi x (holeWord n)).setPayload x chunk)) (Out.ok (some x) ((t'.setHi x (holeWord n)).setPayload x chunk))
            rw [setHi_setPayload, setHi_setPayload]
            obtain ⟨k1, k2⟩ := fill_twin ht k.1 k.2 ⟨(chunk + 65536 - x) % 65536, holeWord n⟩
            exact .ok (fun _ h => Or.inl h) k1 ⟨k2, ok1 k.1 (Or.inr rfl)⟩

theorem releaseData_twin (h : Twin K D s s') (hc : Cov none' D s) {chunk n : Nat} :
    Sim K D (fun _ t D' => Cov none' D' t) (releaseData s chunk n) (releaseData s' chunk n) := by
  unfold releaseData
  obtain ⟨l1, l2⟩ := lookupAdjacent_twin h hc chunk (chunk + n)
  rw [l1]
  cases hl : lookupAdjacent s chunk (chunk + n) with
  | none => trivial
  | some r =>
    obtain ⟨i1, i2⟩ := l2 _ hl
    exact (releaseDataAt_twin h hc i1 i2 Idx.none).bind fun _ t t' D' _ ht k => .ok (fun _ h => h) ht k.1

theorem releaseAndAlloc_twin (h : Twin K D s s') (hc : Cov none' D s) {ref hv nd : Nat} {before after h4r h4a : Option Nat} (hr : D ref)
    (hb : Idx K D before) (ha : Idx K D after) (h0 : Idx K D h4r) (h4 : Idx K D h4a) :
    Sim K D (fun p t D' => Cov (fun u => p ≤ u ∧ u < p + nd) D' t) (releaseAndAlloc s ref hv nd before after h4r h4a)
      (releaseAndAlloc s' ref hv nd before after h4r h4a) := by
  unfold releaseAndAlloc
  rw [h.start hr]
  refine (releaseDataAt_twin h hc hb ha h0).bind fun r t t' D' hm ht k => ?_
  refine Sim.bind (P := fun o t D' => Cov none' D' t ∧ Idx K D' o) ?_ fun o z z' D2 hm2 hz kz => ?_
  · have best : Sim K D' (fun o t D' => Cov none' D' t ∧ Idx K D' o) (match lookupBest t nd with | none => Out.ub | some h => Out.ok h t)
        (match lookupBest t' nd with | none => Out.ub | some h => Out.ok h t') := by
      obtain ⟨l1, l2⟩ := lookupBest_twin ht k.1 nd
      rw [l1]
      cases hl : lookupBest t nd with
      | none => trivial
      | some o => exact .ok (fun _ h => h) ht ⟨k.1, l2 o hl⟩
    cases h4a with
    | none => exact best
    | some x =>
      obtain ⟨x1, x2⟩ := h4 x rfl
      have x2 := hm x x2
      simp only
      rw [ht.head, ht.units x2]
      by_cases c : x ≥ t.head ∧ t.units x ≠ 0
      · rw [if_pos c, if_pos c, bestFit_twin ht k.2 x2]
        exact .ok (fun _ h => h) ht ⟨k.1, bestFit_idx k.2 x1 x2⟩
      · rw [if_neg c, if_neg c]; exact best
  · refine (allocDataAt_twin hz kz.1 kz.2).bind fun p w w' D3 hm3 hw kw => ?_
    exact .ok (fun _ h => h) (hw.setPayload (hm3 _ (hm2 _ (hm _ hr))) p) (kw.sub (fun _ h => h) le_rfl rfl le_rfl)

theorem optUnits_twin (h : Twin K D s s') {o : Option Nat} (ho : Idx K D o) : optUnits s' o = optUnits s o := by
  cases o with
  | none => rfl
  | some x => exact h.units (ho x rfl).2

theorem reallocData_twin (h : Twin K D s s') (hc : Cov none' D s) (fixed : Bool) {ref hv nd : Nat} (hr : D ref) :
    Sim K D (fun p t D' => Cov (fun u => p ≤ u ∧ u < p + nd) D' t) (reallocDataWith fixed s ref hv nd) (reallocDataWith fixed s' ref hv nd) := by
  have htl := h.tl
  have hl := h.lim
  obtain ⟨m', rfl⟩ := h.ex
  -- growing or shrinking in place, at the end of the data
  have inplace : s.start ref + hv = s.tail → ¬ (hv < nd ∧ s.lim - s.tail < nd - hv) →
      Sim K D (fun p t D' => Cov (fun u => p ≤ u ∧ u < p + nd) D' t) (Out.ok (s.start ref) { s with tail := s.tail - hv + nd })
        (Out.ok (s.start ref) { s with mem := m', tail := s.tail - hv + nd }) := by
    intro e1 e2
    refine .ok (fun _ h => h) (s := { s with tail := s.tail - hv + nd }) ?_ ?_
    · exact h.scal rfl rfl rfl rfl h.hp (by show s.tail - hv + nd ≤ _; omega)
    · intro u h1 h2
      have h1 : s.head ≤ u := h1
      have h2 : u < s.pivot ∨ u < s.tail - hv + nd := h2
      by_cases c2 : u < s.pivot ∨ u < s.tail
      · exact Or.inl ((hc u h1 c2).resolve_right id)
      · right; omega
  unfold reallocDataWith
  simp only
  rw [h.start hr]
  by_cases c0 : s.jv = 0
  · rw [if_pos c0, if_pos c0]
    by_cases c1 : s.start ref + hv = s.tail
    · rw [if_pos c1, if_pos c1]
      by_cases c2 : hv < nd ∧ s.lim - s.tail < nd - hv
      · rw [if_pos c2, if_pos c2]; exact .exc h hc
      · rw [if_neg c2, if_neg c2]; exact inplace c1 c2
    · rw [if_neg c1, if_neg c1]
      by_cases c2 : nd > hv
      · rw [if_pos c2, if_pos c2]
        by_cases c3 : s.lim - s.tail < nd ∨ s.head + s.jc < 1
        · rw [if_pos c3, if_pos c3]; exact .exc h hc
        · rw [if_neg c3, if_neg c3]
          refine (indexAlloc_twin h hc).bind fun x t t' D' hm ht k => ?_
          obtain ⟨q1, q2, q3, q4⟩ := k
          unfold RW.setUnits
          by_cases c4 : hv > 2047
          · rw [if_pos c4, if_pos c4]; trivial
          · rw [if_neg c4, if_neg c4]
            show Sim K D' _ (Out.bind (tailAlloc { (t.setHi x (holeWord hv)).setPayload x ((t.setHi x (holeWord hv)).start ref) with
                jc := add16 t.jc 1, jv := add16 t.jv hv } nd) _) (Out.bind (tailAlloc { (t'.setHi x (holeWord hv)).setPayload x ((t'.setHi x (holeWord hv)).start ref) with
                jc := add16 t'.jc 1, jv := add16 t'.jv hv } nd) _)
            rw [setHi_setPayload, setHi_setPayload, setHi_start, setHi_start, ht.start (hm _ hr)]
            obtain ⟨k1, k2⟩ := fill_twin ht q3 q4 ⟨(t.start ref + 65536 - x) % 65536, holeWord hv⟩
            have k3 : Twin K (fun u => D' u ∨ u = x) { t.setCell x ⟨(t.start ref + 65536 - x) % 65536, holeWord hv⟩ with jc := add16 t.jc 1, jv := add16 t.jv hv }
                { t'.setCell x ⟨(t.start ref + 65536 - x) % 65536, holeWord hv⟩ with jc := add16 t'.jc 1, jv := add16 t'.jv hv } := by
              obtain ⟨m', rfl⟩ := ht.ex; exact k1.scal rfl rfl rfl rfl k1.hp k1.tl
            refine Sim.mono (fun _ h => Or.inl h) ((tailAlloc_twin k3 (k2.sub (fun _ h => h) le_rfl rfl le_rfl)).bind fun p w w' D3 hm3 hw kw => ?_) (fun _ _ _ h => h)
            exact .ok (fun _ h => h) (hw.setPayload (hm3 _ (Or.inl (hm _ hr))) p) (kw.sub (fun _ h => h) le_rfl rfl le_rfl)
      · rw [if_neg c2, if_neg c2]
        refine (indexAlloc_twin h hc).bind fun x t t' D' hm ht k => ?_
        obtain ⟨q1, q2, q3, q4⟩ := k
        unfold RW.setUnits
        by_cases c4 : hv - nd > 2047
        · rw [if_pos c4, if_pos c4]; trivial
        · rw [if_neg c4, if_neg c4]
          show Sim K D' _ (Out.ok (((t.setHi x (holeWord (hv - nd))).setPayload x ((t.setHi x (holeWord (hv - nd))).start ref + nd)).start ref)
              { (t.setHi x (holeWord (hv - nd))).setPayload x ((t.setHi x (holeWord (hv - nd))).start ref + nd) with
                jc := add16 t.jc 1, jv := add16 t.jv (hv - nd) })
            (Out.ok (((t'.setHi x (holeWord (hv - nd))).setPayload x ((t'.setHi x (holeWord (hv - nd))).start ref + nd)).start ref)
              { (t'.setHi x (holeWord (hv - nd))).setPayload x ((t'.setHi x (holeWord (hv - nd))).start ref + nd) with
                jc := add16 t'.jc 1, jv := add16 t'.jv (hv - nd) })
          rw [setHi_setPayload, setHi_setPayload, setHi_start, setHi_start, ht.start (hm _ hr)]
          obtain ⟨k1, k2⟩ := fill_twin ht q3 q4 ⟨(t.start ref + nd + 65536 - x) % 65536, holeWord (hv - nd)⟩
          have hr' : D' ref ∨ ref = x := Or.inl (hm _ hr)
          rw [k1.start hr']
          refine .ok (fun _ h => Or.inl h) ?_ ((k2.sub (fun _ h => h) le_rfl rfl le_rfl).weaken fun _ h => h.elim)
          obtain ⟨m', rfl⟩ := ht.ex; exact k1.scal rfl rfl rfl rfl k1.hp k1.tl
  · rw [if_neg c0, if_neg c0]
    obtain ⟨l1, l2⟩ := lookupAdjacent_twin h hc (s.start ref) (s.start ref + hv)
    rw [l1]
    cases hla : lookupAdjacent s (s.start ref) (s.start ref + hv) with
    | none => trivial
    | some r =>
      obtain ⟨before, after⟩ := r
      obtain ⟨i1, i2⟩ := l2 _ hla
      simp only
      rw [optUnits_twin h i1, optUnits_twin h i2]
      by_cases c1 : hv < nd ∧ hv + (optUnits s before + optUnits s after) ≥ nd
      · rw [if_pos c1, if_pos c1]; exact releaseAndAlloc_twin h hc hr i1 i2 Idx.none Idx.none
      · rw [if_neg c1, if_neg c1, (lookupExact_twin h hc 0).1]
        have i3 : Idx K D (if optUnits s before + optUnits s after > 0 ∨ s.head > 0 then none else (lookupExact s 0).join) := by
          split_ifs
          · exact Idx.none
          · cases hx : lookupExact s 0 with
            | none => exact Idx.none
            | some o => exact (lookupExact_twin h hc 0).2 o hx
        generalize (if optUnits s before + optUnits s after > 0 ∨ s.head > 0 then none else (lookupExact s 0).join) = h4r at i3 ⊢
        by_cases c2 : ¬ (optUnits s before + optUnits s after > 0 ∨ s.head > 0 ∨ h4r.isSome = true)
        · rw [if_pos c2, if_pos c2, (lookupExact_twin h hc nd).1]
          cases hx : lookupExact s nd with
          | none => trivial
          | some o =>
            cases o with
            | none =>
              simp only
              by_cases c3 : s.start ref + hv = s.tail
              · rw [if_pos c3, if_pos c3]
                by_cases c4 : hv < nd ∧ s.lim - s.tail < nd - hv
                · rw [if_pos c4, if_pos c4]; exact .exc h hc
                · rw [if_neg c4, if_neg c4]; exact inplace c3 c4
              · rw [if_neg c3, if_neg c3]; exact .exc h hc
            | some x =>
              obtain ⟨x1, x2⟩ := (lookupExact_twin h hc nd).2 _ hx x rfl
              simp only
              rw [h.start x2]
              have t2 := (h.setPayload hr (s.start x)).setPayload x2 (s.start ref)
              refine (setUnits_twin t2 (hc.sub (fun _ h => h) le_rfl rfl le_rfl) x2).bind fun _ t t' D' hm ht k => ?_
              obtain ⟨k1, k2⟩ := k
              obtain ⟨m2, rfl⟩ := ht.ex
              simp only
              have t3 : Twin K D' { t with jv := (t.jv + (65536 + hv - nd)) % 65536 } { t with mem := m2, jv := (t.jv + (65536 + hv - nd)) % 65536 } := by
                exact ht.scal rfl rfl rfl rfl ht.hp ht.tl
              have c3 : Cov none' D' { t with jv := (t.jv + (65536 + hv - nd)) % 65536 } := k1.sub (fun _ h => h) le_rfl rfl le_rfl
              by_cases c4 : (if fixed = true then s.start ref + hv else s.start ref) = t.tail
              · rw [if_pos c4, if_pos c4]
                have t4 : Twin K D' { t with tail := t.tail - hv, jv := sub16 ((t.jv + (65536 + hv - nd)) % 65536) hv }
                    { t with mem := m2, tail := t.tail - hv, jv := sub16 ((t.jv + (65536 + hv - nd)) % 65536) hv } := by
                  have := ht.tl
                  exact ht.scal rfl rfl rfl rfl ht.hp (by show t.tail - _ ≤ _; omega)
                obtain ⟨k3, k4⟩ := trimIf_twin (t4.purge (hm x x2)) (k1.sub (fun _ h => h) le_rfl rfl (Nat.sub_le _ _)) x1
                rw [k3.start (hm _ hr)]
                exact .ok (fun _ h => h) k3 (k4.weaken fun _ h => h.elim)
              · rw [if_neg c4, if_neg c4, t3.start (hm _ hr)]
                exact .ok (fun _ h => h) t3 (c3.weaken fun _ h => h.elim)
        · rw [if_neg c2, if_neg c2]
          by_cases c3 : hv > nd ∨ nd ≤ s.lim - s.tail
          · rw [if_pos c3, if_pos c3]; exact releaseAndAlloc_twin h hc hr i1 i2 i3 Idx.none
          · rw [if_neg c3, if_neg c3, (lookupBest_twin h hc nd).1]
            cases hx : lookupBest s nd with
            | none => trivial
            | some o =>
              cases o with
              | none => exact .exc h hc
              | some x => exact releaseAndAlloc_twin h hc hr i1 i2 i3 ((lookupBest_twin h hc nd).2 _ hx)

end Fptu.Gear
