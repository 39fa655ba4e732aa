import Verif.Lemmas.TwinRw
import Verif.Lemmas.Serial
/-!
# Two runs of a compaction on memories that agree on the used part
-/
namespace Fptu.Compact
open Fptu.Gear Fptu.Rw
variable {K : Ctx} {D : Nat → Prop} {s s' : RW} {σ : Sch}

/-- `m2` and `m2'` agree on `D` and are what `m`, `m'` were elsewhere. -/
structure Both (D : Nat → Prop) (m m' m2 m2' : Memory) : Prop where
  eq : ∀ u, D u → m2' u = m2 u
  out : ∀ u, ¬ D u → m2 u = m u ∧ m2' u = m' u

theorem Both.refl {m m' : Memory} (h : ∀ u, D u → m' u = m u) : Both D m m' m m' := ⟨h, fun _ _ => ⟨rfl, rfl⟩⟩

theorem Both.trans {m m' m1 m1' m2 m2' : Memory} (h : Both D m m' m1 m1') (k : Both D m1 m1' m2 m2') : Both D m m' m2 m2' :=
  ⟨k.eq, fun u hu => ⟨(k.out u hu).1.trans (h.out u hu).1, (k.out u hu).2.trans (h.out u hu).2⟩⟩

theorem Both.set {m m' : Memory} (h : ∀ u, D u → m' u = m u) {a : Nat} (ha : D a) (c : Cell) : Both D m m' (m.set a c) (m'.set a c) := by
  refine ⟨fun u hu => ?_, fun u hu => ?_⟩
  · rw [Memory.set_apply, Memory.set_apply, h u hu]
  · have : u ≠ a := fun e => hu (e ▸ ha)
    rw [Memory.set_ne _ _ this, Memory.set_ne _ _ this]
    exact ⟨rfl, rfl⟩

theorem Both.twin {m2 m2' : Memory} (h : Twin K D s s') (k : Both D s.mem s'.mem m2 m2') : Twin K D { s with mem := m2 } { s' with mem := m2' } where
  same := by obtain ⟨m', rfl⟩ := h.ex; rfl
  pivot := h.pivot
  pre := h.pre
  lim := h.lim
  hp := h.hp
  pl := h.pl
  tl := h.tl
  eq := k.eq
  out := fun u hu => ⟨(k.out u hu).1.trans (h.out u hu).1, (k.out u hu).2.trans (h.out u hu).2⟩
  bd := h.bd

def BothO (D : Nat → Prop) (m m' : Memory) : Option (Memory × Nat) → Option (Memory × Nat) → Prop
  | none, none => True
  | some r, some r' => r'.2 = r.2 ∧ Both D m m' r.1 r'.1
  | _, _ => False

theorem BothO.trans {m m' m1 m1' : Memory} {o o' : Option (Memory × Nat)} (h : Both D m m' m1 m1') (k : BothO D m1 m1' o o') : BothO D m m' o o' := by
  cases o <;> cases o' <;> first | exact k.elim | skip
  · trivial
  · exact ⟨k.1, h.trans k.2⟩

theorem squeeze_twin (guard : Bool) {head pivot : Nat} (hD : ∀ u, head ≤ u → u < pivot → D u) : ∀ n m m' d, head + n ≤ d → d ≤ pivot →
    (∀ u, D u → m' u = m u) → BothO D m m' (squeeze guard head n m d) (squeeze guard head n m' d) := by
  intro n
  induction n with
  | zero => intro m m' d _ _ h; exact ⟨rfl, Both.refl h⟩
  | succ n ih =>
    intro m m' d h1 h2 h
    unfold squeeze
    simp only
    have hs : D (head + n) := hD _ (by omega) (by omega)
    have hd : D (d - 1) := hD _ (by omega) (by omega)
    rw [h _ hs]
    by_cases c1 : Cell.isHole (m (head + n))
    · rw [if_pos c1, if_pos c1]; exact ih m m' d (by omega) h2 h
    rw [if_neg c1, if_neg c1]
    by_cases c2 : head + n = d - 1
    · rw [if_pos c2, if_pos c2]; exact ih m m' (d - 1) (by omega) (by omega) h
    rw [if_neg c2, if_neg c2]
    have go : ∀ c : Cell, BothO D m m' (squeeze guard head n (m.set (d - 1) c) (d - 1)) (squeeze guard head n (m'.set (d - 1) c) (d - 1)) := fun c =>
      BothO.trans (Both.set h hd c) (ih _ _ (d - 1) (by omega) (by omega) (Both.set h hd c).eq)
    by_cases c3 : (cellGenus (m (head + n))).isInplaced = true
    · rw [if_pos c3, if_pos c3]; exact go _
    rw [if_neg c3, if_neg c3]
    by_cases c4 : (m (head + n)).lo = 0 ∧ guard = true
    · rw [if_pos c4, if_pos c4]; exact go _
    rw [if_neg c4, if_neg c4]
    by_cases c5 : (m (head + n)).lo ≤ d - 1 - (head + n)
    · rw [if_pos c5, if_pos c5]; trivial
    rw [if_neg c5, if_neg c5]; exact go _

theorem dropHoles_twin (guard : Bool) (hw : WF σ s) (h : Twin K D s s') (hc : Cov none' D s) :
    Sim K D Good (dropHoles guard s) (dropHoles guard s') := by
  have hhp := hw.inv.hp
  have hjc : s.head + s.jc ≤ s.pivot := by
    by_cases c : s.jc = 0
    · omega
    obtain ⟨t, f, e, cp, t1, t2, t3, t4, t5, t6, t7, nh, hw', hm, _, _, _, hi⟩ := dropHoles_spec (guard := true) hw (Or.inl rfl)
    have := hi.hp
    have : t.head ≤ t.pivot := this
    omega
  unfold dropHoles
  rw [h.jc]
  by_cases c : s.jc = 0
  · rw [if_pos c, if_pos c]; exact .ok (fun _ h => h) h hc
  rw [if_neg c, if_neg c, h.head, h.piv]
  have key := squeeze_twin (D := D) guard (head := s.head) (pivot := s.pivot) (fun u h1 h2 => hc.idx h1 h2) (s.pivot - s.head) s.mem s'.mem s.pivot (by omega) le_rfl h.eq
  cases e1 : squeeze guard s.head (s.pivot - s.head) s.mem s.pivot <;> cases e2 : squeeze guard s.head (s.pivot - s.head) s'.mem s.pivot <;>
    rw [e1, e2] at key <;> first | exact key.elim | skip
  · trivial
  · rename_i r r'
    obtain ⟨_, kb⟩ := key
    have t1 := Both.twin h kb
    have t2 := t1.scal (t := { s with mem := r.1, head := s.head + s.jc, jc := 0 }) rfl rfl rfl rfl (by rw [← h.pivot]; exact hjc) h.tl
    obtain ⟨m', rfl⟩ := h.ex
    exact .ok (fun _ h => h) t2 (hc.sub (fun _ h => h) (by show s.head ≤ s.head + s.jc; omega) rfl le_rfl)

theorem dropHoles_guard {t : RW} {u : Unit} (h : dropHoles false s = .ok u t) : dropHoles true s = .ok u t := by
  unfold dropHoles at h ⊢
  by_cases c : s.jc = 0
  · rw [if_pos c] at h ⊢; exact h
  rw [if_neg c] at h ⊢
  cases e : squeeze false s.head (s.pivot - s.head) s.mem s.pivot with
  | none => rw [e] at h; cases h
  | some r => rw [e] at h; rw [squeeze_guard e]; exact h

/-- Where the values lie after the first pass. -/
structure Chunks (σ : Sch) (t : RW) : Prop where
  hp : t.head ≤ t.pivot
  bt : t.base ≤ t.tail
  nh : ∀ a, t.head ≤ a → a < t.pivot → ¬ t.isHole a
  at_ : ∀ a g, FieldAt σ t a g → g.isInplaced = false → (t.mem a).lo ≠ 0 →
    0 < fieldUnits t.mem g a ∧ t.base ≤ t.start a ∧ t.start a + fieldUnits t.mem g a ≤ t.tail

theorem dropHoles_chunks {guard : Bool} {t : RW} {u : Unit} (h : WF σ s) (e : dropHoles guard s = .ok u t) : Chunks σ t := by
  obtain ⟨t', f, e', cp, t1, t2, t3, t4, t5, t6, t7, nh, hw, hm, _, _, _, hi⟩ := dropHoles_spec (guard := true) h (Or.inl rfl)
  have e2 : dropHoles true s = .ok u t := by
    cases guard with
    | true => exact e
    | false => exact dropHoles_guard e
  rw [e'] at e2
  injection e2 with _ e2
  subst e2
  have hpos : ∀ a g, FieldAt σ t' a g → g.isInplaced = false → (t'.mem a).lo ≠ 0 → 0 < lenOf σ t' a := by
    intro a g hf hip h0
    rw [FieldAt.len (g := g) hf]
    by_cases hfx : g.isFixed = true
    · unfold fieldUnits; rw [if_pos hfx]
      refine fixed_pos g hfx hip ?_
      rcases hf with ⟨k1, k2⟩ | ⟨_, _, k3⟩
      · rw [← k2]; exact live_genus k1 (hw a k1)
      · rintro rfl; have := h.sch _ _ k3; cases this
    · have hfx : g.isFixed = false := by simpa using hfx
      rcases hf with ⟨k1, k2⟩ | ⟨k1, k2, k3⟩
      · obtain ⟨l1, l2, l3⟩ := cp.live a k1
        have e : cellGenus (s.mem (f a)) = g := by rw [← k2]; unfold cellGenus; rw [l2]
        rw [e] at l3
        rw [l3.units]
        exact l3.pos hfx fun k => h0 (l3.null.2 k)
      · obtain ⟨k, rfl⟩ : ∃ k, a = t'.pivot + k := ⟨a - t'.pivot, by omega⟩
        rw [Nat.add_sub_cancel_left] at k3
        have hk : k < s.pre := by rw [← t3]; have : t'.base = t'.pivot + t'.pre := rfl; omega
        obtain ⟨_, l3⟩ := cp.stretchy k g k3 hk
        rw [l3.units]
        exact l3.pos hfx fun k => h0 (l3.null.2 k)
  refine ⟨hi.hp, hi.bt, nh, fun a g hf hip h0 => ?_⟩
  have hp := hpos a g hf hip h0
  have ho : RW.owner { t' with jv := 0 } a := hf.owner
  have := hi.inside (ho.head_le hi.hp) ho.lt_base (by rw [ho.clen]; exact hp)
  rw [ho.clen] at this
  have hlen := FieldAt.len (g := g) hf
  rw [hlen] at hp this
  exact ⟨hp, this⟩

theorem fieldUnits_twin {t t' : RW} (h : Twin K D t t') (hc : Cov none' D t) (ch : Chunks σ t) {a : Nat} {g : Genus} (hf : FieldAt σ t a g)
    (hip : g.isInplaced = false) (h0 : (t.mem a).lo ≠ 0) (ha : D a) : fieldUnits t'.mem g a = fieldUnits t.mem g a := by
  unfold fieldUnits
  rw [h.eq a ha]
  by_cases hfx : g.isFixed = true
  · rw [if_pos hfx, if_pos hfx]
  · rw [if_neg hfx, if_neg hfx, if_neg h0, if_neg h0]
    refine brutto_congr g (h.eq _ (hc.data ?_ ?_))
    · have := ch.at_ a g hf hip h0
      have := ch.hp
      have : t.start a = a + (t.mem a).lo := rfl
      have : t.base = t.pivot + t.pre := rfl
      omega
    · have := ch.at_ a g hf hip h0
      have : t.start a = a + (t.mem a).lo := rfl
      omega

theorem looseItems_twin {t t' : RW} (h : Twin K D t t') (hc : Cov none' D t) (ch : Chunks σ t) : ∀ n, t.head + n ≤ t.pivot →
    looseItems t'.mem t.head n = looseItems t.mem t.head n := by
  intro n
  induction n with
  | zero => intro _; rfl
  | succ n ih =>
    intro hn
    have hD : D (t.head + n) := hc.idx (by omega) (by omega)
    unfold looseItems
    rw [ih (by omega), h.eq _ hD]
    by_cases c : ¬ (cellGenus (t.mem (t.head + n))).isInplaced = true ∧ (t.mem (t.head + n)).lo ≠ 0
    · rw [if_pos c, if_pos c]
      have : looseItem t'.mem (t.head + n) = looseItem t.mem (t.head + n) := by
        unfold looseItem
        rw [h.eq _ hD, fieldUnits_twin h hc ch (Or.inl ⟨⟨by omega, by omega, ch.nh _ (by omega) (by omega)⟩, rfl⟩) (by simpa using c.1) c.2 hD]
      rw [this]
    · rw [if_neg c, if_neg c]

theorem preItems_twin {t t' : RW} (guard : Bool) (hsch : ∀ k g, σ k = some g → g.isFixed = false) (h : Twin K D t t') (hc : Cov none' D t) (ch : Chunks σ t) : ∀ n, n ≤ t.pre →
    preItems guard σ t'.mem t.pivot n = preItems guard σ t.mem t.pivot n := by
  intro n
  induction n with
  | zero => intro _; rfl
  | succ n ih =>
    intro hn
    have hhp := ch.hp
    have hbt := ch.bt
    have hbase : t.base = t.pivot + t.pre := rfl
    have hD : D (t.pivot + n) := hc.data (by omega) (by omega)
    unfold preItems
    rw [ih (by omega)]
    cases hg : σ n with
    | none => rfl
    | some g =>
      simp only
      rw [h.eq _ hD]
      by_cases c : (t.mem (t.pivot + n)).lo = 0
      · rw [if_pos c, if_pos c]
      · rw [if_neg c, if_neg c]
        have hip : g.isInplaced = false := by
          by_contra k
          have := hsch _ _ hg
          rw [(inplaced_facts g (by simpa using k)).1] at this
          cases this
        rw [fieldUnits_twin h hc ch (Or.inr ⟨by omega, by omega, by rw [Nat.add_sub_cancel_left]; exact hg⟩) hip c hD]

theorem items_in {guard : Bool} {t : RW} {ps : List Item} (hsch : ∀ k g, σ k = some g → g.isFixed = false) (ch : Chunks σ t)
    (e : preItems guard σ t.mem t.pivot t.pre = some ps) : ∀ i ∈ ps ++ looseItems t.mem t.head (t.pivot - t.head),
      t.head ≤ i.ref ∧ i.ref < t.base ∧ t.base ≤ i.start ∧ i.start + i.len ≤ t.tail := by
  have hhp := ch.hp
  have hbase : t.base = t.pivot + t.pre := rfl
  have e : preItems true σ t.mem t.pivot t.pre = some ps := by
    cases guard with
    | true => exact e
    | false => exact preItems_guard e
  obtain ⟨ps', eps, ndp, memp⟩ := preItems_spec (guard := true) (σ := σ) (m := t.mem) (pivot := t.pivot) t.pre (Or.inl rfl)
  rw [e] at eps
  obtain rfl := Option.some.inj eps
  intro i hi
  rcases List.mem_append.1 hi with hk | k
  · obtain ⟨k, g, h1, h2, h3, rfl⟩ := (memp i).1 hk
    have hip : g.isInplaced = false := by
      by_contra k
      have := hsch _ _ h2
      rw [(inplaced_facts g (by simpa using k)).1] at this
      cases this
    have := ch.at_ (t.pivot + k) g (Or.inr ⟨by omega, by omega, by rw [Nat.add_sub_cancel_left]; exact h2⟩) hip h3
    refine ⟨?_, ?_, this.2.1, this.2.2⟩
    · show t.head ≤ t.pivot + k; omega
    · show t.pivot + k < t.base; omega
  · obtain ⟨a, h1, h2, h3, h4, rfl⟩ := (mem_looseItems _).1 k
    have := ch.at_ a _ (Or.inl ⟨⟨h1, by omega, ch.nh a h1 (by omega)⟩, rfl⟩) h3 h4
    refine ⟨h1, ?_, this.2.1, this.2.2⟩
    show a < t.base; omega

theorem copyUp_twin {m m' : Memory} (h : ∀ u, D u → m' u = m u) {d p n : Nat} (hdp : d ≤ p) (hd : ∀ u, d ≤ u → u < p + n → D u) :
    Both D m m' (copyUp m d p n) (copyUp m' d p n) := by
  refine ⟨fun u hu => ?_, fun u hu => ?_⟩
  · rw [copyUp_apply _ _ _ _ hdp, copyUp_apply _ _ _ _ hdp]
    by_cases c : d ≤ u ∧ u < d + n
    · rw [if_pos c, if_pos c]
      exact h _ (hd _ (by omega) (by omega))
    · rw [if_neg c, if_neg c]; exact h u hu
  · rw [copyUp_apply _ _ _ _ hdp, copyUp_apply _ _ _ _ hdp]
    have c : ¬ (d ≤ u ∧ u < d + n) := fun c => hu (hd u c.1 (by omega))
    rw [if_neg c, if_neg c]
    exact ⟨rfl, rfl⟩

theorem moveChunks_twin : ∀ (items : List Item) (m m' : Memory) (d : Nat), (∀ u, D u → m' u = m u) →
    (∀ i ∈ items, D i.ref ∧ ∀ u, d ≤ u → u < i.start + i.len → D u) → BothO D m m' (moveChunks items m d) (moveChunks items m' d) := by
  intro items
  induction items with
  | nil => intro m m' d h _; exact ⟨rfl, Both.refl h⟩
  | cons i is ih =>
    intro m m' d h hi
    obtain ⟨i1, i2⟩ := hi i List.mem_cons_self
    have his : ∀ j ∈ is, D j.ref ∧ ∀ u, d + i.len ≤ u → u < j.start + j.len → D u := fun j hj =>
      ⟨(hi j (List.mem_cons_of_mem _ hj)).1, fun u h1 h2 => (hi j (List.mem_cons_of_mem _ hj)).2 u (by omega) h2⟩
    unfold moveChunks
    rw [h _ i1]
    by_cases c1 : i.start < d
    · rw [if_pos c1, if_pos c1]; trivial
    rw [if_neg c1, if_neg c1]
    by_cases c2 : i.start = d
    · rw [if_pos c2, if_pos c2]; exact ih m m' _ h his
    rw [if_neg c2, if_neg c2]
    by_cases c3 : (m i.ref).lo ≤ i.start - d
    · rw [if_pos c3, if_pos c3]; trivial
    rw [if_neg c3, if_neg c3]
    have b1 := Both.set h i1 ⟨(m i.ref).lo - (i.start - d), (m i.ref).hi⟩
    have b2 := copyUp_twin b1.eq (d := d) (p := i.start) (n := i.len) (by omega) i2
    exact BothO.trans (b1.trans b2) (ih _ _ _ b2.eq his)

theorem closeGaps_twin (guard : Bool) {srt : List Item → List Item} (hsrt : Sorter srt) {t t' : RW} (hsch : ∀ k g, σ k = some g → g.isFixed = false)
    (ch : Chunks σ t) (h : Twin K D t t') (hc : Cov none' D t) : Sim K D Good (closeGaps guard srt σ t) (closeGaps guard srt σ t') := by
  have hbase : t.base = t.pivot + t.pre := rfl
  have hhp := ch.hp
  have hbt := ch.bt
  unfold closeGaps
  have ep : t'.pre = t.pre := by rw [h.same]
  have eb : t'.base = t.base := by rw [h.same]
  rw [h.jv, h.head, h.piv, ep, eb, preItems_twin guard hsch h hc ch _ le_rfl, looseItems_twin h hc ch _ (by omega)]
  by_cases c : t.jv = 0
  · rw [if_pos c, if_pos c]; exact .ok (fun _ h => h) h hc
  rw [if_neg c, if_neg c]
  cases e : preItems guard σ t.mem t.pivot t.pre with
  | none => trivial
  | some ps =>
    simp only
    have hin := items_in hsch ch e
    have key := moveChunks_twin (D := D) (srt (ps ++ looseItems t.mem t.head (t.pivot - t.head))) t.mem t'.mem t.base h.eq (fun i hi => by
      obtain ⟨k1, k2, k3, k4⟩ := hin i ((hsrt _).1.mem_iff.1 hi)
      exact ⟨hc.data k1 (by omega), fun u h1 h2 => hc.data (by omega) (by omega)⟩)
    cases e1 : moveChunks (srt (ps ++ looseItems t.mem t.head (t.pivot - t.head))) t.mem t.base <;>
      cases e2 : moveChunks (srt (ps ++ looseItems t.mem t.head (t.pivot - t.head))) t'.mem t.base <;> rw [e1, e2] at key <;>
      first | exact key.elim | skip
    · trivial
    · rename_i r r'
      obtain ⟨_, kb⟩ := key
      have t1 := Both.twin h kb
      have t2 := t1.scal (t := { t with mem := r.1, tail := t.tail - t.jv, jv := 0 }) rfl rfl rfl rfl h.hp (by have := h.tl; show t.tail - t.jv ≤ _; omega)
      obtain ⟨m', rfl⟩ := h.ex
      exact .ok (fun _ h => h) t2 (hc.sub (fun _ h => h) le_rfl rfl (by show t.tail - t.jv ≤ t.tail; omega))

theorem compactify_twin (guard : Bool) {srt : List Item → List Item} (hsrt : Sorter srt) (hw : WF σ s) (h : Twin K D s s') (hc : Cov none' D s) :
    Sim K D Good (compactifyWith guard srt σ s) (compactifyWith guard srt σ s') := by
  unfold compactifyWith
  exact (dropHoles_twin guard hw h hc).bindE fun _ t t' D' e hm ht k => closeGaps_twin guard hsrt hw.sch (dropHoles_chunks hw e) ht k

end Fptu.Compact
