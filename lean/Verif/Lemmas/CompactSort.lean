import Verif.Lemmas.CompactData
/-!
# Sorting the index
-/
namespace Fptu.Compact
open Fptu.Gear Fptu.Rw Finset

/-- The descriptor written at `x` for the sorting item `c`. -/
def conv (head x : Nat) (c : Cell) : Cell :=
  if (cellGenus c).isInplaced ∨ c.lo = 0 then c else ⟨head + c.lo - x, c.hi⟩

theorem conv_hi (head x : Nat) (c : Cell) : (conv head x c).hi = c.hi := by unfold conv; split_ifs <;> rfl

theorem writeIndex_eq {head : Nat} : ∀ (l : List Cell) (m : Memory) (a : Nat) (m' : Memory), writeIndex head l m a = some m' →
    ∀ x, m' x = if h : a ≤ x ∧ x - a < l.length then conv head x (l[x - a]'h.2) else m x := by
  intro l
  induction l with
  | nil =>
    intro m a m' h x
    have h : some m = some m' := h
    injection h with h
    rw [dif_neg (by simp), h]
  | cons c cs ih =>
    intro m a m' h x
    have step : writeIndex head cs (m.set a (conv head a c)) (a + 1) = some m' := by
      unfold writeIndex at h
      unfold conv
      by_cases c1 : (cellGenus c).isInplaced = true ∨ c.lo = 0
      · rw [if_pos c1] at h ⊢; exact h
      · rw [if_neg c1] at h ⊢
        by_cases c2 : head + c.lo ≤ a
        · rw [if_pos c2] at h; cases h
        · rw [if_neg c2] at h; exact h
    rw [ih _ _ _ step x]
    unfold Memory.set
    by_cases hx : x = a
    · rw [dif_neg (by omega), if_pos hx, dif_pos ⟨by omega, by rw [List.length_cons]; omega⟩]
      subst hx
      simp
    · by_cases c1 : a + 1 ≤ x ∧ x - (a + 1) < cs.length
      · rw [dif_pos c1, dif_pos ⟨by omega, by rw [List.length_cons]; omega⟩]
        congr 1
        have : x - a = x - (a + 1) + 1 := by omega
        simp only [this, List.getElem_cons_succ]
      · rw [dif_neg c1, if_neg hx, dif_neg]
        rintro ⟨k1, k2⟩
        rw [List.length_cons] at k2
        omega

theorem writeIndex_some {head : Nat} : ∀ (l : List Cell) (m : Memory) (a : Nat),
    (∀ c ∈ l, (cellGenus c).isInplaced = true ∨ c.lo = 0 ∨ a + l.length ≤ head + c.lo) → ∃ m', writeIndex head l m a = some m' := by
  intro l
  induction l with
  | nil => exact fun m a _ => ⟨m, rfl⟩
  | cons c cs ih =>
    intro m a h
    have hr : ∀ m : Memory, ∃ m', writeIndex head cs m (a + 1) = some m' := fun m =>
      ih m (a + 1) fun d hd => by
        have := h d (List.mem_cons_of_mem _ hd)
        rw [List.length_cons] at this
        rcases this with k | k | k
        · exact Or.inl k
        · exact Or.inr (Or.inl k)
        · exact Or.inr (Or.inr (by omega))
    unfold writeIndex
    by_cases c1 : (cellGenus c).isInplaced = true ∨ c.lo = 0
    · rw [if_pos c1]; exact hr _
    · rw [if_neg c1, if_neg]
      · exact hr _
      · have := h c (List.mem_cons_self ..)
        rw [List.length_cons] at this
        push Not at c1
        rcases this with k | k | k
        · exact absurd k c1.1
        · exact absurd k c1.2
        · omega

/-- A permutation of a mapped list is the map of a permutation. -/
theorem perm_map_inv {α β : Type} (F : α → β) {l l' : List β} (h : l.Perm l') : ∀ r' : List α, l' = r'.map F → ∃ r : List α, r.Perm r' ∧ l = r.map F := by
  induction h with
  | nil => intro r' hr; exact ⟨r', List.Perm.refl _, hr⟩
  | cons x _ ih =>
    intro r' hr
    cases r' with
    | nil => simp at hr
    | cons y ys =>
      rw [List.map_cons] at hr
      injection hr with e1 e2
      obtain ⟨r, k1, k2⟩ := ih ys e2
      exact ⟨y :: r, k1.cons y, by rw [List.map_cons, e1, k2]⟩
  | swap x y l =>
    intro r' hr
    match r', hr with
    | a :: b :: cs, hr =>
      rw [List.map_cons, List.map_cons] at hr
      injection hr with e1 e2
      injection e2 with e2 e3
      exact ⟨b :: a :: cs, List.Perm.swap a b cs, by rw [List.map_cons, List.map_cons, e1, e2, e3]⟩
    | [_], hr => simp at hr
    | [], hr => simp at hr
  | trans _ _ ih1 ih2 =>
    intro r' hr
    obtain ⟨r, k1, k2⟩ := ih2 r' hr
    obtain ⟨q, l1, l2⟩ := ih1 r k2
    exact ⟨q, l1.trans k1, l2⟩

/-- `sort` without the doubled vector: the index is a permutation of the former one. -/
theorem sort_spec {srt : List Cell → List Cell} (hsrt : GidSorter srt) {σ : Sch} {s : RW} (h : WF σ s) (hp : Pure s) :
    ∃ b t f, sortWith false srt s = .ok b t ∧ Permuted σ s t f ∧ t.head = s.head ∧ t.pivot = s.pivot ∧ t.pre = s.pre ∧ t.tail = s.tail ∧
      t.lim = s.lim ∧ t.jc = s.jc ∧ t.jv = s.jv ∧ (∀ a c, t.head ≤ a → a < c → c < t.pivot → (t.mem c).hi ≤ (t.mem a).hi) ∧
      (b = false → t = s) ∧ (s.jc = 0 → WF σ t ∧ Pure t) := by
  have hhp := h.inv.hp
  have hbt := h.inv.bt
  have htl := h.inv.tl
  have hbase : s.base = s.pivot + s.pre := rfl
  have fa : ∀ k g, σ k = some g → k < s.pre → FieldAt σ s (s.pivot + k) g := fun k g hk hp =>
    Or.inr ⟨by omega, by omega, by rw [Nat.add_sub_cancel_left]; exact hk⟩
  have preSame : ∀ k g, σ k = some g → k < s.pre → ∀ m' : Memory, (∀ x, s.pivot ≤ x → m' x = s.mem x) →
      Same g s.mem m' (s.pivot + k) (s.pivot + k) := by
    intro k g hk hp m' hm
    have e : m' (s.pivot + k) = s.mem (s.pivot + k) := hm _ (by omega)
    refine ⟨fun _ => by rw [e], by rw [e], fun _ i _ => ?_, fun hf h0 => by rw [← (fa k g hk hp).len]; exact h.pos _ _ ⟨hf, fa k g hk hp⟩ h0⟩
    rw [e]; exact hm _ (by omega)
  have liveSame : ∀ b, s.live b → Same (cellGenus (s.mem b)) s.mem s.mem b b := fun b hb => Same.refl fun hf h0 => by
    rw [← FieldAt.len (σ := σ) (Or.inl ⟨hb, rfl⟩)]; exact h.pos _ _ ⟨hf, Or.inl ⟨hb, rfl⟩⟩ h0
  unfold sortWith
  by_cases hs : indexSorted s = true
  · rw [if_pos hs]
    refine ⟨false, s, id, rfl, ⟨fun b hb => ⟨hb, rfl, liveSame b hb⟩, fun a ha => ⟨a, ha, rfl⟩, fun _ _ _ _ k => k, rfl,
      fun k g hk hp => ⟨rfl, preSame k g hk hp s.mem fun _ _ => rfl⟩, fun _ _ _ => rfl⟩, rfl, rfl, rfl, rfl, rfl, rfl, rfl, ?_, fun _ => rfl, fun _ => ⟨h, hp⟩⟩
    unfold indexSorted at hs
    simp only [List.all_eq_true, List.mem_range, decide_eq_true_eq] at hs
    intro a c h1 h2 h3
    obtain ⟨j, rfl⟩ : ∃ j, a = s.head + j := ⟨a - s.head, by omega⟩
    obtain ⟨k, rfl⟩ : ∃ k, c = s.head + j + (k + 1) := ⟨c - (s.head + j) - 1, by omega⟩
    induction k with
    | zero => exact hs j (by omega)
    | succ k ih =>
      refine le_trans ?_ (ih (by omega) (by omega))
      have := hs (j + (k + 1)) (by omega)
      rw [show s.head + j + (k + 1 + 1) = s.head + (j + (k + 1)) + 1 by omega, show s.head + j + (k + 1) = s.head + (j + (k + 1)) by omega]
      exact this
  rw [if_neg hs]
  set n := s.pivot - s.head with hn
  simp only [Bool.false_eq_true, if_false, List.nil_append, List.length_map, List.length_range]
  rw [if_neg (by omega)]
  set items := (List.range n).map fun i => sortItem s (s.head + i) with hitems
  obtain ⟨perm, sorted⟩ := hsrt items
  have hlen : (srt items).length = n := by rw [perm.length_eq, hitems, List.length_map, List.length_range]
  obtain ⟨r, rp, er⟩ := perm_map_inv (fun i => sortItem s (s.head + i)) perm (List.range n) rfl
  have rlen : r.length = n := by rw [rp.length_eq, List.length_range]
  have rnd : r.Nodup := rp.nodup_iff.2 List.nodup_range
  have rlt : ∀ j (hj : j < r.length), r[j] < n := fun j hj => List.mem_range.1 (rp.mem_iff.1 (List.getElem_mem hj))
  -- payloads lie above the index
  have above : ∀ a, s.head ≤ a → a < s.pivot → (cellGenus (s.mem a)).isInplaced = false → (s.mem a).lo ≠ 0 → s.base ≤ a + (s.mem a).lo := by
    intro a h1 h2 h3 h4
    by_cases hh : s.isHole a
    · have hu : s.units a ≠ 0 := fun k => h4 (hp a h1 h2 (fun x => x) hh k)
      exact (h.inv.hole_inside ⟨h1, h2, hh⟩ hu).1
    · exact (live_pay h ⟨h1, h2, hh⟩ h3 (Or.inr h4)).2.1
  have sgen : ∀ a, cellGenus (sortItem s a) = cellGenus (s.mem a) := fun a => rfl
  have slo : ∀ a, s.head ≤ a → ((sortItem s a).lo = 0 ↔ (s.mem a).lo = 0) := by
    intro a h1
    unfold sortItem
    show (if _ then _ else _) = 0 ↔ _
    split_ifs with c
    · exact Iff.rfl
    · push Not at c
      have : s.start a = a + (s.mem a).lo := rfl
      have c2 := c.2
      constructor
      · intro hz
        have hz : a + (s.mem a).lo - s.head = 0 := hz
        omega
      · intro hz; exact absurd hz c2
  have slo' : ∀ a, s.head ≤ a → ((cellGenus (sortItem s a)).isInplaced = true ∨ (sortItem s a).lo = 0 ↔
      ((cellGenus (s.mem a)).isInplaced = true ∨ (s.mem a).lo = 0)) := fun a h1 => by rw [sgen, slo a h1]
  have cv : ∀ a x, s.head ≤ a → a < s.pivot → x < s.pivot → Shifted (s.mem a) (conv s.head x (sortItem s a)) a x := by
    intro a x h1 h2 h3
    refine ⟨conv_hi _ _ _, ?_, ?_, ?_⟩
    · unfold conv
      by_cases c : (cellGenus (s.mem a)).isInplaced = true ∨ (s.mem a).lo = 0
      · rw [if_pos ((slo' a h1).2 c), slo a h1]
      · rw [if_neg (fun k => c ((slo' a h1).1 k))]
        push Not at c
        have ha := above a h1 h2 (by simpa using c.1) c.2
        have e : (sortItem s a).lo = a + (s.mem a).lo - s.head := by
          unfold sortItem; show (if _ then _ else _) = _; rw [if_neg (by push Not; exact c)]
        show s.head + (sortItem s a).lo - x = 0 ↔ _
        rw [e]
        have c2 := c.2
        constructor
        · intro hz; omega
        · intro hz; exact absurd hz c2
    · intro hi
      unfold conv
      rw [sgen, if_pos (Or.inl hi)]
      unfold sortItem; show (if _ then _ else _) = _; rw [if_pos (Or.inl hi)]
    · intro hi h0
      have c : ¬ ((cellGenus (s.mem a)).isInplaced = true ∨ (s.mem a).lo = 0) := by rw [hi]; simp [h0]
      have ha := above a h1 h2 hi h0
      unfold conv
      rw [if_neg (fun k => c ((slo' a h1).1 k))]
      have e : (sortItem s a).lo = a + (s.mem a).lo - s.head := by
        unfold sortItem; show (if _ then _ else _) = _; rw [if_neg c]
      show x + (s.head + (sortItem s a).lo - x) = _
      rw [e]; omega
  obtain ⟨m', em⟩ := writeIndex_some (head := s.head) (srt items) s.mem s.head (by
    intro c hc
    rw [hlen]
    rw [er, List.mem_map] at hc
    obtain ⟨i, hi, rfl⟩ := hc
    have hi : i < n := List.mem_range.1 (rp.mem_iff.1 hi)
    by_cases c1 : (cellGenus (s.mem (s.head + i))).isInplaced = true
    · exact Or.inl c1
    by_cases c2 : (s.mem (s.head + i)).lo = 0
    · exact Or.inr (Or.inl ((slo _ (by omega)).2 c2))
    · right; right
      have ha := above (s.head + i) (by omega) (by omega) (by simpa using c1) c2
      have e : (sortItem s (s.head + i)).lo = s.head + i + (s.mem (s.head + i)).lo - s.head := by
        unfold sortItem; show (if _ then _ else _) = _
        rw [if_neg (by push Not; exact ⟨c1, c2⟩)]
      beta_reduce
      rw [e]; omega)
  rw [em]
  simp only []
  set t : RW := { s with mem := m' } with ht
  have tm : t.mem = m' := rfl
  have weq := writeIndex_eq _ _ _ _ em
  have whigh : ∀ x, s.pivot ≤ x → m' x = s.mem x := fun x hx => by
    rw [weq x, dif_neg]; rw [hlen]; omega
  let f : Nat → Nat := fun b => s.head + r.getD (b - s.head) 0
  have fb : ∀ b, s.head ≤ b → (hb : b < s.pivot) → ∃ hj : b - s.head < r.length, f b = s.head + r[b - s.head] := by
    intro b h1 h2
    have hj : b - s.head < r.length := by omega
    refine ⟨hj, ?_⟩
    show s.head + r.getD _ 0 = _
    simp [List.getD, hj]
  have flt : ∀ b, s.head ≤ b → b < s.pivot → s.head ≤ f b ∧ f b < s.pivot := by
    intro b h1 h2
    obtain ⟨hj, e⟩ := fb b h1 h2
    have := rlt _ hj
    omega
  have cell : ∀ b, s.head ≤ b → b < s.pivot → m' b = conv s.head b (sortItem s (f b)) := by
    intro b h1 h2
    obtain ⟨hj, e⟩ := fb b h1 h2
    rw [weq b, dif_pos ⟨h1, by omega⟩]
    congr 1
    have : (srt items)[b - s.head]'(by omega) = (r.map fun i => sortItem s (s.head + i))[b - s.head]'(by rw [List.length_map]; exact hj) := by
      simp only [er]
    rw [this, List.getElem_map, e]
  have shift : ∀ b, s.head ≤ b → b < s.pivot → Shifted (s.mem (f b)) (m' b) (f b) b := by
    intro b h1 h2
    rw [cell b h1 h2]
    exact cv _ _ (flt b h1 h2).1 (flt b h1 h2).2 h2
  have finj : ∀ b c, s.head ≤ b → b < s.pivot → s.head ≤ c → c < s.pivot → f b = f c → b = c := by
    intro b c h1 h2 h3 h4 he
    obtain ⟨hj, e⟩ := fb b h1 h2
    obtain ⟨hk, e'⟩ := fb c h3 h4
    have := (List.Nodup.getElem_inj_iff rnd (hi := hj) (hj := hk)).1 (by omega)
    omega
  have fonto : ∀ a, s.head ≤ a → a < s.pivot → ∃ b, s.head ≤ b ∧ b < s.pivot ∧ f b = a := by
    intro a h1 h2
    have : a - s.head ∈ r := rp.mem_iff.2 (List.mem_range.2 (by omega))
    obtain ⟨j, hj, e⟩ := List.mem_iff_getElem.1 this
    refine ⟨s.head + j, by omega, by omega, ?_⟩
    obtain ⟨hj', e'⟩ := fb (s.head + j) (by omega) (by omega)
    rw [e']
    have : s.head + j - s.head = j := by omega
    simp only [this, e]
    omega
  have holeIff : ∀ b, s.head ≤ b → b < s.pivot → (t.isHole b ↔ s.isHole (f b)) := by
    intro b h1 h2
    show (m' b).hi / 2048 = 31 ↔ (s.mem (f b)).hi / 2048 = 31
    rw [(shift b h1 h2).hi]
  have lv : ∀ b, t.live b → s.live (f b) := fun b hb =>
    ⟨(flt b hb.1 hb.2.1).1, (flt b hb.1 hb.2.1).2, fun k => hb.2.2 ((holeIff b hb.1 hb.2.1).2 k)⟩
  have starts : ∀ b, t.live b → (cellGenus (s.mem (f b))).isInplaced = false →
      ((cellGenus (s.mem (f b))).isFixed = true ∨ (s.mem (f b)).lo ≠ 0) → b + (m' b).lo = f b + (s.mem (f b)).lo := by
    intro b hb h1 h2
    refine (shift b hb.1 hb.2.1).start h1 fun h0 => ?_
    have p := (live_pay h (lv b hb) h1 h2).2.1
    have := (lv b hb).2.1
    omega
  have same : ∀ b, t.live b → Same (cellGenus (s.mem (f b))) s.mem t.mem (f b) b := by
    intro b hb
    have sh := shift b hb.1 hb.2.1
    refine ⟨sh.inplaced, sh.null, fun h0 i hi => ?_, fun hf h0 => ?_⟩
    · by_cases hi' : (cellGenus (s.mem (f b))).isInplaced = true
      · obtain ⟨k1, k2⟩ := inplaced_facts _ hi'
        unfold fieldUnits at hi
        rw [if_pos k1, k2] at hi
        omega
      · have hi' : (cellGenus (s.mem (f b))).isInplaced = false := by simpa using hi'
        have p := (live_pay h (lv b hb) hi' h0).2.1
        rw [tm, starts b hb hi' h0]
        exact whigh _ (by omega)
    · have hi' : (cellGenus (s.mem (f b))).isInplaced = false := by
        by_contra k
        rw [(inplaced_facts _ (by simpa using k)).1] at hf
        cases hf
      exact (live_pay h (lv b hb) hi' (Or.inr h0)).1
  have pm : Permuted σ s t f := by
    refine ⟨fun b hb => ⟨lv b hb, (shift b hb.1 hb.2.1).hi, same b hb⟩, fun a ha => ?_,
      fun b c hb hc he => finj b c hb.1 hb.2.1 hc.1 hc.2.1 he, rfl, fun k g hk hp => ⟨?_, preSame k g hk hp m' whigh⟩, fun k hk hp => whigh _ (Nat.le_add_right _ _)⟩
    · obtain ⟨b, k1, k2, rfl⟩ := fonto a ha.1 ha.2.1
      exact ⟨b, ⟨k1, k2, fun k => ha.2.2 ((holeIff b k1 k2).1 k)⟩, rfl⟩
    · show (m' (s.pivot + k)).hi = _
      rw [whigh _ (by omega)]
  refine ⟨true, t, f, rfl, pm, rfl, rfl, rfl, rfl, rfl, rfl, rfl, fun a c h1 h2 h3 => ?_, (fun k => absurd k (by decide)), fun hj => ?_⟩
  · have h3 : c < s.pivot := h3
    have h1 : s.head ≤ a := h1
    show (m' c).hi ≤ (m' a).hi
    rw [weq c, dif_pos ⟨by omega, by omega⟩, weq a, dif_pos ⟨h1, by omega⟩, conv_hi, conv_hi]
    exact List.pairwise_iff_getElem.1 sorted _ _ _ _ (by omega)
  · have nh := jc_no_holes h hj
    have nh' : ∀ a, t.head ≤ a → a < t.pivot → ¬ t.isHole a := fun a h1 h2 k =>
      nh (f a) (flt a h1 h2).1 (flt a h1 h2).2 ((holeIff a h1 h2).1 k)
    have tz : ∀ ψ : Nat → Cell → ℤ, (∀ a c, ¬ Cell.isHole c → ψ a c = 0) → ∀ q : RW, (∀ a, q.head ≤ a → a < q.pivot → ¬ q.isHole a) →
        T ψ q.mem q.head q.pivot = 0 := by
      intro ψ hψ q nq
      unfold T
      refine Finset.sum_eq_zero fun a ha => ?_
      rw [Finset.mem_Ico] at ha
      exact hψ _ _ (nq a ha.1 ha.2)
    refine ⟨⟨⟨hhp, hbt, htl, h.inv.ll, fun u => ?_, ?_, ?_, fun _ => le_rfl⟩,
      ⟨fun a ha => absurd ha.2.2 (nh' a ha.1 ha.2.1), fun a _ ha => absurd ha.2.2 (nh' a ha.1 ha.2.1), fun hlt hh => absurd hh (nh' _ le_rfl hlt)⟩,
      fun a ha => ?_, fun a g hs h0 => ?_, h.sch⟩, fun a h1 h2 _ => PC.field (nh' a h1 h2)⟩
    · rw [add_zero, T_cov σ t hhp u, covHoles_none nh', zero_add]
      have c := h.inv.cover u
      rw [T_cov σ s hhp u, add_zero, covHoles_none nh, zero_add] at c
      refine Eq.trans ?_ c
      unfold cov
      have e1 : ∑ a ∈ liveSet t, ind (a + (t.mem a).lo) (fieldUnits t.mem (cellGenus (t.mem a)) a) u =
          ∑ a ∈ liveSet s, ind (a + (s.mem a).lo) (fieldUnits s.mem (cellGenus (s.mem a)) a) u := by
        refine Finset.sum_nbij f (fun b hb => mem_liveSet.2 (lv b (mem_liveSet.1 hb)))
          (fun b hb d hd he => pm.inj _ _ (mem_liveSet.1 hb) (mem_liveSet.1 hd) he) (fun a ha => ?_) (fun b hb => ?_)
        · obtain ⟨b, hb, rfl⟩ := pm.onto a (mem_liveSet.1 ha)
          exact ⟨b, mem_liveSet.2 hb, rfl⟩
        · have hb := mem_liveSet.1 hb
          have e : cellGenus (t.mem b) = cellGenus (s.mem (f b)) := by unfold cellGenus; rw [tm, (shift b hb.1 hb.2.1).hi]
          rw [e, (same b hb).units]
          by_cases hz : fieldUnits s.mem (cellGenus (s.mem (f b))) (f b) = 0
          · rw [hz, ind_zero, ind_zero]
          · have hi' : (cellGenus (s.mem (f b))).isInplaced = false := by
              by_contra k
              obtain ⟨k1, k2⟩ := inplaced_facts _ (by simpa using k)
              unfold fieldUnits at hz
              rw [if_pos k1, k2] at hz
              exact hz rfl
            have h0 : (cellGenus (s.mem (f b))).isFixed = true ∨ (s.mem (f b)).lo ≠ 0 := by
              by_contra k
              push Not at k
              unfold fieldUnits at hz
              rw [if_neg k.1, if_pos k.2] at hz
              exact hz rfl
            rw [tm, starts b hb hi' h0]
      rw [e1]
      congr 1
      refine Finset.sum_congr rfl fun k hk => ?_
      have hk : k < s.pre := Finset.mem_range.1 hk
      cases hσ : σ k with
      | none => rfl
      | some g =>
        have := (preSame k g hσ hk m' whigh).units
        show ind (s.pivot + k + (m' (s.pivot + k)).lo) (fieldUnits m' g (s.pivot + k)) u = _
        rw [this, whigh _ (by omega)]
    · show (s.jc : ℤ) = T phiC t.mem t.head t.pivot
      rw [tz phiC (fun a c k => by unfold phiC; rw [if_neg k]) t nh', hj]; rfl
    · show (s.jv : ℤ) = T phiV t.mem t.head t.pivot
      rw [tz phiV (fun a c k => by unfold phiV; rw [if_neg k]) t nh', h.inv.vol]
      exact tz phiV (fun a c k => by unfold phiV; rw [if_neg k]) s nh
    · show (m' a).hi < 65536
      rw [(shift a ha.1 ha.2.1).hi]; exact h.word _ (lv a ha)
    · rw [FieldAt.len (g := g) hs.2]
      rcases hs.2 with ⟨k1, k2⟩ | ⟨k1, k2, k3⟩
      · obtain ⟨l1, l2, l3⟩ := pm.live a k1
        have e : cellGenus (s.mem (f a)) = g := by rw [← k2]; unfold cellGenus; rw [l2]
        rw [e] at l3
        rw [l3.units]
        exact l3.pos hs.1 fun k => h0 (l3.null.2 k)
      · have k1 : s.pivot ≤ a := k1
        have k2 : a < s.base := k2
        have k3 : σ (a - s.pivot) = some g := k3
        obtain ⟨k, rfl⟩ : ∃ k, a = s.pivot + k := ⟨a - s.pivot, by omega⟩
        rw [Nat.add_sub_cancel_left] at k3
        have l3 := preSame k g k3 (by omega) m' whigh
        show 0 < fieldUnits m' g (s.pivot + k)
        rw [l3.units]
        exact l3.pos hs.1 fun k => h0 (l3.null.2 k)

/-! ## The doubled vector -/

/-- In a list sorted by descending word, with `n` positive words, everything from place `n` on is zero. -/
theorem sorted_tail {l : List Cell} (hs : l.Pairwise fun a b => b.hi ≤ a.hi) {n : Nat} (hc : l.countP (fun c => decide (0 < c.hi)) = n)
    {i : Nat} (hi : i < l.length) (hn : n ≤ i) : (l[i]).hi = 0 := by
  by_contra hz
  have h1 : (l.take (i + 1)).countP (fun c => decide (0 < c.hi)) = i + 1 := by
    have hl : (l.take (i + 1)).length = i + 1 := by rw [List.length_take]; omega
    rw [List.countP_eq_length.2, hl]
    intro c hcm
    obtain ⟨j, hj, rfl⟩ := List.mem_iff_getElem.1 hcm
    rw [List.getElem_take]
    rw [decide_eq_true_eq]
    have hj' : j < i + 1 := by omega
    rcases Nat.lt_or_ge j i with k | k
    · have := List.pairwise_iff_getElem.1 hs j i (by omega) hi k
      omega
    · have : j = i := by omega
      subst this; omega
  have h2 := (List.take_sublist (i + 1) l).countP_le (p := fun c => decide (0 < c.hi))
  omega

/-- The sort of the code overwrites as many units after the index as the index has entries. -/
theorem sort_destroys {srt : List Cell → List Cell} (hsrt : GidSorter srt) {s t : RW} {b : Bool}
    (hu : indexSorted s = false) (hpos : ∀ a, s.head ≤ a → a < s.pivot → (s.mem a).hi ≠ 0)
    (h : sortWith true srt s = .ok b t) : ∀ i, i < s.pivot - s.head → t.mem (s.pivot + i) = ⟨0, 0⟩ := by
  unfold sortWith at h
  rw [hu] at h
  simp only [Bool.false_eq_true, if_false, if_true] at h
  set n := s.pivot - s.head with hn
  set items := List.replicate n (⟨0, 0⟩ : Cell) ++ (List.range n).map fun i => sortItem s (s.head + i) with hitems
  have hil : items.length = n + n := by rw [hitems]; simp
  by_cases c : s.head + items.length > s.lim
  · rw [if_pos c] at h; cases h
  rw [if_neg c] at h
  cases em : writeIndex s.head (srt items) s.mem s.head with
  | none => rw [em] at h; cases h
  | some m' =>
    rw [em] at h
    injection h with _ h
    intro i hi
    rw [← h]
    show m' (s.pivot + i) = _
    obtain ⟨perm, sorted⟩ := hsrt items
    have hsl : (srt items).length = n + n := perm.length_eq.trans hil
    rw [writeIndex_eq _ _ _ _ em, dif_pos ⟨by omega, by omega⟩]
    have hcount : (srt items).countP (fun c => decide (0 < c.hi)) = n := by
      rw [perm.countP_eq, hitems, List.countP_append]
      have e1 : (List.replicate n (⟨0, 0⟩ : Cell)).countP (fun c => decide (0 < c.hi)) = 0 := by
        rw [List.countP_eq_zero]
        intro c hc
        rw [(List.mem_replicate.1 hc).2]; simp
      have e2 : ((List.range n).map fun i => sortItem s (s.head + i)).countP (fun c => decide (0 < c.hi)) = n := by
        have : ((List.range n).map fun i => sortItem s (s.head + i)).length = n := by simp
        rw [List.countP_eq_length.2, this]
        intro c hc
        obtain ⟨j, hj, rfl⟩ := List.mem_map.1 hc
        have hj := List.mem_range.1 hj
        rw [decide_eq_true_eq]
        exact Nat.pos_of_ne_zero (hpos (s.head + j) (by omega) (by omega))
      omega
    have hz := sorted_tail sorted hcount (i := s.pivot + i - s.head) (by omega) (by omega)
    have hmem : (srt items)[s.pivot + i - s.head]'(by omega) ∈ items := perm.mem_iff.1 (List.getElem_mem _)
    have : (srt items)[s.pivot + i - s.head]'(by omega) = ⟨0, 0⟩ := by
      rcases List.mem_append.1 hmem with k | k
      · exact (List.mem_replicate.1 k).2
      · exfalso
        obtain ⟨j, hj, e⟩ := List.mem_map.1 k
        have hj := List.mem_range.1 hj
        rw [← e] at hz
        exact hpos (s.head + j) (by omega) (by omega) hz
    rw [this]
    rfl

end Fptu.Compact
