import Verif.Lemmas.CompactIndex
import Verif.Lemmas.TuplePure
/-!
# Second pass of the compaction: payloads without gaps
-/
namespace Fptu.Compact
open Fptu.Gear Fptu.Rw Finset

theorem copyUp_apply : ∀ n (m : Memory) d p, d ≤ p → ∀ x,
    copyUp m d p n x = if d ≤ x ∧ x < d + n then m (p + (x - d)) else m x := by
  intro n
  induction n with
  | zero => intro m d p _ x; rw [if_neg (by omega)]; rfl
  | succ n ih =>
    intro m d p hdp x
    show copyUp (m.set d (m p)) (d + 1) (p + 1) n x = _
    rw [ih _ _ _ (by omega)]
    unfold Memory.set
    by_cases hx : x = d
    · rw [if_neg (by omega), if_pos hx, if_pos (by omega), hx, Nat.sub_self, Nat.add_zero]
    · by_cases c : d ≤ x ∧ x < d + (n + 1)
      · rw [if_pos (by omega), if_pos c, if_neg (by omega), show p + 1 + (x - (d + 1)) = p + (x - d) by omega]
      · rw [if_neg (by omega), if_neg c, if_neg hx]

def total (l : List Item) : Nat := (l.map Item.len).sum

theorem total_cons (i : Item) (l : List Item) : total (i :: l) = i.len + total l := by
  unfold total; rw [List.map_cons, List.sum_cons]

/-- A list of chunks that can be moved down to `d`: referrers are distinct and below `lim`, chunks follow each other. -/
structure Movable (lim : Nat) (items : List Item) (m : Memory) (d : Nat) : Prop where
  ld : lim ≤ d
  ref : ∀ i ∈ items, i.ref < lim ∧ (m i.ref).lo = i.start - i.ref ∧ d ≤ i.start
  apart : items.Pairwise fun i j => i.ref ≠ j.ref ∧ i.start + i.len ≤ j.start

structure MovedTo (items : List Item) (m : Memory) (d : Nat) (m' : Memory) : Prop where
  keep : ∀ x, x < d → (∀ i ∈ items, i.ref ≠ x) → m' x = m x
  hi : ∀ x, x < d → (m' x).hi = (m x).hi
  chunk : ∀ l i l', items = l ++ i :: l' → (m' i.ref).lo = d + total l - i.ref ∧ ∀ j, j < i.len → m' (d + total l + j) = m (i.start + j)

theorem moveChunks_spec (lim : Nat) : ∀ items (m : Memory) d, Movable lim items m d →
    ∃ m', moveChunks items m d = some (m', d + total items) ∧ MovedTo items m d m' := by
  intro items
  induction items with
  | nil =>
    intro m d h
    exact ⟨m, rfl, fun _ _ _ => rfl, fun _ _ => rfl, fun l i l' h => by simp at h⟩
  | cons i is ih =>
    intro m d h
    have hld := h.ld
    obtain ⟨r1, r2, r3⟩ := h.ref i (List.mem_cons_self ..)
    have hap := List.pairwise_cons.1 h.apart
    have hrest := (List.forall_mem_cons.1 h.ref).2
    set m1 : Memory := if i.start = d then m else copyUp (m.set i.ref ⟨(m i.ref).lo - (i.start - d), (m i.ref).hi⟩) d i.start i.len with hm1
    have estep : moveChunks (i :: is) m d = moveChunks is m1 (d + i.len) := by
      show (if i.start < d then none else if i.start = d then moveChunks is m (d + i.len)
        else if (m i.ref).lo ≤ i.start - d then none else moveChunks is _ (d + i.len)) = _
      rw [if_neg (by omega), hm1]
      by_cases c : i.start = d
      · rw [if_pos c, if_pos c]
      · rw [if_neg c, if_neg c, if_neg (by omega)]
    have low : ∀ x, x < d → x ≠ i.ref → m1 x = m x := by
      intro x h1 h2
      rw [hm1]
      split_ifs with c
      · rfl
      · rw [copyUp_apply _ _ _ _ r3, if_neg (by omega)]
        unfold Memory.set; rw [if_neg h2]
    have lowr : m1 i.ref = ⟨d - i.ref, (m i.ref).hi⟩ := by
      rw [hm1]
      split_ifs with c
      · have : m i.ref = ⟨(m i.ref).lo, (m i.ref).hi⟩ := rfl
        rw [this, r2, c]
      · rw [copyUp_apply _ _ _ _ r3, if_neg (by omega)]
        unfold Memory.set; rw [if_pos rfl, r2]
        congr 1; omega
    have body : ∀ j, j < i.len → m1 (d + j) = m (i.start + j) := by
      intro j hj
      rw [hm1]
      split_ifs with c
      · rw [c]
      · rw [copyUp_apply _ _ _ _ r3, if_pos (by omega), Nat.add_sub_cancel_left]
        unfold Memory.set; rw [if_neg (by omega)]
    have high : ∀ x, i.start + i.len ≤ x → m1 x = m x := by
      intro x hx
      rw [hm1]
      split_ifs with c
      · rfl
      · rw [copyUp_apply _ _ _ _ r3, if_neg (by omega)]
        unfold Memory.set; rw [if_neg (by omega)]
    have mv : Movable lim is m1 (d + i.len) := by
      refine ⟨by omega, fun j hj => ?_, hap.2⟩
      obtain ⟨k1, k2, k3⟩ := hrest j hj
      obtain ⟨a1, a2⟩ := hap.1 j hj
      exact ⟨k1, by rw [low _ (by omega) (Ne.symm a1)]; exact k2, by omega⟩
    obtain ⟨m', e, q⟩ := ih m1 (d + i.len) mv
    refine ⟨m', by rw [estep, e, total_cons, Nat.add_assoc], fun x hx hn => ?_, fun x hx => ?_, fun l j l' hl => ?_⟩
    · rw [List.forall_mem_cons] at hn
      rw [q.keep x (by omega) hn.2, low x hx (Ne.symm hn.1)]
    · rw [q.hi x (by omega)]
      by_cases hx' : x = i.ref
      · rw [hx', lowr]
      · rw [low x hx hx']
    · cases l with
      | nil =>
        rw [List.nil_append] at hl
        injection hl with e1 e2
        subst e1
        have hk : ∀ j ∈ is, j.ref ≠ i.ref := fun j hj => Ne.symm (hap.1 j hj).1
        have ht : total [] = 0 := rfl
        rw [ht, Nat.add_zero]
        refine ⟨by rw [q.keep _ (by omega) hk, lowr], fun j hj => ?_⟩
        rw [q.keep _ (by omega) (fun k hk' => by have := (hrest k hk').1; omega)]
        exact body j hj
      | cons a l =>
        rw [List.cons_append] at hl
        injection hl with e1 e2
        obtain ⟨k1, k2⟩ := q.chunk l j l' e2
        have hmem : j ∈ is := by rw [e2]; simp
        rw [← e1, total_cons, ← Nat.add_assoc]
        refine ⟨k1, fun x hx => ?_⟩
        rw [k2 x hx]
        have := (hap.1 j hmem).2
        exact high _ (by omega)

/-! ## The list of chunks -/

theorem mem_looseItems {m : Memory} {head : Nat} {i : Item} : ∀ n, i ∈ looseItems m head n ↔
    ∃ a, head ≤ a ∧ a < head + n ∧ (cellGenus (m a)).isInplaced = false ∧ (m a).lo ≠ 0 ∧ i = looseItem m a := by
  intro n
  induction n with
  | zero => exact ⟨fun h => by simp [looseItems] at h, fun ⟨a, h1, h2, _⟩ => by omega⟩
  | succ n ih =>
    unfold looseItems
    by_cases c : ¬ (cellGenus (m (head + n))).isInplaced = true ∧ (m (head + n)).lo ≠ 0
    · rw [if_pos c, List.mem_cons, ih]
      constructor
      · rintro (h | ⟨a, h1, h2, h3⟩)
        · exact ⟨head + n, by omega, by omega, by simpa using c.1, c.2, h⟩
        · exact ⟨a, h1, by omega, h3⟩
      · rintro ⟨a, h1, h2, h3, h4, h5⟩
        by_cases ha : a = head + n
        · left; rw [h5, ha]
        · right; exact ⟨a, h1, by omega, h3, h4, h5⟩
    · rw [if_neg c, ih]
      constructor
      · rintro ⟨a, h1, h2, h3⟩; exact ⟨a, h1, by omega, h3⟩
      · rintro ⟨a, h1, h2, h3, h4, h5⟩
        by_cases ha : a = head + n
        · rw [ha] at h3 h4
          exact absurd ⟨by simpa using h3, h4⟩ c
        · exact ⟨a, h1, by omega, h3, h4, h5⟩

theorem looseItems_nodup {m : Memory} {head : Nat} : ∀ n, (looseItems m head n).Pairwise fun i j => i.ref ≠ j.ref := by
  intro n
  induction n with
  | zero => exact List.Pairwise.nil
  | succ n ih =>
    unfold looseItems
    split_ifs
    · refine List.pairwise_cons.2 ⟨fun j hj => ?_, ih⟩
      obtain ⟨a, h1, h2, _, _, h5⟩ := (mem_looseItems n).1 hj
      rw [h5]
      show head + n ≠ a
      omega
    · exact ih

/-- The chunk of the stretchy preplaced field in unit `k`. -/
def preItem (m : Memory) (pivot : Nat) (g : Genus) (k : Nat) : Item := ⟨pivot + k + (m (pivot + k)).lo, fieldUnits m g (pivot + k), pivot + k⟩

theorem preItems_spec {guard : Bool} {σ : Sch} {m : Memory} {pivot : Nat} : ∀ n,
    (guard = true ∨ ∀ k g, k < n → σ k = some g → (m (pivot + k)).lo ≠ 0) →
    ∃ l, preItems guard σ m pivot n = some l ∧ (l.Pairwise fun i j => i.ref ≠ j.ref) ∧
      ∀ i, i ∈ l ↔ ∃ k g, k < n ∧ σ k = some g ∧ (m (pivot + k)).lo ≠ 0 ∧ i = preItem m pivot g k := by
  intro n
  induction n with
  | zero => exact fun _ => ⟨[], rfl, List.Pairwise.nil, fun i => ⟨fun h => by simp at h, fun ⟨k, g, h1, _⟩ => by omega⟩⟩
  | succ n ih =>
    intro hg
    obtain ⟨l, e, hp, hm⟩ := ih (hg.imp_right fun k a g h1 => k a g (by omega))
    unfold preItems
    have drop : (σ n = none ∨ (m (pivot + n)).lo = 0) → ∀ i, i ∈ l ↔ ∃ k g, k < n + 1 ∧ σ k = some g ∧ (m (pivot + k)).lo ≠ 0 ∧ i = preItem m pivot g k := by
      intro hd i
      rw [hm]
      constructor
      · rintro ⟨k, g, h1, h2⟩; exact ⟨k, g, by omega, h2⟩
      · rintro ⟨k, g, h1, h2, h3, h4⟩
        have : k ≠ n := by
          intro hk
          rw [hk] at h2 h3
          rcases hd with hd | hd
          · rw [hd] at h2; cases h2
          · exact h3 hd
        exact ⟨k, g, by omega, h2, h3, h4⟩
    cases hσ : σ n with
    | none => exact ⟨l, e, hp, drop (Or.inl hσ)⟩
    | some g =>
      simp only []
      by_cases h0 : (m (pivot + n)).lo = 0
      · have hg' : guard = true := hg.resolve_right fun k => k n g (by omega) hσ h0
        rw [if_pos h0, if_pos hg']
        exact ⟨l, e, hp, drop (Or.inr h0)⟩
      · rw [if_neg h0, e]
        refine ⟨preItem m pivot g n :: l, rfl, List.pairwise_cons.2 ⟨fun j hj => ?_, hp⟩, fun i => ?_⟩
        · obtain ⟨k, g', h1, _, _, h4⟩ := (hm j).1 hj
          rw [h4]
          show pivot + n ≠ pivot + k
          omega
        · rw [List.mem_cons, hm]
          constructor
          · rintro (h | ⟨k, g', h1, h2⟩)
            · exact ⟨n, g, by omega, hσ, h0, h⟩
            · exact ⟨k, g', by omega, h2⟩
          · rintro ⟨k, g', h1, h2, h3, h4⟩
            by_cases hk : k = n
            · left
              rw [hk, hσ] at h2
              injection h2 with h2
              rw [h4, hk, h2]
            · right; exact ⟨k, g', by omega, h2, h3, h4⟩

/-- The chunks one after another cover the range exactly once. -/
theorem sum_ind_list {ψ : Item → ℤ} {u : Nat} : ∀ (items : List Item) (d : Nat),
    (∀ l i l', items = l ++ i :: l' → ψ i = ind (d + total l) i.len u) → (items.map ψ).sum = ind d (total items) u := by
  intro items
  induction items with
  | nil => intro d _; show 0 = ind d 0 u; rw [ind_zero]
  | cons i is ih =>
    intro d h
    rw [List.map_cons, List.sum_cons, total_cons, ind_add]
    have h1 := h [] i is rfl
    rw [h1]
    have := ih (d + i.len) fun l j l' hl => by
      rw [h (i :: l) j l' (by rw [hl]; rfl), total_cons, Nat.add_assoc]
    rw [this]
    rfl

/-- Sum over an interval of a quantity that vanishes outside the listed places. -/
theorem sum_refs {φ : Nat → ℤ} {lo hi : Nat} {l : List Item} (hnd : l.Pairwise fun i j => i.ref ≠ j.ref)
    (hin : ∀ i ∈ l, lo ≤ i.ref ∧ i.ref < hi) (hz : ∀ a, lo ≤ a → a < hi → (∀ i ∈ l, i.ref ≠ a) → φ a = 0) :
    ∑ a ∈ Ico lo hi, φ a = (l.map fun i => φ i.ref).sum := by
  have hnd' : (l.map Item.ref).Nodup := by
    rw [List.Nodup, List.pairwise_map]; exact hnd
  have e : (l.map fun i => φ i.ref).sum = ∑ a ∈ (l.map Item.ref).toFinset, φ a := by
    rw [List.sum_toFinset _ hnd', List.map_map]; rfl
  rw [e]
  refine (Finset.sum_subset (fun a ha => ?_) fun a ha hn => ?_).symm
  · rw [List.mem_toFinset, List.mem_map] at ha
    obtain ⟨i, hi, rfl⟩ := ha
    exact Finset.mem_Ico.2 (hin i hi)
  · rw [Finset.mem_Ico] at ha
    refine hz a ha.1 ha.2 fun i hi he => hn ?_
    rw [List.mem_toFinset, List.mem_map]
    exact ⟨i, hi, he⟩

/-- No stretchy preplaced field is null. -/
def NoNilPre (σ : Sch) (s : RW) : Prop := ∀ k g, k < s.pre → σ k = some g → (s.mem (s.pivot + k)).lo ≠ 0

/-- The second pass, on a tuple without holes in the index and with `ex` marking the gaps. -/
theorem closeGaps_spec {guard : Bool} {srt : List Item → List Item} (hsrt : Sorter srt) {σ : Sch} {t : RW} {ex : Nat → ℤ}
    (hi : Inv { t with jv := 0 } (lenOf σ t) ex) (nh : ∀ a, t.head ≤ a → a < t.pivot → ¬ t.isHole a)
    (hw : ∀ a, t.live a → (t.mem a).hi < 65536) (hsch : ∀ k g, σ k = some g → g.isFixed = false)
    (hpos : ∀ a g, StretchyAt σ t a g → (t.mem a).lo ≠ 0 → 0 < lenOf σ t a)
    (htot : t.tail - t.base = t.jv + payloadOf σ t) (hjc : t.jc = 0) (hj0 : t.jv = 0 → ∀ u, ex u = 0)
    (hnil : guard = true ∨ t.jv = 0 ∨ NoNilPre σ t) :
    ∃ u, closeGaps guard srt σ t = .ok () u ∧ Copied σ t u id ∧ WF σ u ∧ u.head = t.head ∧ u.pivot = t.pivot ∧ u.pre = t.pre ∧
      u.tail = t.tail - t.jv ∧ u.lim = t.lim ∧ u.jc = 0 ∧ u.jv = 0 ∧ (∀ a, u.head ≤ a → a < u.pivot → ¬ u.isHole a) := by
  have hbase : t.base = t.pivot + t.pre := rfl
  have hhp : t.head ≤ t.pivot := hi.hp
  have hbt : t.base ≤ t.tail := hi.bt
  have hposF : ∀ a g, FieldAt σ t a g → g.isInplaced = false → (g.isFixed = true ∨ (t.mem a).lo ≠ 0) → 0 < fieldUnits t.mem g a := by
    intro a g hf hip h0
    by_cases hfx : g.isFixed = true
    · unfold fieldUnits; rw [if_pos hfx]
      refine fixed_pos g hfx hip ?_
      rcases hf with ⟨k1, k2⟩ | ⟨_, _, k3⟩
      · rw [← k2]; exact live_genus k1 (hw a k1)
      · rintro rfl; have := hsch _ _ k3; cases this
    · rw [← hf.len]; exact hpos a g ⟨by simpa using hfx, hf⟩ (h0.resolve_left hfx)
  have notInp : ∀ g : Genus, g.isFixed = false → g.isInplaced = false := fun g hf => by
    by_contra k
    rw [(inplaced_facts g (by simpa using k)).1] at hf
    cases hf
  have clenEq : ∀ a, t.head ≤ a → clen t.pivot (lenOf σ t) a (t.mem a) = lenOf σ t a := by
    intro a h1
    unfold clen
    rw [if_neg (fun k => nh a h1 k.1 k.2)]
  have sameRefl : ∀ a g, FieldAt σ t a g → Same g t.mem t.mem a a := fun a g hf =>
    Same.refl fun hfx h0 => hposF a g hf (notInp g hfx) (Or.inr h0)
  unfold closeGaps
  by_cases hj : t.jv = 0
  · rw [if_pos hj]
    refine ⟨t, rfl, ⟨fun b hb => ⟨hb, rfl, sameRefl b _ (Or.inl ⟨hb, rfl⟩)⟩, fun a ha => ⟨a, ha, rfl⟩, fun _ _ _ _ k => k, rfl,
      fun k g hk hp => ⟨rfl, sameRefl _ _ (Or.inr ⟨by omega, by omega, by rw [Nat.add_sub_cancel_left]; exact hk⟩)⟩, fun _ _ _ => rfl⟩,
      ⟨⟨hi.hp, hi.bt, hi.tl, hi.ll, fun u => ?_, hi.cnt, ?_, fun _ => le_rfl⟩,
        ⟨fun a ha => absurd ha.2.2 (nh a ha.1 ha.2.1), fun a _ ha => absurd ha.2.2 (nh a ha.1 ha.2.1), fun hlt hh => absurd hh (nh _ le_rfl hlt)⟩,
        hw, hpos, hsch⟩, rfl, rfl, rfl, by omega, rfl, hjc, hj, nh⟩
    · have := hi.cover u
      rw [hj0 hj u] at this
      exact this
    · rw [hj]; exact hi.vol
  rw [if_neg hj]
  obtain ⟨ps, eps, ndp, memp⟩ := preItems_spec (guard := guard) (σ := σ) (m := t.mem) (pivot := t.pivot) t.pre
    (hnil.imp_right fun k => (k.resolve_left hj))
  rw [eps]
  simp only []
  set items := ps ++ looseItems t.mem t.head (t.pivot - t.head) with hitems
  obtain ⟨perm, sorted⟩ := hsrt items
  -- what the items are
  have memI : ∀ i, i ∈ items → t.head ≤ i.ref ∧ i.ref < t.base ∧ i.start = i.ref + (t.mem i.ref).lo ∧ (t.mem i.ref).lo ≠ 0 ∧
      ∃ g, FieldAt σ t i.ref g ∧ g.isInplaced = false ∧ i.len = fieldUnits t.mem g i.ref := by
    intro i hmi
    rcases List.mem_append.1 hmi with hk | k
    · obtain ⟨k, g, h1, h2, h3, rfl⟩ := (memp i).1 hk
      refine ⟨?_, ?_, rfl, h3, g, Or.inr ⟨?_, ?_, ?_⟩, notInp g (hsch _ _ h2), rfl⟩
      · show t.head ≤ t.pivot + k; omega
      · show t.pivot + k < t.base; omega
      · show t.pivot ≤ t.pivot + k; omega
      · show t.pivot + k < t.base; omega
      · show σ (t.pivot + k - t.pivot) = _
        rw [Nat.add_sub_cancel_left]; exact h2
    · obtain ⟨a, h1, h2, h3, h4, rfl⟩ := (mem_looseItems _).1 k
      refine ⟨h1, ?_, rfl, h4, _, Or.inl ⟨⟨h1, ?_, nh a h1 (by omega)⟩, rfl⟩, h3, rfl⟩
      · show a < t.base; omega
      · show a < t.pivot; omega
  have isItem : ∀ a g, FieldAt σ t a g → g.isInplaced = false → (t.mem a).lo ≠ 0 → ∃ i ∈ items, i.ref = a ∧ i.len = fieldUnits t.mem g a := by
    intro a g hf h1 h2
    rcases hf with ⟨k1, k2⟩ | ⟨k1, k2, k3⟩
    · refine ⟨looseItem t.mem a, List.mem_append_right _ ((mem_looseItems _).2 ⟨a, k1.1, ?_, by rw [k2]; exact h1, h2, rfl⟩), rfl, ?_⟩
      · have := k1.2.1; omega
      · rw [← k2]; rfl
    · obtain ⟨k, rfl⟩ : ∃ k, a = t.pivot + k := ⟨a - t.pivot, by omega⟩
      rw [Nat.add_sub_cancel_left] at k3
      exact ⟨preItem t.mem t.pivot g k, List.mem_append_left _ ((memp _).2 ⟨k, g, by omega, k3, h2, rfl⟩), rfl, rfl⟩
  have nd : items.Pairwise fun i j => i.ref ≠ j.ref := by
    rw [hitems]
    refine List.pairwise_append.2 ⟨ndp, looseItems_nodup _, fun i h1 j h2 => ?_⟩
    obtain ⟨k, g, _, _, _, rfl⟩ := (memp i).1 h1
    obtain ⟨a, _, h3, _, _, rfl⟩ := (mem_looseItems _).1 h2
    show t.pivot + k ≠ a
    omega
  have lenI : ∀ i, i ∈ items → 0 < i.len ∧ lenOf σ t i.ref = i.len ∧ t.base ≤ i.start ∧ i.start + i.len ≤ t.tail := by
    intro i hmi
    obtain ⟨h1, h2, h3, h4, g, hf, hip, hl⟩ := memI i hmi
    have e1 : lenOf σ t i.ref = i.len := by rw [hf.len, hl]
    have e2 : 0 < i.len := by rw [hl]; exact hposF _ _ hf hip (Or.inr h4)
    have := hi.inside (a := i.ref) h1 h2 (by rw [clenEq _ h1, e1]; exact e2)
    rw [clenEq _ h1, e1] at this
    have k1 : t.base ≤ i.ref + (t.mem i.ref).lo := this.1
    have k2 : i.ref + (t.mem i.ref).lo + i.len ≤ t.tail := this.2
    exact ⟨e2, e1, by omega, by omega⟩
  have disj : ∀ i j, i ∈ items → j ∈ items → i.ref ≠ j.ref → i.start ≤ j.start → i.start + i.len ≤ j.start := by
    intro i j h1 h2 h3 h4
    obtain ⟨a1, a2, a3, a4, _⟩ := memI i h1
    obtain ⟨b1, b2, b3, b4, _⟩ := memI j h2
    obtain ⟨c1, c2, c3, c4⟩ := lenI i h1
    obtain ⟨d1, d2, d3, d4⟩ := lenI j h2
    by_contra hc
    have := hi.disjoint h3 a1 a2 b1 b2 j.start
    rw [clenEq _ a1, clenEq _ b1, c2, d2] at this
    have e1 : ind (i.ref + (t.mem i.ref).lo) i.len j.start = 1 := by
      rw [← a3]; unfold ind; rw [if_pos (by omega)]
    have e2 : ind (j.ref + (t.mem j.ref).lo) j.len j.start = 1 := by
      rw [← b3]; exact ind_start d1
    have this : ind (i.ref + (t.mem i.ref).lo) i.len j.start + ind (j.ref + (t.mem j.ref).lo) j.len j.start + ex j.start ≤ _ := this
    rw [e1, e2] at this
    have k1 := hi.exnn j.start
    have k2 := ind_le_one t.base (t.tail - t.base) j.start
    have this : (1:ℤ) + 1 + ex j.start ≤ ind t.base (t.tail - t.base) j.start := this
    omega
  have nd2 : (srt items).Pairwise fun i j => i.ref ≠ j.ref := (perm.pairwise_iff fun h => Ne.symm h).2 nd
  have mv : Movable t.base (srt items) t.mem t.base := by
    refine ⟨le_rfl, fun i hmi => ?_, ?_⟩
    · obtain ⟨h1, h2, h3, _⟩ := memI i (perm.mem_iff.1 hmi)
      exact ⟨h2, by omega, (lenI i (perm.mem_iff.1 hmi)).2.2.1⟩
    · refine List.Pairwise.imp_of_mem ?_ (nd2.and sorted)
      intro i j h1 h2 h3
      exact ⟨h3.1, disj i j (perm.mem_iff.1 h1) (perm.mem_iff.1 h2) h3.1 h3.2⟩
  obtain ⟨m', emv, q⟩ := moveChunks_spec _ _ _ _ mv
  rw [emv]
  simp only []
  set u : RW := { t with mem := m', tail := t.tail - t.jv, jv := 0 } with hu
  have um : u.mem = m' := rfl
  -- cells that are not referrers stay
  have keep : ∀ x, x < t.base → (∀ i ∈ items, i.ref ≠ x) → m' x = t.mem x := fun x hx hn => q.keep x hx fun i hi' => hn i (perm.mem_iff.1 hi')
  have same : ∀ a g, a < t.base → FieldAt σ t a g → Same g t.mem m' a a := by
    intro a g hab hf
    by_cases c : g.isInplaced = false ∧ (t.mem a).lo ≠ 0
    · obtain ⟨i, h1, rfl, h3⟩ := isItem a g hf c.1 c.2
      obtain ⟨l, l', hl⟩ := List.append_of_mem (perm.mem_iff.2 h1)
      obtain ⟨k1, k2⟩ := q.chunk l i l' hl
      obtain ⟨_, r2, r3, _⟩ := memI i h1
      refine ⟨fun k => absurd (k.symm.trans c.1) (by decide), ?_, fun _ j hj => ?_, fun hfx h0 => hposF _ _ hf c.1 (Or.inr h0)⟩
      · rw [k1]
        constructor
        · intro hz; omega
        · intro hz; exact absurd hz c.2
      · rw [k1, ← r3, show i.ref + (t.base + total l - i.ref) = t.base + total l by omega]
        exact k2 j (by rw [h3]; exact hj)
    · have hn : ∀ i ∈ items, i.ref ≠ a := by
        rintro i h1 rfl
        obtain ⟨_, _, _, r4, g', hf', hip', _⟩ := memI i h1
        have : g' = g := by
          rcases hf with ⟨k1, k2⟩ | ⟨k1, k2, k3⟩ <;> rcases hf' with ⟨l1, l2⟩ | ⟨l1, l2, l3⟩
          · rw [← k2, ← l2]
          · have := k1.2.1; omega
          · have := l1.2.1; omega
          · rw [k3] at l3; injection l3 with l3; exact l3.symm
        rw [this] at hip'
        exact c ⟨hip', r4⟩
      have e := keep a hab hn
      refine ⟨fun _ => by rw [e], by rw [e], fun h0 j hj => ?_, fun hfx h0 => hposF _ _ hf (notInp g hfx) (Or.inr h0)⟩
      exfalso
      by_cases hip : g.isInplaced = true
      · obtain ⟨k1, k2⟩ := inplaced_facts g hip
        unfold fieldUnits at hj
        rw [if_pos k1, k2] at hj
        omega
      · have hip' : g.isInplaced = false := by simpa using hip
        have hz : (t.mem a).lo = 0 := by
          by_contra k; exact c ⟨hip', k⟩
        have hpz := hposF a g hf hip' h0
        have ho : t.head ≤ a := by
          rcases hf with ⟨k1, k2⟩ | ⟨k1, k2, k3⟩
          · exact k1.1
          · omega
        have := hi.inside (a := a) ho hab (by rw [clenEq _ ho, hf.len]; exact hpz)
        have k1 : t.base ≤ a + (t.mem a).lo := this.1
        omega
  have uhole : ∀ a, u.head ≤ a → a < u.pivot → ¬ u.isHole a := by
    intro a h1 h2 hh
    have h2 : a < t.pivot := h2
    apply nh a h1 h2
    have hh : (m' a).hi / 2048 = 31 := hh
    rw [q.hi a (by omega)] at hh
    exact hh
  have ulive : ∀ a, u.live a ↔ t.live a := fun a =>
    ⟨fun h => ⟨h.1, h.2.1, nh a h.1 h.2.1⟩, fun h => ⟨h.1, h.2.1, uhole a h.1 h.2.1⟩⟩
  have ugen : ∀ a, a < t.base → cellGenus (m' a) = cellGenus (t.mem a) := fun a ha => by unfold cellGenus; rw [q.hi a ha]
  have livelt : ∀ a, t.live a → a < t.base := fun a ha => by have := ha.2.1; omega
  have cp : Copied σ t u id := by
    refine ⟨fun b hb => ?_, fun a ha => ⟨a, (ulive a).2 ha, rfl⟩, fun _ _ _ _ k => k, rfl, fun k g hk hp => ?_, fun k hk hp => ?_⟩
    · have hb := (ulive b).1 hb
      exact ⟨hb, q.hi b (livelt b hb), same b _ (livelt b hb) (Or.inl ⟨hb, rfl⟩)⟩
    · exact ⟨q.hi (t.pivot + k) (by omega), same (t.pivot + k) _ (by omega) (Or.inr ⟨by omega, by omega, by rw [Nat.add_sub_cancel_left]; exact hk⟩)⟩
    · refine keep _ (by show t.pivot + k < t.base; omega) ?_
      intro i h1 he
      obtain ⟨_, _, _, _, g', hf', _⟩ := memI i h1
      rw [he] at hf'
      have he : i.ref = t.pivot + k := he
      rcases hf' with ⟨l1, l2⟩ | ⟨l1, l2, l3⟩
      · have l1 : t.pivot + k < t.pivot := l1.2.1
        omega
      · have l3 : σ (t.pivot + k - t.pivot) = some g' := l3
        rw [Nat.add_sub_cancel_left, hk] at l3; cases l3
  -- lengths
  have ulen : ∀ a, t.head ≤ a → a < t.base → lenOf σ u a = lenOf σ t a := by
    intro a h1 h2
    unfold lenOf
    by_cases c : a < t.pivot
    · rw [if_pos c, if_pos (show a < u.pivot from c), um, ugen a h2]
      exact (same a _ h2 (Or.inl ⟨⟨h1, c, nh a h1 c⟩, rfl⟩)).units
    · rw [if_neg c, if_neg (show ¬ a < u.pivot from c)]
      show (match σ (a - t.pivot) with | some g => fieldUnits m' g a | none => 0) = _
      cases hσ : σ (a - t.pivot) with
      | none => rfl
      | some g => exact (same a g h2 (Or.inr ⟨by omega, h2, hσ⟩)).units
  have lenZero : ∀ a, t.head ≤ a → a < t.base → (∀ i ∈ items, i.ref ≠ a) → lenOf σ t a = 0 := by
    intro a h1 h2 hn
    have key : ∀ g, FieldAt σ t a g → fieldUnits t.mem g a = 0 := by
      intro g hf
      by_contra hz
      have hip : g.isInplaced = false := by
        by_contra k
        obtain ⟨k1, k2⟩ := inplaced_facts g (by simpa using k)
        unfold fieldUnits at hz
        rw [if_pos k1, k2] at hz
        exact hz rfl
      have h0 : (t.mem a).lo ≠ 0 := by
        intro k
        have := hi.inside (a := a) h1 h2 (by rw [clenEq _ h1, hf.len]; omega)
        have k1 : t.base ≤ a + (t.mem a).lo := this.1
        omega
      obtain ⟨i, k1, k2, _⟩ := isItem a g hf hip h0
      exact hn i k1 k2
    by_cases c : a < t.pivot
    · have hf : FieldAt σ t a (cellGenus (t.mem a)) := Or.inl ⟨⟨h1, c, nh a h1 c⟩, rfl⟩
      rw [hf.len]; exact key _ hf
    · cases hσ : σ (a - t.pivot) with
      | none => unfold lenOf; rw [if_neg c, hσ]
      | some g =>
        have hf : FieldAt σ t a g := Or.inr ⟨by omega, h2, hσ⟩
        rw [hf.len]; exact key _ hf
  have inI : ∀ i ∈ srt items, t.head ≤ i.ref ∧ i.ref < t.base := fun i hmi => by
    obtain ⟨h1, h2, _⟩ := memI i (perm.mem_iff.1 hmi); exact ⟨h1, h2⟩
  have sumLen : total (srt items) = payloadOf σ t := by
    have s1 := sum_refs (φ := fun a => (lenOf σ t a : ℤ)) (lo := t.head) (hi := t.base) nd2 inI
      (fun a h1 h2 h3 => by beta_reduce; rw [lenZero a h1 h2 fun i hmi => h3 i (perm.mem_iff.2 hmi)]; rfl)
    have s2 : (List.map (fun i => ((lenOf σ t i.ref : Nat) : ℤ)) (srt items)) = List.map (fun i => (i.len : ℤ)) (srt items) :=
      List.map_congr_left fun i hmi => by rw [(lenI i (perm.mem_iff.1 hmi)).2.1]
    have s2 := s1.trans (congrArg List.sum s2)
    have s3 : ((total (srt items) : Nat) : ℤ) = (List.map (fun i : Item => (i.len : ℤ)) (srt items)).sum := by
      unfold total
      induction srt items with
      | nil => rfl
      | cons i is ih => rw [List.map_cons, List.sum_cons, List.map_cons, List.sum_cons, ← ih]; push_cast; rfl
    have s4 : ∑ a ∈ Ico t.head t.base, (lenOf σ t a : ℤ) = ((payloadOf σ t : Nat) : ℤ) := by
      rw [← Finset.sum_Ico_consecutive _ hhp (by omega : t.pivot ≤ t.base)]
      unfold payloadOf
      rw [Nat.cast_add, Nat.cast_sum, Nat.cast_sum]
      congr 1
      · rw [liveSet_eq, Finset.sum_filter]
        refine Finset.sum_congr rfl fun a ha => ?_
        rw [Finset.mem_Ico] at ha
        rw [if_pos (nh a ha.1 ha.2)]
        unfold lenOf; rw [if_pos ha.2]
      · rw [hbase, Finset.sum_Ico_eq_sum_range, show t.pivot + t.pre - t.pivot = t.pre by omega]
        refine Finset.sum_congr rfl fun k hk => ?_
        unfold lenOf
        rw [if_neg (by omega), Nat.add_sub_cancel_left]
        cases σ k <;> rfl
    rw [s4, ← s3] at s2
    exact_mod_cast s2.symm
  have hle : t.jv ≤ t.tail - t.base := by omega
  refine ⟨u, rfl, cp, ⟨⟨hhp, ?_, ?_, hi.ll, fun x => ?_, ?_, ?_, fun _ => le_rfl⟩,
      ⟨fun a ha => absurd ha.2.2 (uhole a ha.1 ha.2.1), fun a _ ha => absurd ha.2.2 (uhole a ha.1 ha.2.1), fun hlt hh => absurd hh (uhole _ le_rfl hlt)⟩,
      fun a ha => ?_, fun a g hs h0 => ?_, hsch⟩, rfl, rfl, rfl, rfl, rfl, hjc, rfl, uhole⟩
  · show t.base ≤ t.tail - t.jv; omega
  · have : t.tail ≤ t.lim := hi.tl
    show t.tail - t.jv ≤ t.lim; omega
  · rw [add_zero]
    show T (phiW u.pivot (lenOf σ u) x) m' t.head t.base = ind t.base (t.tail - t.jv - t.base) x
    have cl : ∀ a, t.head ≤ a → a < t.base → phiW u.pivot (lenOf σ u) x a (m' a) = ind (a + (m' a).lo) (lenOf σ t a) x := by
      intro a h1 h2
      unfold phiW clen
      rw [if_neg (fun k => uhole a h1 k.1 k.2), ulen a h1 h2]
    have s1 : T (phiW u.pivot (lenOf σ u) x) m' t.head t.base = ∑ a ∈ Ico t.head t.base, ind (a + (m' a).lo) (lenOf σ t a) x := by
      unfold T
      refine Finset.sum_congr rfl fun a ha => ?_
      rw [Finset.mem_Ico] at ha
      exact cl a ha.1 ha.2
    rw [s1, sum_refs (φ := fun a => ind (a + (m' a).lo) (lenOf σ t a) x) nd2 inI
      (fun a h1 h2 h3 => by beta_reduce; rw [lenZero a h1 h2 fun i hmi => h3 i (perm.mem_iff.2 hmi), ind_zero])]
    rw [sum_ind_list (srt items) t.base fun l i l' hl => ?_, sumLen, show t.tail - t.jv - t.base = payloadOf σ t by omega]
    have hmi : i ∈ items := perm.mem_iff.1 (by rw [hl]; simp)
    beta_reduce
    obtain ⟨_, r2, _⟩ := memI i hmi
    rw [(q.chunk l i l' hl).1, (lenI i hmi).2.1, show i.ref + (t.base + total l - i.ref) = t.base + total l by omega]
  · show (t.jc : ℤ) = T phiC m' t.head t.pivot
    rw [hjc]
    unfold T
    refine (Finset.sum_eq_zero fun a ha => ?_).symm
    rw [Finset.mem_Ico] at ha
    unfold phiC; rw [if_neg (uhole a ha.1 ha.2)]
  · show ((0:Nat) : ℤ) = T phiV m' t.head t.pivot
    unfold T
    refine (Finset.sum_eq_zero fun a ha => ?_).symm
    rw [Finset.mem_Ico] at ha
    unfold phiV; rw [if_neg (uhole a ha.1 ha.2)]
  · have ha := (ulive a).1 ha
    show (m' a).hi < 65536
    rw [q.hi a (livelt a ha)]; exact hw a ha
  · have hs' : StretchyAt σ t a g := by
      refine ⟨hs.1, ?_⟩
      rcases hs.2 with ⟨k1, k2⟩ | k
      · have k1 := (ulive a).1 k1
        refine Or.inl ⟨k1, ?_⟩
        rw [um, ugen a (livelt a k1)] at k2; exact k2
      · exact Or.inr k
    have hin : t.head ≤ a ∧ a < t.base := by
      rcases hs'.2 with ⟨k1, _⟩ | ⟨k1, k2, _⟩
      · exact ⟨k1.1, livelt a k1⟩
      · exact ⟨by omega, k2⟩
    rw [ulen a hin.1 hin.2]
    refine hpos a g hs' fun k => h0 ?_
    exact (same a g hin.2 hs'.2).null.2 k

/-- `compactify`: succeeds, keeps all fields, leaves no holes and no gaps. -/
theorem compactify_spec {guard : Bool} {srt : List Item → List Item} (hsrt : Sorter srt) {σ : Sch} {s : RW} (h : WF σ s)
    (h1 : guard = true ∨ s.jc = 0 ∨ NoNil s) (h2 : guard = true ∨ s.jv = 0 ∨ NoNilPre σ s) :
    ∃ u f, compactifyWith guard srt σ s = .ok () u ∧ Copied σ s u f ∧ WF σ u ∧ Pure u ∧ u.head = s.head + s.jc ∧ u.pivot = s.pivot ∧
      u.pre = s.pre ∧ u.tail = s.tail - s.jv ∧ u.lim = s.lim ∧ u.jc = 0 ∧ u.jv = 0 := by
  obtain ⟨t, f, e, cp, t1, t2, t3, t4, t5, t6, t7, nh, hw, hm, _, _, _, hi⟩ := dropHoles_spec (guard := guard) h h1
  have hhp := h.inv.hp
  have tb : t.base = s.base := by show t.pivot + t.pre = s.pivot + s.pre; rw [t2, t3]
  have hpos : ∀ a g, StretchyAt σ t a g → (t.mem a).lo ≠ 0 → 0 < lenOf σ t a := by
    intro a g hs h0
    rw [FieldAt.len (g := g) hs.2]
    rcases hs.2 with ⟨k1, k2⟩ | ⟨k1, k2, k3⟩
    · obtain ⟨l1, l2, l3⟩ := cp.live a k1
      have e : cellGenus (s.mem (f a)) = g := by rw [← k2]; unfold cellGenus; rw [l2]
      rw [e] at l3
      rw [l3.units]
      exact l3.pos hs.1 fun k => h0 (l3.null.2 k)
    · obtain ⟨k, rfl⟩ : ∃ k, a = t.pivot + k := ⟨a - t.pivot, by omega⟩
      rw [Nat.add_sub_cancel_left] at k3
      have hk : k < s.pre := by rw [← t3]; have : t.base = t.pivot + t.pre := rfl; omega
      obtain ⟨_, l3⟩ := cp.stretchy k g k3 hk
      rw [l3.units]
      exact l3.pos hs.1 fun k => h0 (l3.null.2 k)
  obtain ⟨u, e', cp', wf, u1, u2, u3, u4, u5, u6, u7, nh'⟩ := closeGaps_spec (guard := guard) hsrt (σ := σ) (t := t) hi nh hw h.sch hpos
    (by rw [tb, t4, t7, Copied.payload cp]; exact wf_total h) t6 (fun hj u => covHoles_jv h (t7.symm.trans hj) u)
    (h2.imp_right fun k => k.imp (fun k => t7.trans k) fun k a g ha hg => by
      rw [t2, hm _ (by omega)]; exact k a g (by rw [← t3]; exact ha) hg)
  refine ⟨u, fun b => f (id b), ?_, cp.trans cp', wf, fun a h1 h2 _ => PC.field (nh' a h1 h2), by rw [u1, t1], by rw [u2, t2], by rw [u3, t3],
    by rw [u4, t4, t7], by rw [u5, t5], u6, u7⟩
  unfold compactifyWith
  rw [e]
  exact e'

end Fptu.Compact
