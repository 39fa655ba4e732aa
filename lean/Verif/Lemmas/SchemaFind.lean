import Verif.Lemmas.Schema
import Mathlib.Data.List.GetD
/-!
# Schemas: searches
-/
namespace Fptu.Schemas
open Fptu Fptu.Props

theorem prefix_count {p : Nat → Bool} {l : List Nat} (h : l.Pairwise (fun a b => p b = true → p a = true)) :
    ∀ i < l.length, p (l.getD i 0) = decide (i < l.countP p) := by
  induction l with
  | nil => intro i hi; exact absurd hi (by simp)
  | cons x l ih =>
    intro i hi
    obtain ⟨h1, h2⟩ := List.pairwise_cons.1 h
    by_cases hx : p x = true
    · rw [List.countP_cons_of_pos hx]
      cases i with
      | zero => simp [hx]
      | succ i =>
        rw [List.getD_cons_succ, ih h2 i (by simpa using hi)]
        simp
    · have hall : ∀ y ∈ l, ¬ p y = true := fun y hy hp => hx (h1 y hy hp)
      rw [List.countP_cons_of_neg hx, List.countP_eq_zero.2 hall]
      cases i with
      | zero => simp [hx]
      | succ i =>
        rw [List.getD_cons_succ]
        have hi' : i < l.length := by simpa using hi
        have : l.getD i 0 ∈ l := by
          rw [List.getD_eq_getElem _ _ hi']; exact List.getElem_mem hi'
        have := hall _ this
        rw [Bool.not_eq_true] at this
        rw [this]; rfl

theorem narrow_spec (less : Nat → Bool) (r : Nat) (iter span : Nat) (h0 : iter ≤ r) (h1 : r ≤ iter + span)
    (hl : ∀ i, iter ≤ i → i < iter + span → less i = decide (i < r)) :
    let p := narrow less iter span
    iter ≤ p.1 ∧ p.1 ≤ r ∧ r ≤ p.1 + p.2 ∧ p.1 + p.2 ≤ iter + span ∧ p.2 ≤ 3 := by
  induction span using Nat.strongRecOn generalizing iter with
  | _ span ih =>
    rw [narrow]
    by_cases h3 : span > 3
    · rw [if_pos h3]
      have hm := hl (iter + span / 2) (by omega) (by omega)
      by_cases hk : iter + span / 2 < r
      · rw [hm, decide_eq_true hk, if_pos rfl]
        obtain ⟨a1, a2, a3, a4, a5⟩ := ih (span - span / 2 - 1) (by omega) (iter + span / 2 + 1) (by omega) (by omega)
          (fun i hi1 hi2 => hl i (by omega) (by omega))
        exact ⟨by omega, a2, a3, by omega, a5⟩
      · rw [hm, decide_eq_false hk, if_neg (by simp)]
        obtain ⟨a1, a2, a3, a4, a5⟩ := ih (span / 2) (by omega) iter (by omega) (by omega)
          (fun i hi1 hi2 => hl i (by omega) (by omega))
        exact ⟨a1, a2, a3, by omega, a5⟩
    · rw [if_neg h3]
      exact ⟨Nat.le_refl _, h0, h1, Nat.le_refl _, by show span ≤ 3; omega⟩

theorem linear_spec (less : Nat → Bool) (r : Nat) (iter n : Nat) (h0 : iter ≤ r) (h1 : r ≤ iter + n)
    (hl : ∀ i, iter ≤ i → i < iter + n → less i = decide (i < r)) : linear less iter n = r := by
  induction n generalizing iter with
  | zero => show iter = r; omega
  | succ n ih =>
    unfold linear
    have := hl iter (Nat.le_refl _) (by omega)
    by_cases hk : iter < r
    · rw [this, decide_eq_true hk, if_pos rfl]
      exact ih (iter + 1) hk (by omega) (fun i hi1 hi2 => hl i (by omega) (by omega))
    · rw [this, decide_eq_false hk, if_neg (by simp)]
      omega

theorem linearLoose_spec (less : Nat → Bool) (r : Nat) (iter n : Nat) (h0 : iter ≤ r) (h1 : r ≤ iter + n)
    (hl : ∀ i, iter ≤ i → i < iter + n → less i = decide (i < r)) :
    linearLoose less iter n = if r < iter + n then some r else none := by
  induction n generalizing iter with
  | zero => rw [if_neg (by omega)]; rfl
  | succ n ih =>
    unfold linearLoose
    have := hl iter (Nat.le_refl _) (by omega)
    by_cases hk : iter < r
    · rw [this, decide_eq_true hk, if_pos rfl, ih (iter + 1) hk (by omega) (fun i hi1 hi2 => hl i (by omega) (by omega)),
        show iter + 1 + n = iter + (n + 1) by omega]
    · rw [this, decide_eq_false hk, if_neg (by simp), if_pos (by omega)]
      congr 1; omega

theorem WellTok.offset {t : Nat} (h : WellTok t) : tag2offset t < 16384 := by
  have := h.small
  rw [tag2offset_eq]; omega

theorem order_pre {a b : Nat} (h : normalizeTag a < normalizeTag b) (hb : isPreplaced b = true) : isPreplaced a = true := by
  by_contra ha
  have ha : isPreplaced a = false := by simpa using ha
  rw [normalize_preplaced b hb, normalize_loose a ha] at h
  have := isPreplaced_false.1 ha
  have := isPreplaced_true.1 hb
  omega

theorem order_offset {a b : Nat} (h : normalizeTag a < normalizeTag b) (hb : isPreplaced b = true) : tag2offset a ≤ tag2offset b := by
  have ha := order_pre h hb
  rw [normalize_preplaced b hb, normalize_preplaced a ha] at h
  rw [tag2offset_eq, tag2offset_eq]
  omega

variable {s : Sc} {log : List (Name × Nat)}

theorem Inv.pre_at (h : Inv s log) (i : Nat) (hi : i < s.tokens.length) : isPreplaced (s.tokens.getD i 0) = decide (i < s.npre) := by
  rw [h.npre]
  exact prefix_count (h.sorted.imp (fun h hb => order_pre h hb)) i hi

theorem Inv.npre_le (h : Inv s log) : s.npre ≤ s.tokens.length := h.npre ▸ List.countP_le_length

/-- The number of preplaced tokens before an offset. -/
def before (s : Sc) (off : Nat) : Nat := s.tokens.countP (fun t => isPreplaced t && decide (tag2offset t < off))

theorem Inv.before_le (h : Inv s log) (off : Nat) : before s off ≤ s.npre := by
  rw [h.npre]
  exact List.countP_mono_left (fun t _ hp => by simp only [Bool.and_eq_true] at hp; exact hp.1)

theorem Inv.before_at (h : Inv s log) (off i : Nat) (hi : i < s.npre) :
    decide (tag2offset (s.tokens.getD i 0) < off) = decide (i < before s off) := by
  have hlen := h.npre_le
  have := prefix_count (p := fun t => isPreplaced t && decide (tag2offset t < off)) (l := s.tokens)
    (h.sorted.imp (fun {a b} hab hb => by
      simp only [Bool.and_eq_true, decide_eq_true_eq] at hb ⊢
      have := order_offset hab hb.1
      exact ⟨order_pre hab hb.1, by omega⟩)) i (by omega)
  rw [h.pre_at i (by omega), decide_eq_true hi, Bool.true_and] at this
  exact this

theorem search_eq (h : Inv s log) {off : Nat} (ho : off < 16384) : searchPreplaced s off = before s off := by
  unfold searchPreplaced
  simp only []
  have hsh : off <<< 18 % 2 ^ 32 = off * 262144 := by rw [Nat.shiftLeft_eq]; omega
  rw [hsh]
  have hless : ∀ i, 0 ≤ i → i < 0 + s.npre → decide (s.tokens.getD i 0 < off * 262144) = decide (i < before s off) := by
    intro i _ hi
    rw [← h.before_at off i (by omega), tag2offset_eq]
    apply decide_eq_decide.2
    omega
  have hb := h.before_le off
  obtain ⟨a1, a2, a3, a4, a5⟩ := narrow_spec _ (before s off) 0 s.npre (Nat.zero_le _) (by omega) hless
  exact linear_spec _ _ _ _ a2 a3 (fun i hi1 hi2 => hless i (by omega) (by omega))

theorem getD_mem {l : List Nat} {i : Nat} (h : i < l.length) : l.getD i 0 ∈ l := by
  rw [List.getD_eq_getElem _ _ h]; exact List.getElem_mem h

theorem exists_index {l : List Nat} {t : Nat} (h : t ∈ l) : ∃ i < l.length, l.getD i 0 = t := by
  obtain ⟨i, hi, rfl⟩ := List.mem_iff_getElem.1 h
  exact ⟨i, hi, List.getD_eq_getElem _ _ hi⟩

theorem Inv.sorted_at (h : Inv s log) {i j : Nat} (hij : i < j) (hj : j < s.tokens.length) :
    normalizeTag (s.tokens.getD i 0) < normalizeTag (s.tokens.getD j 0) := by
  rw [List.getD_eq_getElem _ _ hj, List.getD_eq_getElem _ _ (by omega)]
  exact List.pairwise_iff_getElem.1 h.sorted i j (by omega) hj hij

/-- Loose tokens: the normalized order is the order of descriptors. -/
theorem norm_loose {a : Nat} (ha : isPreplaced a = false) (hs : a < 2 ^ 32) : normalizeTag a = 4294901760 + a % 65536 := by
  rw [normalize_loose a ha]
  have := isPreplaced_false.1 ha
  omega

theorem descriptor_tag {gid : Nat} (h : gid < 65536) :
    normalizeTag (makeTagFromDescriptor gid false false false) = 4294901760 + gid := by
  have e : makeTagFromDescriptor gid false false false = 4294443008 + gid := by
    unfold makeTagFromDescriptor
    rw [looseThreshold_eq]
    simp only [Bool.false_eq_true, if_false]
    omega
  rw [e, norm_loose (isPreplaced_false.2 (by omega)) (by omega)]
  omega

/-- The number of tokens before a descriptor. -/
def beforeGid (s : Sc) (gid : Nat) : Nat := s.tokens.countP (fun t => decide (normalizeTag t < 4294901760 + gid))

theorem Inv.beforeGid_at (h : Inv s log) (gid i : Nat) (hi : i < s.tokens.length) :
    decide (normalizeTag (s.tokens.getD i 0) < 4294901760 + gid) = decide (i < beforeGid s gid) :=
  prefix_count (p := fun t => decide (normalizeTag t < 4294901760 + gid)) (l := s.tokens)
    (h.sorted.imp (fun {a b} hab hb => by
      simp only [decide_eq_true_eq] at hb ⊢; omega)) i hi

theorem Inv.beforeGid_ge (h : Inv s log) (gid : Nat) : s.npre ≤ beforeGid s gid := by
  rw [h.npre]
  refine List.countP_mono_left (fun t _ hp => decide_eq_true ?_)
  rw [normalize_preplaced t hp]
  have := isPreplaced_true.1 hp
  omega

/-- What the search of `by_loose` ends with: an index before which the descriptors are smaller, or nothing. -/
theorem byLoose_found (h : Inv s log) {gid : Nat} (hg : gid < 65536) :
    ∃ n m, s.npre ≤ n ∧ n ≤ beforeGid s gid ∧ beforeGid s gid ≤ n + m ∧ n + m ≤ s.tokens.length ∧
      (n, m) = narrow (fun i => decide (normalizeTag (s.tokens.getD i 0) < normalizeTag (makeTagFromDescriptor gid false false false)))
        s.npre (s.tokens.length - s.npre) ∧
      byLoose s gid = if beforeGid s gid < n + m ∧ tag2gid (s.tokens.getD (beforeGid s gid) 0) = gid
        then s.tokens.getD (beforeGid s gid) 0 else 0 := by
  have hlen := h.npre_le
  have hge := h.beforeGid_ge gid
  have hle : beforeGid s gid ≤ s.tokens.length := List.countP_le_length
  rw [descriptor_tag hg]
  have hless : ∀ i, s.npre ≤ i → i < s.npre + (s.tokens.length - s.npre) →
      decide (normalizeTag (s.tokens.getD i 0) < 4294901760 + gid) = decide (i < beforeGid s gid) :=
    fun i _ hi => h.beforeGid_at gid i (by omega)
  obtain ⟨a1, a2, a3, a4, a5⟩ := narrow_spec _ (beforeGid s gid) s.npre (s.tokens.length - s.npre) hge (by omega) hless
  refine ⟨_, _, a1, a2, a3, by omega, rfl, ?_⟩
  unfold byLoose
  simp only [descriptor_tag hg]
  by_cases h0 : s.tokens.length - s.npre = 0
  · rw [if_pos h0, if_neg]
    intro ⟨k, _⟩; omega
  rw [if_neg h0, linearLoose_spec _ _ _ _ a2 a3 (fun i hi1 hi2 => hless i (by omega) (by omega))]
  by_cases hk : beforeGid s gid < (narrow (fun i => decide (normalizeTag (s.tokens.getD i 0) < 4294901760 + gid)) s.npre
      (s.tokens.length - s.npre)).1 + (narrow (fun i => decide (normalizeTag (s.tokens.getD i 0) < 4294901760 + gid)) s.npre
      (s.tokens.length - s.npre)).2
  · rw [if_pos hk]
    simp only []
    by_cases hq : tag2gid (s.tokens.getD (beforeGid s gid) 0) = gid
    · rw [if_pos hq, if_pos ⟨hk, hq⟩]
    · rw [if_neg hq, if_neg (fun k => hq k.2)]
  · rw [if_neg hk, if_neg (fun k => hk k.1)]

/-- A loose token stands where the search looks for its descriptor. -/
theorem Inv.at_gid (h : Inv s log) {i : Nat} (hi : i < s.tokens.length) (hn : s.npre ≤ i) :
    beforeGid s (tag2gid (s.tokens.getD i 0)) = i := by
  have hl : isPreplaced (s.tokens.getD i 0) = false := by rw [h.pre_at i hi]; exact decide_eq_false (by omega)
  have hw := h.well _ (getD_mem hi)
  have key := norm_loose hl hw.small
  have hle : beforeGid s (tag2gid (s.tokens.getD i 0)) ≤ s.tokens.length := List.countP_le_length
  have h1 := h.beforeGid_at (tag2gid (s.tokens.getD i 0)) i hi
  rw [key] at h1
  have h1' : ¬ i < beforeGid s (tag2gid (s.tokens.getD i 0)) := by
    intro k
    rw [decide_eq_true k] at h1
    exact absurd (of_decide_eq_true h1) (by unfold tag2gid; omega)
  by_contra hne
  have hlt : beforeGid s (tag2gid (s.tokens.getD i 0)) < i := by omega
  have h2 := h.beforeGid_at (tag2gid (s.tokens.getD i 0)) _ (show beforeGid s (tag2gid (s.tokens.getD i 0)) < _ by omega)
  rw [decide_eq_false (Nat.lt_irrefl _)] at h2
  have h2 := of_decide_eq_false h2
  have h3 := h.sorted_at hlt hi
  rw [key] at h3
  have e : tag2gid (s.tokens.getD i 0) = s.tokens.getD i 0 % 65536 := rfl
  omega

end Fptu.Schemas
