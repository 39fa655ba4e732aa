import Verif.Props.Again
/-!
# C81: the order in which the values of a collection are enumerated
-/
namespace Fptu.Props
open Fptu Fptu.Gear Fptu.Rw Fptu.Audit Fptu.Compact

/-- The values of the field with the word `w` in the order of enumeration (`C67_walk`: this is what the loop from `begin` to `end` meets). -/
def seqOf (s : RW) (w : Nat) : List (Option Val) := ((entriesOf s).filter fun e => e.1 = w).map (·.2)

/-- Where they are. -/
private def posOf (s : RW) (w : Nat) : Finset Nat := (liveSet s).filter fun a => (s.mem a).hi = w

private theorem mem_pos {s : RW} {w a : Nat} : a ∈ posOf s w ↔ RW.has s w a := by
  unfold posOf
  rw [Finset.mem_filter, mem_liveSet]
  rfl

private theorem sort_eq {S : Finset Nat} {l : List Nat} (h1 : l.Pairwise (· ≤ ·)) (h2 : l.Nodup) (h3 : ∀ a, a ∈ l ↔ a ∈ S) : S.sort (· ≤ ·) = l :=
  List.Perm.eq_of_pairwise' (r := (· ≤ ·)) (Finset.pairwise_sort _ _) h1
    ((List.perm_ext_iff_of_nodup (Finset.sort_nodup _ _) h2).2 fun a => by rw [Finset.mem_sort, h3])

private theorem seq_pos (s : RW) (w : Nat) : seqOf s w = ((posOf s w).sort (· ≤ ·)).map fun a => (entryAt s a).2 := by
  unfold seqOf entriesOf
  rw [List.filter_map, List.map_map]
  have e : (posOf s w).sort (· ≤ ·) = ((liveSet s).sort (· ≤ ·)).filter ((fun e : Nat × Option Val => decide (e.1 = w)) ∘ entryAt s) := by
    refine sort_eq ((Finset.pairwise_sort _ _).filter _) ((Finset.sort_nodup _ _).filter _) fun a => ?_
    rw [List.mem_filter, Finset.mem_sort, posOf, Finset.mem_filter]
    exact and_congr_right fun _ => decide_eq_true_iff
  rw [e]
  rfl

private theorem sort_insert {S : Finset Nat} {a : Nat} (ha : a ∉ S) : ∃ l1 l2 : List Nat, S.sort (· ≤ ·) = l1 ++ l2 ∧
    (insert a S).sort (· ≤ ·) = l1 ++ a :: l2 ∧ (∀ b ∈ l1, b ∈ S ∧ b < a) ∧ ∀ b ∈ l2, b ∈ S ∧ a < b := by
  have m1 : ∀ b ∈ (S.filter (· < a)).sort (· ≤ ·), b ∈ S ∧ b < a := fun b hb => by
    rw [Finset.mem_sort, Finset.mem_filter] at hb; exact hb
  have m2 : ∀ b ∈ (S.filter (a < ·)).sort (· ≤ ·), b ∈ S ∧ a < b := fun b hb => by
    rw [Finset.mem_sort, Finset.mem_filter] at hb; exact hb
  have p1 := Finset.pairwise_sort (S.filter (· < a)) (· ≤ ·)
  have p2 := Finset.pairwise_sort (S.filter (a < ·)) (· ≤ ·)
  have n1 := Finset.sort_nodup (S.filter (· < a)) (· ≤ ·)
  have n2 := Finset.sort_nodup (S.filter (a < ·)) (· ≤ ·)
  refine ⟨_, _, sort_eq ?_ ?_ fun b => ?_, sort_eq ?_ ?_ fun b => ?_, m1, m2⟩
  · exact List.pairwise_append.2 ⟨p1, p2, fun x hx y hy => by have := (m1 x hx).2; have := (m2 y hy).2; omega⟩
  · exact List.Nodup.append n1 n2 fun x hx hy => by have := (m1 x hx).2; have := (m2 x hy).2; omega
  · rw [List.mem_append, Finset.mem_sort, Finset.mem_sort, Finset.mem_filter, Finset.mem_filter]
    constructor
    · rintro (h | h) <;> exact h.1
    · intro h
      rcases Nat.lt_trichotomy b a with k | k | k
      · exact Or.inl ⟨h, k⟩
      · exact absurd (k ▸ h) ha
      · exact Or.inr ⟨h, k⟩
  · refine List.pairwise_append.2 ⟨p1, List.pairwise_cons.2 ⟨fun y hy => le_of_lt (m2 y hy).2, p2⟩, fun x hx y hy => ?_⟩
    rcases List.mem_cons.1 hy with rfl | hy
    · exact le_of_lt (m1 x hx).2
    · have := (m1 x hx).2; have := (m2 y hy).2; omega
  · refine List.Nodup.append n1 (List.nodup_cons.2 ⟨fun h => absurd (m2 a h).2 (by omega), n2⟩) fun x hx hy => ?_
    rcases List.mem_cons.1 hy with rfl | hy
    · exact absurd (m1 x hx).2 (by omega)
    · have := (m1 x hx).2; have := (m2 x hy).2; omega
  · rw [List.mem_append, List.mem_cons, Finset.mem_sort, Finset.mem_sort, Finset.mem_filter, Finset.mem_filter, Finset.mem_insert]
    constructor
    · rintro (h | h | h)
      exacts [Or.inr h.1, Or.inl h, Or.inr h.1]
    · rintro (h | h)
      · exact Or.inr (Or.inl h)
      · rcases Nat.lt_trichotomy b a with k | k | k
        · exact Or.inl ⟨h, k⟩
        · exact absurd (k ▸ h) ha
        · exact Or.inr (Or.inr ⟨h, k⟩)

private theorem seq_stay {σ : Sch} {s t : RW} {w : Nat} (h : WF σ s) (k : Stay σ s t w) : seqOf t w = seqOf s w := by
  rw [seq_pos, seq_pos]
  have e : posOf t w = posOf s w := by ext a; rw [mem_pos, mem_pos]; exact k.1 a
  rw [e]
  refine List.map_congr_left fun a ha => ?_
  rw [Finset.mem_sort, mem_pos] at ha
  have kc := k.2 a ha
  unfold entryAt
  show valueAt _ _ _ = valueAt _ _ _
  rw [kc.cell]
  exact kc.value h (Or.inl ⟨ha.1, rfl⟩) (live_genus ha.1 (h.word a ha.1))

/-- A new value among the others. -/
private theorem seq_add {σ : Sch} {s t : RW} {w a : Nat} (h : WF σ s) (o : Others σ s t a) (hn : ¬ s.live a) (ht : RW.has t w a) :
    ∃ l1 l2, seqOf s w = l1 ++ l2 ∧ seqOf t w = l1 ++ (entryAt t a).2 :: l2 ∧ ((∀ b, RW.has s w b → a < b) → l1 = []) := by
  have ha : a ∉ posOf s w := fun k => hn (mem_pos.1 k).1
  have e : posOf t w = insert a (posOf s w) := by
    ext b
    rw [Finset.mem_insert, mem_pos, mem_pos]
    by_cases hb : b = a
    · subst hb; exact ⟨fun _ => Or.inl rfl, fun _ => ht⟩
    · rw [o.has hb]; exact ⟨Or.inr, fun k => k.resolve_left hb⟩
  obtain ⟨l1, l2, e1, e2, m1, m2⟩ := sort_insert ha
  have ev : ∀ l : List Nat, (∀ b ∈ l, b ∈ posOf s w ∧ b ≠ a) → l.map (fun b => (entryAt t b).2) = l.map fun b => (entryAt s b).2 := fun l hl =>
    List.map_congr_left fun b hb => by rw [Others.entry h o (hl b hb).2 (mem_pos.1 (hl b hb).1).1]
  refine ⟨l1.map fun b => (entryAt s b).2, l2.map fun b => (entryAt s b).2, ?_, ?_, fun k => ?_⟩
  · rw [seq_pos, e1, List.map_append]
  · rw [seq_pos, e, e2, List.map_append, List.map_cons, ev l1 fun b hb => ⟨(m1 b hb).1, fun q => absurd (m1 b hb).2 (by omega)⟩,
      ev l2 fun b hb => ⟨(m2 b hb).1, fun q => absurd (m2 b hb).2 (by omega)⟩]
  · cases l1 with
    | nil => rfl
    | cons b l =>
      have q := m1 b (List.mem_cons_self ..)
      have := k b (mem_pos.1 q.1)
      exact absurd q.2 (by omega)

/-- One value less. -/
private theorem seq_drop {σ : Sch} {s t : RW} {w a : Nat} (h : WF σ s) (o : Others σ s t a) (hn : ¬ t.live a) (hs : RW.has s w a) :
    ∃ l1 l2, seqOf s w = l1 ++ (entryAt s a).2 :: l2 ∧ seqOf t w = l1 ++ l2 := by
  have ha : a ∉ posOf t w := fun k => hn (mem_pos.1 k).1
  have e : posOf s w = insert a (posOf t w) := by
    ext b
    rw [Finset.mem_insert, mem_pos, mem_pos]
    by_cases hb : b = a
    · subst hb; exact ⟨fun _ => Or.inl rfl, fun _ => hs⟩
    · rw [o.has hb]; exact ⟨Or.inr, fun k => k.resolve_left hb⟩
  obtain ⟨l1, l2, e1, e2, m1, m2⟩ := sort_insert ha
  have ev : ∀ l : List Nat, (∀ b ∈ l, b ∈ posOf t w ∧ b ≠ a) → l.map (fun b => (entryAt t b).2) = l.map fun b => (entryAt s b).2 := fun l hl =>
    List.map_congr_left fun b hb => by rw [Others.entry h o (hl b hb).2 (((o.live b (hl b hb).2)).1 (mem_pos.1 (hl b hb).1).1)]
  refine ⟨l1.map fun b => (entryAt s b).2, l2.map fun b => (entryAt s b).2, ?_, ?_⟩
  · rw [seq_pos, e, e2, List.map_append, List.map_cons]
  · rw [seq_pos, e1, List.map_append, ev l1 fun b hb => ⟨(m1 b hb).1, fun q => absurd (m1 b hb).2 (by omega)⟩,
      ev l2 fun b hb => ⟨(m2 b hb).1, fun q => absurd (m2 b hb).2 (by omega)⟩]

/-- Without holes a new entry goes before all others. -/
private theorem alloc_head {fixed : Bool} {s t : RW} {tag n a : Nat} (hj : s.jc = 0) (e : allocLooseWith fixed s tag n = .ok a t) : a + 1 = s.head := by
  have hi : ∀ m b u, indexAlloc s m = .ok b u → b + 1 = s.head := fun m b u hb => by
    unfold indexAlloc at hb
    rw [if_neg (by omega)] at hb
    by_cases c : s.head < 1
    · simp only [if_pos c] at hb; cases hb
    · simp only [if_neg c] at hb
      injection hb with hb _
      omega
  unfold allocLooseWith at e
  by_cases h0 : n = 0
  · rw [if_pos h0] at e
    obtain ⟨b, u, hb, e⟩ := Out.bind_ok e
    injection e with e _
    rw [← e]; exact hi _ _ _ hb
  · rw [if_neg h0] at e
    have hl : lookupBest s n = some none := by unfold lookupBest; rw [if_pos (Or.inl (by omega))]
    rw [hl] at e
    simp only at e
    by_cases c : s.lim - s.tail < n
    · rw [if_pos c] at e; cases e
    · rw [if_neg c] at e
      obtain ⟨b, u, hb, e⟩ := Out.bind_ok e
      injection e with e _
      rw [← e]; exact hi _ _ _ hb

private theorem insert_head {F : Fix} {s t : RW} {tag a : Nat} {g : Genus} {v : Val} (hj : s.jc = 0) (e : insertField F s tag g v = .ok (some a) t) :
    a + 1 = s.head := by
  unfold insertField at e
  by_cases c1 : tag2genus tag ≠ g
  · rw [if_pos c1] at e; cases e
  rw [if_neg c1] at e
  by_cases c2 : ¬ isLooseCollection tag = true
  · rw [if_pos c2] at e; cases e
  rw [if_neg c2] at e
  by_cases c3 : ¬ isDiscernible tag = true ∧ v.isEmpty g = true
  · rw [if_pos c3] at e; cases e
  rw [if_neg c3] at e
  by_cases c4 : g.isFixed = true
  · rw [if_pos c4] at e
    obtain ⟨b, u, hb, e⟩ := Out.bind_ok e
    injection e with e _
    rw [← Option.some.inj e]; exact alloc_head hj hb
  · rw [if_neg c4] at e
    cases hv : v.estimate with
    | error x => rw [hv] at e; cases e
    | ok n =>
      rw [hv] at e
      obtain ⟨b, u, hb, e⟩ := Out.bind_ok e
      injection e with e _
      rw [← Option.some.inj e]; exact alloc_head hj hb

/-- **C81 (inserting, partial).** A successful insertion puts the new value somewhere between the values of the collection, which keep their order; in a tuple
without holes in the index (`jc`, the count of junk, is 0) it becomes the first one. Missing for the code as it is: steps in which a defect of
`src/gear.cxx` shows (C10). In full, that the last inserted value is always the first one, it is false (`C81_newest_refuted`). -/
theorem C81_insert_partial {F : Fix} {σ : Sch} {s t : RW} {tag : Nat} {g : Genus} {v : Val} {r : Option Nat} (h : Reachable F σ s)
    (hf : v.fits g = true) (hb : StepBenign F s (.insert tag g v)) (hs : insertField F s tag g v = .ok r t) (hd : ¬ (¬ isDiscernible tag ∧ v.isEmpty g)) :
    (∃ l1 l2, seqOf s (tag % 65536) = l1 ++ l2 ∧ seqOf t (tag % 65536) = l1 ++ (if v = .nested none then none else some v) :: l2) ∧
    (s.jc = 0 → seqOf t (tag % 65536) = (if v = .nested none then none else some v) :: seqOf s (tag % 65536)) := by
  have hg : tag2genus tag = g := by
    by_contra hg
    unfold insertField at hs
    rw [if_pos hg] at hs; cases hs
  have hc : isLooseCollection tag = true := by
    by_contra hc
    unfold insertField at hs
    rw [if_neg (fun h => h hg), if_pos hc] at hs; cases hs
  have key := insert_spec h.wf hb hg hf hc
  rw [hs] at key
  rcases key with ⟨_, _, k3, k4⟩ | ⟨a, k1, _, k3⟩
  · exact absurd ⟨k3, k4⟩ hd
  · have hv : (entryAt t a).2 = if v = .nested none then none else some v := by
      rw [← k3.value]
      show valueAt (cellGenus (t.mem a)) t.mem a = _
      rw [word_genus hg k3.word]
    obtain ⟨l1, l2, e1, e2, e3⟩ := seq_add h.wf k3.others k3.fresh ⟨k3.live, k3.word⟩
    rw [hv] at e2
    refine ⟨⟨l1, l2, e1, e2⟩, fun hj => ?_⟩
    have ha : a + 1 = s.head := insert_head hj (by rw [hs, k1])
    have hn := e3 fun b hb => by have := hb.1.1; omega
    rw [e2, e1, hn]; rfl

/-- **C81 (other operations, partial).** A successful modification that does not address the collection keeps its values and their order. -/
theorem C81_kept_partial {F : Fix} {σ : Sch} {s t : RW} {u : Unit} {op : Op} {w : Nat} (h : Reachable F σ s) (hop : OpOk σ s.pre op) (hb : StepBenign F s op)
    (hr : step F s op = .ok u t) (hw : isPreplaced op.tag = true ∨ op.tag % 65536 ≠ w) : seqOf t w = seqOf s w :=
  seq_stay h.wf (step_stay h.wf op hop hb hr hw)

/-- **C81 (erasing through an iterator).** The value at the iterator goes, the others keep their order. -/
theorem C81_erase {F : Fix} {σ : Sch} {s t : RW} {it : Acc} {a : Nat} {r : Bool} (h : Reachable F σ s) (hat : Acc.At s it a) (hr : it.erase s = .ok r t) :
    ∃ l1 l2, seqOf s (it.tag % 65536) = l1 ++ (entryAt s a).2 :: l2 ∧ seqOf t (it.tag % 65536) = l1 ++ l2 := by
  obtain ⟨hfl, ha⟩ := hat
  unfold Acc.erase Acc.exist Acc.remove at hr
  rw [hfl] at hr
  simp only [Option.isSome_some, if_true] at hr
  rw [if_neg (by rw [word_genus rfl ha.2]; rintro (k | k); exact absurd ha.1.2.1 (by omega); exact k rfl)] at hr
  obtain ⟨it1, s1, h1, h2⟩ := Out.bind_ok hr
  injection h2 with _ h3
  subst h3
  obtain ⟨u, s2, h4, h5⟩ := Out.bind_ok h1
  injection h5 with _ h5
  subst h5
  have key := eraseEntry_spec h.wf ha.1
  rw [h4] at key
  obtain ⟨_, o, hn, _⟩ := key
  exact seq_drop h.wf o hn ha

private theorem seq_put {σ : Sch} {s t : RW} {w a : Nat} (h : WF σ s) (o : Others σ s t a) (ht : RW.has t w a) (hs : RW.has s w a) :
    ∃ l1 l2, seqOf s w = l1 ++ (entryAt s a).2 :: l2 ∧ seqOf t w = l1 ++ (entryAt t a).2 :: l2 := by
  have ha : a ∉ (posOf s w).erase a := Finset.notMem_erase _ _
  have e1 : posOf s w = insert a ((posOf s w).erase a) := (Finset.insert_erase (mem_pos.2 hs)).symm
  have e2 : posOf t w = posOf s w := by
    ext b
    rw [mem_pos, mem_pos]
    by_cases hb : b = a
    · subst hb; exact ⟨fun _ => hs, fun _ => ht⟩
    · exact o.has hb
  obtain ⟨l1, l2, _, k2, m1, m2⟩ := sort_insert ha
  rw [← e1] at k2
  have ev : ∀ l : List Nat, (∀ b ∈ l, b ∈ (posOf s w).erase a) → l.map (fun b => (entryAt t b).2) = l.map fun b => (entryAt s b).2 := fun l hl =>
    List.map_congr_left fun b hb => by
      have q := Finset.mem_erase.1 (hl b hb)
      rw [Others.entry h o q.1 (mem_pos.1 q.2).1]
  refine ⟨l1.map fun b => (entryAt s b).2, l2.map fun b => (entryAt s b).2, ?_, ?_⟩
  · rw [seq_pos, k2, List.map_append, List.map_cons]
  · rw [seq_pos, e2, k2, List.map_append, List.map_cons, ev l1 fun b hb => (m1 b hb).1, ev l2 fun b hb => (m2 b hb).1]

/-- **C81 (assigning through an iterator, partial).** A successful assignment of a value that is stored puts it in place of the old one; the others keep their
places. Missing: values that are dropped (C67), binary blobs and nested tuples on the paths of the defects of `src/gear.cxx`. -/
theorem C81_assign_partial {F : Fix} {σ : Sch} {s t : RW} {it it' : Acc} {g : Genus} {v : Val} {a : Nat} (h : Reachable F σ s)
    (hl : isLoose it.tag = true) (hg : tag2genus it.tag = g) (hat : Acc.At s it a) (hf : v.fits g = true) (hb : g.isFixed = true ∨ Benign F s g v)
    (hd : ¬ dropped it.tag g v) (hr : it.assign F s g v = .ok it' t) :
    ∃ l1 l2, seqOf s (it.tag % 65536) = l1 ++ (entryAt s a).2 :: l2 ∧ seqOf t (it.tag % 65536) = l1 ++ some v :: l2 := by
  obtain ⟨hfl, ha⟩ := hat
  have key := assignAt_spec (F := F) h.wf hb hg hf hl ha
  unfold Acc.assign at hr
  rw [hfl] at hr
  obtain ⟨r, s1, hr1, h2⟩ := Out.bind_ok hr
  injection h2 with _ h3
  subst h3
  rw [hr1] at key
  obtain ⟨_, o, _, k3⟩ := key
  obtain ⟨_, hl1, hw1, hv1⟩ := k3 hd
  obtain ⟨l1, l2, e1, e2⟩ := seq_put h.wf o ⟨hl1, hw1⟩ ha
  refine ⟨l1, l2, e1, ?_⟩
  rw [e2]
  have : (entryAt s1 a).2 = some v := by
    show valueAt (cellGenus (s1.mem a)) s1.mem a = _
    rw [word_genus hg hw1, hv1]
  rw [this]

/-- **C81 (the loop).** The loop from `begin` to `end` over a collection reads the values in the order of `seqOf`. -/
theorem C81_loop {s : RW} {tag : Nat} (hg : tag2genus tag ≠ .hole) (hv : tag2genus tag ≠ .varbin) (hc : isLooseCollection tag = true)
    (hn : none ∉ seqOf s (tag % 65536)) : ∃ it l, Acc.begin s tag = .ok it ∧ IterRun s it l ∧
      l.map (fun x => x.get s (tag2genus tag)) = (seqOf s (tag % 65536)).map .ok := by
  obtain ⟨it, l, h1, h2, h3, h4, h5⟩ := (C67_walk s tag hg).2 hc
  refine ⟨it, l, h1, h2, ?_⟩
  have hs : seqOf s (tag % 65536) = (l.filterMap Acc.field).map fun a => (entryAt s a).2 := by
    unfold seqOf
    rw [← h5, List.map_map]
    rfl
  rw [hs] at hn ⊢
  clear h2 h4 h5 hs
  induction l with
  | nil => rfl
  | cons x l ih =>
    obtain ⟨a, _, hat, hx⟩ := h3 x (List.mem_cons_self ..)
    rw [List.filterMap_cons, hat.1] at hn ⊢
    simp only [List.map_cons, List.mem_cons, not_or] at hn ⊢
    rw [ih hn.2 (fun y hy => h3 y (List.mem_cons_of_mem _ hy))]
    cases he : (entryAt s a).2 with
    | none => exact absurd he.symm hn.1
    | some v => rw [hx v hv he]

/-- **C81 (compaction).** A completed compaction keeps the order of all collections and leaves no holes in the index: the next insertion is in front. -/
theorem C81_compactify {F : Fix} {σ : Sch} {s t : RW} {guard : Bool} {srt : List Item → List Item} {w : Nat} (h : Reachable F σ s) (hs : Sorter srt)
    (e : compactifyWith guard srt σ s = .ok () t) : seqOf t w = seqOf s w ∧ t.jc = 0 := by
  obtain ⟨⟨f, c⟩, _, _, _, _, _, _, _, k, _⟩ := compactify_ok hs h.wf e
  refine ⟨?_, k⟩
  unfold seqOf
  rw [c.entries h.wf.word]

/-- **C81 (serialized form, partial).** A reader of the serialized form enumerates the values in the same order. -/
theorem C81_serialized_partial {F : Fix} {sch : Option Schema} {s : RW} (h : History F sch s)
    (hmax : s.pivot - s.head + stretchyOf sch ≤ 8191) (hsize : s.tail - s.head + 1 ≤ 65534) (w : Nat) : seqOf (serialized sch s) w = seqOf s w := by
  obtain ⟨_, _, k⟩ := C19_serialized_partial h hmax hsize
  unfold seqOf
  rw [k.order]

/-- **C81 (what a plain read of a collection gives).** A token of the same field which is no collection reads the first value. -/
theorem C81_first {s : RW} {tag : Nat} {g : Genus} {v : Val} {l : List (Option Val)} (hg : tag2genus tag = g) (hh : g ≠ .hole) (hv : g ≠ .varbin)
    (hc : isLooseCollection tag = false) (e : seqOf s (tag % 65536) = some v :: l) : getLoose s tag g = .ok (some v) := by
  have hw := tag_not_hole (tag := tag) (by rw [hg]; exact hh)
  rw [seq_pos] at e
  cases hs : (posOf s (tag % 65536)).sort (· ≤ ·) with
  | nil => rw [hs] at e; cases e
  | cons a l' =>
    rw [hs, List.map_cons] at e
    injection e with e _
    have ha : RW.has s (tag % 65536) a := mem_pos.1 ((Finset.mem_sort (· ≤ ·)).1 (hs ▸ List.mem_cons_self ..))
    have hp := Finset.pairwise_sort (posOf s (tag % 65536)) (· ≤ ·)
    rw [hs, List.pairwise_cons] at hp
    have hl : s.lookup (tag % 65536) = some a := (lookup_some hw).2 ⟨ha, fun b hb => by
      have := (Finset.mem_sort (· ≤ ·)).2 (mem_pos.2 hb)
      rw [hs, List.mem_cons] at this
      rcases this with rfl | k
      · exact le_refl _
      · exact hp.1 b k⟩
    refine getLoose_value hg hc hl ?_ hv
    rw [← e]
    show _ = valueAt (cellGenus (s.mem a)) s.mem a
    rw [word_genus hg ha.2]

/-! ## Histories -/

/-- What one successful operation does to the list of values of the collection `w`: the newest value is the first. -/
def seqAct (w : Nat) (L : List (Option Val)) : Op → List (Option Val)
  | .insert tag g v =>
    if tag % 65536 ≠ w ∨ (¬ isDiscernible tag ∧ v.isEmpty g) then L else (if v = .nested none then none else some v) :: L
  | .erase tag => if isLoose tag ∧ tag % 65536 = w then [] else L
  | .set _ _ _ => L

def seqRun (w : Nat) : List (Option Val) → List Ev → List (Option Exc) → List (Option Val)
  | L, .op o :: es, none :: outs => seqRun w (seqAct w L o) es outs
  | L, _ :: es, _ :: outs => seqRun w L es outs
  | L, _, _ => L

/-- At every insertion into the collection `w` the index has no holes. -/
def NoHolesAt (F : Fix) (guard : Bool) (σ : Sch) (srt : List Item → List Item) (w : Nat) : RW → List Ev → Prop
  | _, [] => True
  | s, .op o :: es => ((∃ tag g v, o = .insert tag g v ∧ tag % 65536 = w) → s.jc = 0) ∧
    match step F s o with
    | .ub => True
    | .exc _ s' => NoHolesAt F guard σ srt w s' es
    | .ok _ s' => NoHolesAt F guard σ srt w s' es
  | s, .compact :: es =>
    match compactifyWith guard srt σ s with
    | .ok _ s' => NoHolesAt F guard σ srt w s' es
    | _ => True

private theorem seq_step {F : Fix} {σ : Sch} {C : Nat → Bool} {s t : RW} {o : Op} {u : Unit} {w : Nat} (h : Reachable F σ s) (ho : OpOk σ s.pre o)
    (hb : StepBenign F s o) (hu : Uses C (.op o)) (hw : C w = true) (hj : (∃ tag g v, o = .insert tag g v ∧ tag % 65536 = w) → s.jc = 0)
    (hr : step F s o = .ok u t) : seqOf t w = seqAct w (seqOf s w) o := by
  by_cases hp : isPreplaced o.tag = true ∨ o.tag % 65536 ≠ w
  · rw [C81_kept_partial h ho hb hr hp]
    cases o with
    | set tag g v => rfl
    | insert tag g v =>
      have hc : isLooseCollection tag = true := by
        by_contra hc
        have hr : (insertField F s tag g v).bind (fun _ s => Out.ok () s) = .ok u t := hr
        obtain ⟨r, s', hi, _⟩ := Out.bind_ok hr
        unfold insertField at hi
        by_cases hg : tag2genus tag ≠ g
        · rw [if_pos hg] at hi; cases hi
        · rw [if_neg hg, if_pos hc] at hi; cases hi
      have hl : isLoose tag = true := by
        have hc' : tag ≥ collectionThreshold := by simpa [isLooseCollection] using hc
        have e : collectionThreshold ≥ looseThreshold := by decide
        have : looseThreshold ≤ tag := by omega
        simpa [isLoose] using this
      have hn : tag % 65536 ≠ w := hp.resolve_left (by show ¬ isPreplaced tag = true; rw [preplaced_not_loose, hl]; decide)
      simp only [seqAct]
      rw [if_pos (Or.inl hn)]
    | erase tag =>
      simp only [seqAct]
      rw [if_neg]
      rintro ⟨k1, k2⟩
      rcases hp with hp | hp
      · have hp : isPreplaced tag = true := hp
        rw [preplaced_not_loose, k1] at hp; cases hp
      · exact hp k2
  · have h2 := not_or.1 hp
    have hl : isLoose o.tag = true := by have := h2.1; rw [preplaced_not_loose] at this; simpa using this
    have hwd : o.tag % 65536 = w := not_not.1 h2.2
    have hc : isLooseCollection o.tag = true := (hu hl).trans (by rw [hwd]; exact hw)
    cases o with
    | set tag g v =>
      have hr : setField F s tag g v = .ok u t := hr
      unfold setField at hr
      rw [if_neg (show ¬ isPreplaced tag = true from h2.1), if_pos (show isLooseCollection tag = true from hc)] at hr
      cases hr
    | insert tag g v =>
      have hwd : tag % 65536 = w := hwd
      have hr : (insertField F s tag g v).bind (fun _ s => Out.ok () s) = .ok u t := hr
      obtain ⟨r, s', hi, he⟩ := Out.bind_ok hr
      injection he with _ he
      subst he
      simp only [seqAct]
      by_cases hd : ¬ isDiscernible tag = true ∧ v.isEmpty g = true
      · rw [if_pos (Or.inr hd)]
        rw [((C10_insert_partial h ho.2 hb hi).1 hd).1]
      · rw [if_neg (by rintro (k | k); exacts [k hwd, hd k])]
        have := (C81_insert_partial h ho.2 hb hi hd).2 (hj ⟨tag, g, v, rfl, hwd⟩)
        rw [hwd] at this
        exact this
    | erase tag =>
      have hwd : tag % 65536 = w := hwd
      have hl : isLoose tag = true := hl
      simp only [seqAct]
      rw [if_pos ⟨hl, hwd⟩]
      have hr : (if isPreplaced tag then (erasePreplaced F s tag).bind fun _ s => .ok () s else (eraseLoose s tag).bind fun _ s => .ok () s : Out Unit) = .ok u t := hr
      rw [if_neg (show ¬ isPreplaced tag = true from h2.1)] at hr
      obtain ⟨n, s', hi, he⟩ := Out.bind_ok hr
      injection he with _ he
      subst he
      have hg : tag2genus tag ≠ .hole := ho.1
      have k := (C11_erase_collection h hg hc).2.2 n s' hi
      have hz : ∀ e ∈ entriesOf s', e.1 ≠ w := fun e he => by
        have he : e ∈ (entriesOf s' : Multiset (Nat × Option Val)) := he
        rw [entriesOf_fields, k.2.1] at he
        rw [← hwd]; exact (Multiset.mem_filter.1 he).2
      unfold seqOf
      rw [List.filter_eq_nil_iff.2 (fun e he => by simpa using hz e he)]
      rfl

/-- **C81 (histories, partial).** Whatever sequence of operations on any fields and of compactions is applied, exceptions caught: the values of a collection are
enumerated in the order in which they were inserted, the newest first, provided that the index has no holes at each
insertion into this collection, which a compaction before the insertion ensures. Restricted to histories on which no defect of `src/gear.cxx` shows. -/
theorem C81_history_partial {F : Fix} {guard : Bool} {σ : Sch} {srt : List Item → List Item} {C : Nat → Bool} {w : Nat} {s t : RW} {es : List Ev}
    {outs : List (Option Exc)} (h : Reachable F σ s) (hs : Sorter srt) (hops : ∀ e ∈ es, EvOk σ s.pre e) (hu : ∀ e ∈ es, Uses C e) (hw : C w = true)
    (hb : LifeBenign F guard σ srt s es) (ht : NoHolesAt F guard σ srt w s es) (hr : life F guard σ srt s es = some (outs, t)) :
    seqOf t w = seqRun w (seqOf s w) es outs := by
  induction es generalizing s outs with
  | nil =>
    have hr := Option.some.inj hr
    have e1 : [] = outs := congrArg Prod.fst hr
    have e2 : s = t := congrArg Prod.snd hr
    subst e1; subst e2
    rfl
  | cons e es ih =>
    have hops' : ∀ e ∈ es, EvOk σ s.pre e := fun e he => hops e (List.mem_cons_of_mem _ he)
    have hu' : ∀ e ∈ es, Uses C e := fun e he => hu e (List.mem_cons_of_mem _ he)
    cases e with
    | op o =>
      have ho : OpOk σ s.pre o := hops (.op o) (List.mem_cons_self ..)
      obtain ⟨hb1, hb2⟩ := hb
      obtain ⟨ht1, ht2⟩ := ht
      have key := step_spec h.wf o ho hb1
      obtain ⟨x, s1, outs1, rfl, hl, hx⟩ := life_op hr
      rcases hx with ⟨rfl, hx⟩ | ⟨e, rfl, hx⟩
      · rw [hx] at hb2 ht2 key
        have key : Keep σ s s1 := key
        rw [ih (h.step ho hb1 (Or.inl ⟨_, hx⟩)) (by rw [key.pre]; exact hops') hu' hb2 ht2 hl,
          seq_step h ho hb1 (hu (.op o) (List.mem_cons_self ..)) hw ht1 hx]
        rfl
      · rw [hx] at hb2 ht2 key
        have key : s1 = s := key
        subst key
        rw [ih h hops' hu' hb2 ht2 hl]
        cases o <;> rfl
    | compact =>
      obtain ⟨s1, outs1, rfl, hl, hx⟩ := life_compact hr
      unfold LifeBenign at hb
      unfold NoHolesAt at ht
      rw [hx] at hb ht
      obtain ⟨_, _, _, _, _, k3, _⟩ := compactify_ok hs h.wf hx
      rw [ih (h.compactify hs hx) (by rw [k3]; exact hops') hu' hb ht hl, (C81_compactify h hs hx).1]
      rfl

/-! ## Concrete tuples -/

/-- `seqOf`, computed. -/
def seqList (s : RW) (w : Nat) : List (Option Val) :=
  ((List.range' s.head (s.pivot - s.head)).filter fun a => s.live a ∧ (s.mem a).hi = w).map fun a => (entryAt s a).2

theorem seqList_eq (s : RW) (w : Nat) : seqOf s w = seqList s w := by
  rw [seq_pos]
  unfold seqList
  rw [sort_eq (S := posOf s w) (l := (List.range' s.head (s.pivot - s.head)).filter fun a => s.live a ∧ (s.mem a).hi = w)]
  · exact (List.pairwise_le_range' ..).filter _
  · exact (List.nodup_range' ..).filter _
  · intro a
    rw [List.mem_filter, mem_pos, decide_eq_true_iff, List.mem_range'_1]
    exact ⟨fun k => k.2, fun k => ⟨by have := k.1.1; have := k.1.2.1; omega, k⟩⟩

def noHolesOp (w jc : Nat) : Op → Bool
  | .insert tag _ _ => tag % 65536 != w || jc == 0
  | _ => true

def noHolesAtB (F : Fix) (guard : Bool) (σ : Sch) (srt : List Item → List Item) (w : Nat) : RW → List Ev → Bool
  | _, [] => true
  | s, .op o :: es => noHolesOp w s.jc o &&
    match step F s o with
    | .ub => true
    | .exc _ s' => noHolesAtB F guard σ srt w s' es
    | .ok _ s' => noHolesAtB F guard σ srt w s' es
  | s, .compact :: es =>
    match compactifyWith guard srt σ s with
    | .ok _ s' => noHolesAtB F guard σ srt w s' es
    | _ => true

theorem noHolesAt_of {F : Fix} {guard : Bool} {σ : Sch} {srt : List Item → List Item} {w : Nat} {s : RW} {es : List Ev}
    (h : noHolesAtB F guard σ srt w s es = true) : NoHolesAt F guard σ srt w s es := by
  induction es generalizing s with
  | nil => trivial
  | cons e es ih =>
    cases e with
    | op o =>
      rw [noHolesAtB, Bool.and_eq_true] at h
      refine ⟨?_, ?_⟩
      · rintro ⟨tag, g, v, rfl, hw⟩
        have h1 : (tag % 65536 != w || s.jc == 0) = true := h.1
        rw [Bool.or_eq_true] at h1
        rcases h1 with k | k
        · exact absurd hw (bne_iff_ne.1 k)
        · exact eq_of_beq k
      · have h2 := h.2
        cases hr : step F s o with
        | ub => trivial
        | exc e s1 => rw [hr] at h2; exact ih h2
        | ok u s1 => rw [hr] at h2; exact ih h2
    | compact =>
      rw [noHolesAtB] at h
      unfold NoHolesAt
      cases hr : compactifyWith guard srt σ s with
      | ub => trivial
      | exc e s1 => trivial
      | ok u s1 => rw [hr] at h; exact ih h

/-- Three values of a collection; a field set between the first two is erased before the third comes. -/
def holeOps : List Op := [insC 4 1, setF .u32 3 5, insC 4 2, .erase (fix .u32 3), insC 4 3]

/-- **C81 (refuted).** In full, "the values of a collection are enumerated in the order of insertion, the newest first": the entry of the third value is the one the
erased field left, between those of the first two. The order is 2, 3, 1; nothing else happened to the collection. A token that is no collection
reads 2. -/
theorem C81_newest_refuted {F : Fix} (hF : F = .code ∨ F = .repaired) : ∃ s, History F none s ∧ run F (fresh 8 60) holeOps = some s ∧
    seqOf s (colU 4 % 65536) = [some (unitsVal 1 2), some (unitsVal 1 3), some (unitsVal 1 1)] ∧
    getLoose s (fix .u32 4) .u32 = .ok (some (unitsVal 1 2)) := by
  have ho : ∀ op ∈ holeOps, OpOk (schOf none) 0 op := opOk_of (by decide +kernel)
  have hb : RunBenign F (fresh 8 60) holeOps := runBenign_of (by rcases hF with rfl | rfl <;> decide +kernel)
  obtain ⟨s, hr, hp⟩ := run_decide (F := F) (s := fresh 8 60) (ops := holeOps)
    (fun s => decide (seqList s (colU 4 % 65536) = [some (unitsVal 1 2), some (unitsVal 1 3), some (unitsVal 1 1)]))
    (by rcases hF with rfl | rfl <;> decide +kernel)
  have hq : seqOf s (colU 4 % 65536) = [some (unitsVal 1 2), some (unitsVal 1 3), some (unitsVal 1 1)] :=
    (seqList_eq _ _).trans (of_decide_eq_true hp)
  have hw : colU 4 % 65536 = fix .u32 4 % 65536 := by decide +kernel
  refine ⟨s, .of_run (mem := fun _ => .zero) (items := 8) (lim := 60) (image := []) (fun S h => (by cases h)) rfl
    (by decide) (by decide) (fun k g h => (by cases h)) ho hb hr, hr, hq, ?_⟩
  exact C81_first (by decide +kernel) (by decide) (by decide) (by decide +kernel) (hw ▸ hq)

/-- Another `std::sort`, one that is not stable. -/
def gidSortRev (l : List Cell) : List Cell := gidSort l.reverse

theorem gidSortRev_ok : GidSorter gidSortRev := fun l =>
  ⟨(gidSort_ok l.reverse).1.trans (List.reverse_perm l), (gidSort_ok l.reverse).2⟩

/-- **C81 (refuted), sorting.** Even with the vector of `sort_index` sized right: `std::sort` (`src/gear.cxx:929`) may put values of one collection in another
order, as the entries have equal keys. -/
theorem C81_sort_refuted {F : Fix} (hF : F = .code ∨ F = .repaired) : ∃ s t, History F none s ∧ GidSorter gidSortRev ∧
    optimizeWith true false id gidSortRev (schOf none) ⟨false, false, true⟩ s = .ok true t ∧
    seqOf s (colU 4 % 65536) = [some (unitsVal 1 2), some (unitsVal 1 1)] ∧ seqOf t (colU 4 % 65536) = [some (unitsVal 1 1), some (unitsVal 1 2)] := by
  have ho : ∀ op ∈ [insC 4 1, insC 4 2, setF .u32 3 5], OpOk (schOf none) 0 op := opOk_of (by decide +kernel)
  have hb : RunBenign F (fresh 8 60) [insC 4 1, insC 4 2, setF .u32 3 5] := runBenign_of (by rcases hF with rfl | rfl <;> decide +kernel)
  obtain ⟨s, hr, hp⟩ := run_decide (F := F) (s := fresh 8 60) (ops := [insC 4 1, insC 4 2, setF .u32 3 5])
    (fun s => match optimizeWith true false id gidSortRev (schOf none) ⟨false, false, true⟩ s with
      | .ok true t => decide (seqList s (colU 4 % 65536) = [some (unitsVal 1 2), some (unitsVal 1 1)] ∧
        seqList t (colU 4 % 65536) = [some (unitsVal 1 1), some (unitsVal 1 2)])
      | _ => false) (by rcases hF with rfl | rfl <;> decide +kernel)
  have hH : History F none s := .of_run (mem := fun _ => .zero) (items := 8) (lim := 60) (image := []) (fun S h => (by cases h)) rfl
    (by decide) (by decide) (fun k g h => (by cases h)) ho hb hr
  split at hp
  · rename_i t h1
    obtain ⟨p1, p2⟩ := of_decide_eq_true hp
    exact ⟨s, t, hH, gidSortRev_ok, h1, (seqList_eq _ _).trans p1, (seqList_eq _ _).trans p2⟩
  · cases hp

/-- Insertions, an erased and a refused operation, a compaction before the third insertion. -/
def seqEvs : List Ev :=
  [.op (insC 4 1), .op (setF .u32 3 5), .op (insC 4 2), .op (.set (colU 4) .u32 (unitsVal 1 9)), .op (.erase (fix .u32 3)), .compact, .op (insC 4 3)]

private theorem seq_uses : ∀ e ∈ seqEvs, Uses bookC e := by
  have key : (seqEvs.all fun e => match e with | .op o => !isLoose o.tag || (isLooseCollection o.tag == bookC (o.tag % 65536)) | .compact => true) = true := by
    decide +kernel
  intro e he
  have h := List.all_eq_true.1 key e he
  cases e with
  | op o =>
    intro hl
    have h : (!isLoose o.tag || (isLooseCollection o.tag == bookC (o.tag % 65536))) = true := h
    rw [hl] at h
    exact eq_of_beq h
  | compact => trivial

/-- The same history as in `C81_newest_refuted`, with a compaction before the last insertion: 3, 2, 1, and the loop reads them so. -/
example : ∃ outs t it l, life .code false noPre itemSort (fresh 8 60) seqEvs = some (outs, t) ∧
    seqOf t (colU 4 % 65536) = [some (unitsVal 1 3), some (unitsVal 1 2), some (unitsVal 1 1)] ∧
    getLoose t (fix .u32 4) .u32 = .ok (some (unitsVal 1 3)) ∧ Acc.begin t (colU 4) = .ok it ∧ IterRun t it l ∧
    l.map (fun x => x.get t .u32) = [.ok (some (unitsVal 1 3)), .ok (some (unitsVal 1 2)), .ok (some (unitsVal 1 1))] := by
  obtain ⟨outs, t, hl, hp⟩ := life_decide (F := .code) (guard := false) (σ := noPre) (srt := itemSort) (s := fresh 8 60) (es := seqEvs)
    (fun outs t => decide (outs = [none, none, none, some .collectionUnallowed, none, none, none] ∧ seqList (fresh 8 60) (colU 4 % 65536) = [])) (by decide +kernel)
  obtain ⟨p1, p2⟩ := of_decide_eq_true hp
  have key := C81_history_partial (F := .code) (guard := false) (σ := noPre) (C := bookC) (w := colU 4 % 65536)
    (.create (fun _ => .zero) (image := []) rfl (by decide) (by decide) (fun _ _ h => (by cases h)) (fun _ _ h => (by cases h)))
    itemSort_ok (evOk_of (by decide +kernel)) seq_uses (by decide +kernel) (lifeBenign_of (by decide +kernel)) (noHolesAt_of (by decide +kernel)) hl
  have e0 : seqOf (fresh 8 60) (colU 4 % 65536) = [] := (seqList_eq _ _).trans p2
  have e1 : seqOf t (colU 4 % 65536) = [some (unitsVal 1 3), some (unitsVal 1 2), some (unitsVal 1 1)] := by
    refine key.trans ?_
    rw [p1]
    refine Eq.trans (congrArg (fun L => seqRun _ L seqEvs _) e0) ?_
    decide +kernel
  have hw : colU 4 % 65536 = fix .u32 4 % 65536 := by decide +kernel
  have hg : tag2genus (colU 4) = .u32 := by decide +kernel
  obtain ⟨it, l, h1, h2, h3⟩ := C81_loop (s := t) (tag := colU 4) (by rw [hg]; decide) (by rw [hg]; decide) (by decide +kernel) (by rw [e1]; simp)
  rw [hg, e1] at h3
  exact ⟨outs, t, it, l, hl, e1, C81_first (by decide +kernel) (by decide) (by decide) (by decide +kernel) (hw ▸ e1), h1, h2, h3⟩

/-- Three values among other fields: the middle one replaced, then erased through an iterator. -/
example : ∃ s t u it, Reachable .code noPre s ∧ Acc.At s it 5 ∧ it.assign .code s .u32 (unitsVal 1 9) = .ok it t ∧ it.erase s = .ok true u ∧
    seqOf s (colU 4 % 65536) = [some (unitsVal 1 3), some (unitsVal 1 2), some (unitsVal 1 1)] ∧
    seqOf t (colU 4 % 65536) = [some (unitsVal 1 3), some (unitsVal 1 9), some (unitsVal 1 1)] ∧
    seqOf u (colU 4 % 65536) = [some (unitsVal 1 3), some (unitsVal 1 1)] := by
  obtain ⟨s, hr, hp⟩ := run_decide (F := .code) (s := fresh 8 60) (ops := iterOps)
    (fun s => match Acc.assign .code s ⟨some 5, colU 4⟩ .u32 (unitsVal 1 9), Acc.erase s ⟨some 5, colU 4⟩ with
      | .ok r t, .ok true u => decide (r = ⟨some 5, colU 4⟩ ∧ (s.live 5 ∧ (s.mem 5).hi = colU 4 % 65536) ∧
        seqList s (colU 4 % 65536) = [some (unitsVal 1 3), some (unitsVal 1 2), some (unitsVal 1 1)] ∧
        seqList t (colU 4 % 65536) = [some (unitsVal 1 3), some (unitsVal 1 9), some (unitsVal 1 1)] ∧
        seqList u (colU 4 % 65536) = [some (unitsVal 1 3), some (unitsVal 1 1)])
      | _, _ => false) (by decide +kernel)
  have hR : Reachable .code noPre s := (fresh_ok (by decide) (by decide)).reachable (opOk_of (by decide +kernel)) (runBenign_of (by decide +kernel)) hr
  split at hp
  · rename_i r t u h1 h2
    obtain ⟨rfl, p2, p3, p4, p5⟩ := of_decide_eq_true hp
    exact ⟨s, t, u, ⟨some 5, colU 4⟩, hR, ⟨rfl, p2⟩, h1, h2, (seqList_eq _ _).trans p3, (seqList_eq _ _).trans p4, (seqList_eq _ _).trans p5⟩
  · cases hp

end Fptu.Props
