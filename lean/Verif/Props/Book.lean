import Verif.Lemmas.Accessor
import Verif.Props.TupleDefects
import Verif.Props.Compact
import Verif.Props.Grow
import Verif.Props.Accessor
/-!
# C68: what a tuple holds after any sequence of operations

A book keeps, for each loose field, the values it should have. It knows nothing about buffers, holes or offsets. After
any sequence of operations the tuple holds what the book says.
-/
namespace Fptu.Props
open Fptu Fptu.Gear Fptu.Rw Fptu.Audit Fptu.Compact

/-- What a user does: modifications and compactions. -/
inductive Ev where
  | op (o : Op)
  | compact

/-- The user catches every exception and goes on. For each step, the exception or `none`. No result: undefined behaviour
(or a compaction that does not complete, see C17; `guard` adds the missing checks). -/
def life (F : Fix) (guard : Bool) (σ : Sch) (srt : List Item → List Item) : RW → List Ev → Option (List (Option Exc) × RW)
  | s, [] => some ([], s)
  | s, .op o :: es =>
    match step F s o with
    | .ub => none
    | .exc e s' => (life F guard σ srt s' es).map fun p => (some e :: p.1, p.2)
    | .ok _ s' => (life F guard σ srt s' es).map fun p => (none :: p.1, p.2)
  | s, .compact :: es =>
    match compactifyWith guard srt σ s with
    | .ok _ s' => (life F guard σ srt s' es).map fun p => (none :: p.1, p.2)
    | _ => none

/-- No defect of `src/gear.cxx` shows on the way. -/
def LifeBenign (F : Fix) (guard : Bool) (σ : Sch) (srt : List Item → List Item) : RW → List Ev → Prop
  | _, [] => True
  | s, .op o :: es => StepBenign F s o ∧
    match step F s o with
    | .ub => True
    | .exc _ s' => LifeBenign F guard σ srt s' es
    | .ok _ s' => LifeBenign F guard σ srt s' es
  | s, .compact :: es =>
    match compactifyWith guard srt σ s with
    | .ok _ s' => LifeBenign F guard σ srt s' es
    | _ => True

theorem lifeBenign_repaired (guard : Bool) (σ : Sch) (srt : List Item → List Item) (s : RW) (es : List Ev) : LifeBenign .repaired guard σ srt s es := by
  induction es generalizing s with
  | nil => trivial
  | cons e es ih =>
    cases e with
    | op o =>
      refine ⟨stepBenign_repaired s o, ?_⟩
      cases step .repaired s o <;> first | trivial | exact ih _
    | compact =>
      unfold LifeBenign
      cases compactifyWith guard srt σ s <;> first | trivial | exact ih _

/-- The values of each loose field, by the word of genus and identifier. -/
abbrev Book := Nat → Multiset (Option Val)

/-- A set value replaces, an inserted value is added, an erased field has no values. Preplaced fields have no
place in it. Empty values of fields without NULLs are not stored; an absent nested tuple is stored without value by an insertion, and not at all otherwise. -/
noncomputable def Book.act (B : Book) : Op → Book
  | .set tag g v =>
    if isPreplaced tag then B
    else Function.update B (tag % 65536) (open Classical in if dropped tag g v then 0 else {some v})
  | .insert tag g v =>
    if isPreplaced tag ∨ ¬ isDiscernible tag ∧ v.isEmpty g then B
    else Function.update B (tag % 65536) ((if v = .nested none then none else some v) ::ₘ B (tag % 65536))
  | .erase tag => if isPreplaced tag then B else Function.update B (tag % 65536) 0

/-- Steps that threw change nothing; neither does a compaction. -/
noncomputable def Book.run : Book → List Ev → List (Option Exc) → Book
  | B, .op o :: es, none :: outs => Book.run (B.act o) es outs
  | B, _ :: es, _ :: outs => Book.run B es outs
  | B, _, _ => B

/-- What the tuple holds. -/
def bookOf (s : RW) : Book := fun w => ((fieldsOf s).filter fun f => f.1 = w).map Prod.snd

/-- Each loose field is used either always as a collection or never. -/
def Uses (C : Nat → Bool) : Ev → Prop
  | .op o => isLoose o.tag = true → isLooseCollection o.tag = C (o.tag % 65536)
  | .compact => True

def EvOk (σ : Sch) (pre : Nat) : Ev → Prop
  | .op o => OpOk σ pre o
  | .compact => True

/-- Fields which are no collections have at most one value. -/
def Singles (C : Nat → Bool) (B : Book) : Prop := ∀ w, C w = false → (B w).card ≤ 1 ∧ none ∉ B w

private theorem book_live (s : RW) (w : Nat) :
    bookOf s w = ((liveSet s).filter fun a => (s.mem a).hi = w).val.map fun a => (entryAt s a).2 := by
  unfold bookOf fieldsOf
  rw [Multiset.filter_map, Multiset.map_map]
  rfl

private theorem stay_book {σ : Sch} {s t : RW} {w : Nat} (h : WF σ s) (k : Stay σ s t w) : bookOf t w = bookOf s w := by
  rw [book_live, book_live]
  have e : ((liveSet t).filter fun a => (t.mem a).hi = w) = ((liveSet s).filter fun a => (s.mem a).hi = w) := by
    ext a
    rw [Finset.mem_filter, Finset.mem_filter, mem_liveSet, mem_liveSet]
    exact k.1 a
  rw [e]
  refine Multiset.map_congr rfl fun a ha => ?_
  have ha : RW.has s w a := by
    have := Finset.mem_filter.1 (show a ∈ ((liveSet s).filter fun a => (s.mem a).hi = w) from ha)
    exact ⟨mem_liveSet.1 this.1, this.2⟩
  have kc := k.2 a ha
  unfold entryAt
  show valueAt _ _ _ = valueAt _ _ _
  rw [kc.cell]
  exact kc.value h (Or.inl ⟨ha.1, rfl⟩) (live_genus ha.1 (h.word a ha.1))

private theorem count_card (s : RW) (w : Nat) : (fieldsOf s).countP (fun f => f.1 = w) = (bookOf s w).card := by
  unfold bookOf; rw [Multiset.card_map, Multiset.countP_eq_card_filter]

private theorem filter_zero {m : Multiset (Nat × Option Val)} {w : Nat} (h : ∀ f ∈ m, f.1 ≠ w) :
    (m.filter fun f => f.1 = w) = 0 := Multiset.filter_eq_nil.2 h

private theorem book_cons {s : RW} {w : Nat} {x : Option Val} {rest : Multiset (Nat × Option Val)} (h : fieldsOf s = (w, x) ::ₘ rest) :
    bookOf s w = x ::ₘ (rest.filter fun f => f.1 = w).map Prod.snd := by
  unfold bookOf
  rw [h, Multiset.filter_cons_of_pos (p := fun f : Nat × Option Val => f.1 = w) _ rfl, Multiset.map_cons]

/-- The addressed field. -/
private theorem act_word {F : Fix} {σ : Sch} {C : Nat → Bool} {s t : RW} {o : Op} {u : Unit} (h : Reachable F σ s) (ho : OpOk σ s.pre o)
    (hb : StepBenign F s o) (hu : Uses C (.op o)) (h1 : Singles C (bookOf s)) (hr : step F s o = .ok u t) (hl : isLoose o.tag = true) :
    bookOf t (o.tag % 65536) = (bookOf s).act o (o.tag % 65536) := by
  have hnp : ∀ tag, isLoose tag = true → ¬ isPreplaced tag = true := fun tag h => by rw [preplaced_not_loose, h]; decide
  cases o with
  | set tag g v =>
    have hl : isLoose tag = true := hl
    have hf : v.fits g = true := ho.2
    have hr : setField F s tag g v = .ok () t := hr
    obtain ⟨hc, hg⟩ := set_loose_genus hl hr
    have hone := h1 (tag % 65536) ((hu hl).symm.trans hc)
    show bookOf t (tag % 65536) = (if isPreplaced tag then _ else _ : Book) (tag % 65536)
    rw [if_neg (hnp tag hl), Function.update_self]
    by_cases hd : dropped tag g v
    · rw [if_pos hd]
      have hgone := unset_gone h hl hf hb hr hd (by rw [count_card]; exact hone.1)
      obtain ⟨_, hsub, _⟩ := C09_unset_partial h hl hf hb hr hd
      refine Multiset.eq_zero_of_forall_notMem fun x hx => ?_
      unfold bookOf at hx
      obtain ⟨f, hf, rfl⟩ := Multiset.mem_map.1 hx
      rw [Multiset.mem_filter] at hf
      have hn := hgone f hf.1 hf.2
      refine hone.2 (Multiset.mem_map.2 ⟨f, Multiset.mem_filter.2 ⟨?_, hf.2⟩, hn⟩)
      rcases hsub with e | ⟨old, e⟩
      · rw [← e]; exact hf.1
      · rw [e]; exact Multiset.mem_cons_of_mem hf.1
    · rw [if_neg hd]
      obtain ⟨_, _, ⟨rest, e1, e2⟩, _⟩ := C09_set_partial h hl hf hb hr hd
      rw [book_cons e1]
      have hz : (rest.filter fun f => f.1 = tag % 65536) = 0 := by
        rcases e2 with ⟨e2, e3⟩ | ⟨old, e2⟩
        · rw [← e2]; exact filter_zero e3
        · have := hone.1
          rw [book_cons e2, Multiset.card_cons, Multiset.card_map] at this
          exact Multiset.card_eq_zero.1 (by omega)
      rw [hz]; rfl
  | insert tag g v =>
    have hf : v.fits g = true := ho.2
    have hr : (insertField F s tag g v).bind (fun _ s => Out.ok () s) = .ok u t := hr
    obtain ⟨r, s', hi, he⟩ := Out.bind_ok hr
    injection he with _ he
    rw [he] at hi
    obtain ⟨k1, k2, _⟩ := C10_insert_partial h hf hb hi
    show bookOf t (tag % 65536) = (if _ then _ else _ : Book) (tag % 65536)
    by_cases hd : ¬ isDiscernible tag ∧ v.isEmpty g
    · rw [if_pos (Or.inr hd), (k1 hd).1]
    · rw [if_neg (not_or.2 ⟨hnp tag hl, hd⟩), Function.update_self, book_cons (k2 hd).2]; rfl
  | erase tag =>
    have hl : isLoose tag = true := hl
    have hr : (if isPreplaced tag then (erasePreplaced F s tag).bind fun _ s => .ok () s
      else (eraseLoose s tag).bind fun _ s => .ok () s : Out Unit) = .ok u t := hr
    rw [if_neg (hnp tag hl)] at hr
    obtain ⟨r, s', hi, he⟩ := Out.bind_ok hr
    injection he with _ he
    rw [he] at hi
    show bookOf t (tag % 65536) = (if isPreplaced tag then _ else _ : Book) (tag % 65536)
    rw [if_neg (hnp tag hl), Function.update_self]
    have hg : tag2genus tag ≠ .hole := ho.1
    have key : fieldsOf t = (fieldsOf s).filter (fun f => f.1 ≠ tag % 65536) := by
      cases hc : isLooseCollection tag with
      | true => exact ((C11_erase_collection h hg hc).2.2 _ _ hi).2.1
      | false =>
        have hone := h1 (tag % 65536) ((hu hl).symm.trans hc)
        exact (((C11_erase_single h hg hc).2.2 _ _ hi).2.1 (by rw [count_card]; exact hone.1)).1
    unfold bookOf
    rw [key, filter_zero (fun f hf => (Multiset.mem_filter.1 hf).2)]
    rfl

private theorem act_other (B : Book) (o : Op) (w : Nat) (hw : isPreplaced o.tag = true ∨ o.tag % 65536 ≠ w) : B.act o w = B w := by
  have key : ∀ x, Function.update B (o.tag % 65536) x w = B w ∨ isPreplaced o.tag = true := by
    intro x
    rcases hw with h | h
    · exact Or.inr h
    · exact Or.inl (Function.update_of_ne (Ne.symm h) _ _)
  cases o with
  | set tag g v =>
    show (if isPreplaced tag then _ else _ : Book) w = _
    by_cases hp : isPreplaced tag = true
    · rw [if_pos hp]
    · rw [if_neg hp]; exact (key _).resolve_right hp
  | insert tag g v =>
    show (if _ then _ else _ : Book) w = _
    by_cases hp : isPreplaced tag ∨ ¬ isDiscernible tag ∧ v.isEmpty g
    · rw [if_pos hp]
    · rw [if_neg hp]; exact (key _).resolve_right (fun k => hp (Or.inl k))
  | erase tag =>
    show (if isPreplaced tag then _ else _ : Book) w = _
    by_cases hp : isPreplaced tag = true
    · rw [if_pos hp]
    · rw [if_neg hp]; exact (key _).resolve_right hp

private theorem insert_loose {F : Fix} {s t : RW} {u : Unit} {tag : Nat} {g : Genus} {v : Val}
    (hr : step F s (.insert tag g v) = .ok u t) : isLooseCollection tag = true := by
  by_contra hc
  have hr : (insertField F s tag g v).bind (fun _ s => Out.ok () s) = .ok u t := hr
  obtain ⟨r, s', hi, _⟩ := Out.bind_ok hr
  unfold insertField at hi
  by_cases hg : tag2genus tag ≠ g
  · rw [if_pos hg] at hi; cases hi
  · rw [if_neg hg, if_pos hc] at hi; cases hi

/-- One successful modification. -/
theorem act_ok {F : Fix} {σ : Sch} {C : Nat → Bool} {s t : RW} {o : Op} {u : Unit} (h : Reachable F σ s) (ho : OpOk σ s.pre o)
    (hb : StepBenign F s o) (hu : Uses C (.op o)) (h1 : Singles C (bookOf s)) (hr : step F s o = .ok u t) :
    bookOf t = (bookOf s).act o ∧ Singles C (bookOf t) := by
  have key : bookOf t = (bookOf s).act o := by
    funext w
    by_cases hw : isPreplaced o.tag = true ∨ o.tag % 65536 ≠ w
    · rw [act_other _ _ _ hw]
      exact stay_book h.wf (step_stay h.wf o ho hb hr hw)
    · have h2 := not_or.1 hw
      have h3 := not_not.1 h2.2
      subst h3
      exact act_word h ho hb hu h1 hr (by have := h2.1; rw [preplaced_not_loose] at this; simpa using this)
  refine ⟨key, ?_⟩
  intro w hw
  by_cases hww : isPreplaced o.tag = true ∨ o.tag % 65536 ≠ w
  · rw [key, act_other _ _ _ hww]; exact h1 w hw
  · have h2 := not_or.1 hww
    have h3 := not_not.1 h2.2
    subst h3
    have hl : isLoose o.tag = true := by have := h2.1; rw [preplaced_not_loose] at this; simpa using this
    have hc := (hu hl).trans hw
    rw [key]
    cases o with
    | set tag g v =>
      show (((if isPreplaced tag then _ else _ : Book) (tag % 65536)).card ≤ 1) ∧ none ∉ (if isPreplaced tag then _ else _ : Book) (tag % 65536)
      rw [if_neg (show ¬ isPreplaced tag = true from h2.1), Function.update_self]
      by_cases hd : dropped tag g v
      · rw [if_pos hd]; exact ⟨by simp, by simp⟩
      · rw [if_neg hd]; exact ⟨by simp, by simp⟩
    | insert tag g v =>
      have := insert_loose hr
      rw [show isLooseCollection tag = false from hc] at this; cases this
    | erase tag =>
      show (((if isPreplaced tag then _ else _ : Book) (tag % 65536)).card ≤ 1) ∧ none ∉ (if isPreplaced tag then _ else _ : Book) (tag % 65536)
      rw [if_neg (show ¬ isPreplaced tag = true from h2.1), Function.update_self]
      exact ⟨by simp, by simp⟩

theorem singles_zero (C : Nat → Bool) : Singles C fun _ => 0 := fun _ _ => ⟨by simp, by simp⟩

/-- A new tuple holds nothing. -/
theorem bookOf_create (mem : Memory) (items pre lim : Nat) (image : List Cell) : bookOf (create mem items pre lim image) = fun _ => 0 := by
  funext w
  have : liveSet (create mem items pre lim image) = ∅ := by
    apply Finset.eq_empty_of_forall_notMem
    intro a ha
    have := mem_liveSet.1 ha
    have h1 : items ≤ a := this.1
    have h2 : a < items := this.2.1
    omega
  unfold bookOf fieldsOf
  rw [this]; rfl

/-- What `life` does with its first step. -/
theorem life_op {F : Fix} {guard : Bool} {σ : Sch} {srt : List Item → List Item} {s t : RW} {o : Op} {es : List Ev} {outs : List (Option Exc)}
    (h : life F guard σ srt s (.op o :: es) = some (outs, t)) : ∃ x s1 outs1, outs = x :: outs1 ∧ life F guard σ srt s1 es = some (outs1, t) ∧
      ((x = none ∧ step F s o = .ok () s1) ∨ ∃ e, x = some e ∧ step F s o = .exc e s1) := by
  unfold life at h
  cases hr : step F s o with
  | ub => rw [hr] at h; cases h
  | exc e s1 =>
    rw [hr] at h
    obtain ⟨p, hp, he⟩ := Option.map_eq_some_iff.1 h
    have e1 := congrArg Prod.fst he
    have e2 := congrArg Prod.snd he
    exact ⟨some e, s1, p.1, e1.symm, by rw [hp]; exact congrArg some (Prod.ext rfl e2), Or.inr ⟨e, rfl, rfl⟩⟩
  | ok u s1 =>
    rw [hr] at h
    obtain ⟨p, hp, he⟩ := Option.map_eq_some_iff.1 h
    have e1 := congrArg Prod.fst he
    have e2 := congrArg Prod.snd he
    exact ⟨none, s1, p.1, e1.symm, by rw [hp]; exact congrArg some (Prod.ext rfl e2), Or.inl ⟨rfl, rfl⟩⟩

theorem life_compact {F : Fix} {guard : Bool} {σ : Sch} {srt : List Item → List Item} {s t : RW} {es : List Ev} {outs : List (Option Exc)}
    (h : life F guard σ srt s (.compact :: es) = some (outs, t)) : ∃ s1 outs1, outs = none :: outs1 ∧ life F guard σ srt s1 es = some (outs1, t) ∧
      compactifyWith guard srt σ s = .ok () s1 := by
  unfold life at h
  cases hr : compactifyWith guard srt σ s with
  | ub => rw [hr] at h; cases h
  | exc e s1 => rw [hr] at h; cases h
  | ok u s1 =>
    rw [hr] at h
    obtain ⟨p, hp, he⟩ := Option.map_eq_some_iff.1 h
    have e1 := congrArg Prod.fst he
    have e2 := congrArg Prod.snd he
    exact ⟨s1, p.1, e1.symm, by rw [hp]; exact congrArg some (Prod.ext rfl e2), rfl⟩

/-- **C68 (a tuple holds what its history says, partial).** Whatever sequence of sets, insertions, erasures and compactions is applied
to a tuple, with exceptions caught: afterwards each loose field has exactly the values the book has, and no others. Restricted to
histories on which no defect of `src/gear.cxx` shows. -/
theorem C68_book_partial {F : Fix} {guard : Bool} {σ : Sch} {srt : List Item → List Item} {C : Nat → Bool} {s t : RW} {es : List Ev}
    {outs : List (Option Exc)} (h : Reachable F σ s) (hs : Sorter srt) (hops : ∀ e ∈ es, EvOk σ s.pre e) (hu : ∀ e ∈ es, Uses C e)
    (h1 : Singles C (bookOf s)) (hb : LifeBenign F guard σ srt s es) (hr : life F guard σ srt s es = some (outs, t)) :
    outs.length = es.length ∧ bookOf t = Book.run (bookOf s) es outs ∧ Singles C (bookOf t) ∧ Reachable F σ t := by
  induction es generalizing s outs with
  | nil =>
    have hr := Option.some.inj hr
    have e1 := congrArg Prod.fst hr
    have e2 := congrArg Prod.snd hr
    have e1 : [] = outs := e1
    have e2 : s = t := e2
    subst e1; subst e2
    exact ⟨rfl, rfl, h1, h⟩
  | cons e es ih =>
    have hops' : ∀ e ∈ es, EvOk σ s.pre e := fun e he => hops e (List.mem_cons_of_mem _ he)
    have hu' : ∀ e ∈ es, Uses C e := fun e he => hu e (List.mem_cons_of_mem _ he)
    cases e with
    | op o =>
      have ho : OpOk σ s.pre o := hops (.op o) (List.mem_cons_self ..)
      obtain ⟨hb1, hb2⟩ := hb
      have key := step_spec h.wf o ho hb1
      obtain ⟨x, s1, outs1, rfl, hl, hx⟩ := life_op hr
      rcases hx with ⟨rfl, hx⟩ | ⟨e, rfl, hx⟩
      · rw [hx] at hb2 key
        have key : Keep σ s s1 := key
        obtain ⟨k1, k2⟩ := act_ok h ho hb1 (hu (.op o) (List.mem_cons_self ..)) h1 hx
        obtain ⟨i1, i2, i3, i4⟩ := ih (h.step ho hb1 (Or.inl ⟨_, hx⟩)) (by rw [key.pre]; exact hops') hu' k2 hb2 hl
        exact ⟨by rw [List.length_cons, List.length_cons, i1], by rw [i2, k1]; rfl, i3, i4⟩
      · rw [hx] at hb2 key
        have key : s1 = s := key
        subst key
        obtain ⟨i1, i2, i3, i4⟩ := ih h hops' hu' h1 hb2 hl
        exact ⟨by rw [List.length_cons, List.length_cons, i1], i2, i3, i4⟩
    | compact =>
      obtain ⟨s1, outs1, rfl, hl, hx⟩ := life_compact hr
      unfold LifeBenign at hb
      rw [hx] at hb
      obtain ⟨cp, wf, hp, k1, k2, k3, k4, k5, k6, k7⟩ := compactify_ok hs h.wf hx
      have kc := compacted_of h.wf cp wf k1 k2 k3 k4 k5 k6 k7
      have hbk : bookOf s1 = bookOf s := by
        funext w; unfold bookOf; rw [kc.same.stored]
      obtain ⟨i1, i2, i3, i4⟩ := ih (h.compactify hs hx) (by rw [k3]; exact hops') hu' (by rw [hbk]; exact h1) hb hl
      exact ⟨by rw [List.length_cons, List.length_cons, i1], by rw [i2, hbk]; rfl, i3, i4⟩

/-- **C68 (a tuple holds what its history says) with the defects repaired**: every history, from a new tuple. -/
theorem C68_book_repaired {σ : Sch} {srt : List Item → List Item} {C : Nat → Bool} {t : RW} {es : List Ev} {outs : List (Option Exc)}
    {mem : Memory} {items pre lim : Nat} {image : List Cell} (n1 : image.length = pre) (n2 : items + pre ≤ lim) (n3 : lim ≤ 65534)
    (n4 : ∀ k g, σ k = some g → g.isFixed = false) (n5 : ∀ k g, σ k = some g → k < pre → (image.getD k .zero).lo = 0) (hs : Sorter srt)
    (hops : ∀ e ∈ es, EvOk σ pre e) (hu : ∀ e ∈ es, Uses C e)
    (hr : life .repaired true σ srt (create mem items pre lim image) es = some (outs, t)) :
    bookOf t = Book.run (fun _ => 0) es outs ∧ Singles C (bookOf t) := by
  have hb := bookOf_create mem items pre lim image
  have key := C68_book_partial (C := C) (.create mem n1 n2 n3 n4 n5) hs hops hu (by rw [hb]; exact singles_zero C)
    (lifeBenign_repaired _ _ _ _ _) hr
  rw [hb] at key
  exact ⟨key.2.1, key.2.2.1⟩

private theorem book_has {s : RW} {w a : Nat} (h : RW.has s w a) : valueAt (cellGenus (s.mem a)) s.mem a ∈ bookOf s w := by
  rw [book_live]
  exact Multiset.mem_map.2 ⟨a, Finset.mem_filter.2 ⟨mem_liveSet.2 h.1, h.2⟩, rfl⟩

/-- **C68 (reading what the book says).** A field that is no collection reads as its value in the book; a field without a value reads
as an absent one. -/
theorem C68_reads {s : RW} {tag : Nat} {g : Genus} (hg : tag2genus tag = g) (hh : g ≠ .hole) (hc : isLooseCollection tag = false) :
    (bookOf s (tag % 65536) = 0 → getLoose s tag g = absent tag g) ∧
    (∀ v, bookOf s (tag % 65536) = {some v} → g ≠ .varbin → getLoose s tag g = .ok (some v)) := by
  have hw := tag_not_hole (tag := tag) (by rw [hg]; exact hh)
  constructor
  · intro hb
    have e : s.lookup (tag % 65536) = none := by
      rw [lookup_none hw]
      intro b hb'
      have := book_has hb'
      rw [hb] at this
      exact absurd this (Multiset.notMem_zero _)
    unfold getLoose getEntry absent
    rw [if_neg (by rw [hc]; decide), gid_eq, e, if_neg (fun h => h hg)]
  · intro v hb hv
    cases e : s.lookup (tag % 65536) with
    | none =>
      exfalso
      have h0 := (lookup_none hw).1 e
      have : some v ∈ bookOf s (tag % 65536) := by rw [hb]; exact Multiset.mem_singleton_self _
      rw [book_live] at this
      obtain ⟨a, ha, _⟩ := Multiset.mem_map.1 this
      have ha := Finset.mem_filter.1 (show a ∈ ((liveSet s).filter fun a => (s.mem a).hi = tag % 65536) from ha)
      exact h0 a ⟨mem_liveSet.1 ha.1, ha.2⟩
    | some a =>
      have ha := ((lookup_some hw).1 e).1
      have := book_has ha
      rw [hb, Multiset.mem_singleton] at this
      refine getLoose_value hg hc e ?_ hv
      rw [← this, ← hg]
      unfold cellGenus tag2genus tag2genusCode
      rw [ha.2, Nat.shiftRight_eq_div_pow, show (2:Nat)^16 = 65536 from rfl, show (2:Nat)^11 = 2048 from rfl]

/-- Steps that do not address a field. -/
private theorem run_other {w : Nat} (B : Book) (es : List Ev) (outs : List (Option Exc))
    (hn : ∀ o, Ev.op o ∈ es → isLoose o.tag = true → o.tag % 65536 ≠ w) : Book.run B es outs w = B w := by
  induction es generalizing B outs with
  | nil => cases outs <;> rfl
  | cons e es ih =>
    have hn' : ∀ o, Ev.op o ∈ es → isLoose o.tag = true → o.tag % 65536 ≠ w := fun o ho => hn o (List.mem_cons_of_mem _ ho)
    cases outs with
    | nil => cases e with
      | op o => rfl
      | compact => rfl
    | cons x outs =>
      cases e with
      | compact => exact ih B outs hn'
      | op o =>
        cases x with
        | some x => exact ih B outs hn'
        | none =>
          refine (ih (B.act o) outs hn').trans (act_other _ _ _ ?_)
          cases hl : isLoose o.tag with
          | true => exact Or.inr (hn o (List.mem_cons_self ..) hl)
          | false => left; rw [preplaced_not_loose, hl]; rfl

/-- **C68 (the last value set is read, partial).** A field was set successfully. Whatever sequence of operations on other fields,
failing operations and compactions follows, the field reads as the value that was set. -/
theorem C68_last_set_partial {F : Fix} {guard : Bool} {σ : Sch} {srt : List Item → List Item} {C : Nat → Bool} {s s1 t : RW} {es : List Ev}
    {outs : List (Option Exc)} {tag : Nat} {g : Genus} {v : Val} (h : Reachable F σ s) (hs : Sorter srt)
    (ho : OpOk σ s.pre (.set tag g v)) (hset : step F s (.set tag g v) = .ok () s1) (hl : isLoose tag = true) (hv : g ≠ .varbin)
    (hd : ¬ dropped tag g v) (hb0 : StepBenign F s (.set tag g v))
    (hops : ∀ e ∈ es, EvOk σ s.pre e) (hu : ∀ e ∈ Ev.op (.set tag g v) :: es, Uses C e) (h1 : Singles C (bookOf s))
    (hn : ∀ o, Ev.op o ∈ es → isLoose o.tag = true → o.tag % 65536 ≠ tag % 65536)
    (hb : LifeBenign F guard σ srt s1 es) (hr : life F guard σ srt s1 es = some (outs, t)) :
    getLoose t tag g = .ok (some v) := by
  have hsf : setField F s tag g v = .ok () s1 := hset
  obtain ⟨hc, hg⟩ := set_loose_genus hl hsf
  have hf : v.fits g = true := ho.2
  have key := step_spec h.wf _ ho hb0
  rw [hset] at key
  have key : Keep σ s s1 := key
  have huc := hu _ (List.mem_cons_self ..)
  obtain ⟨k1, k2⟩ := act_ok h ho hb0 huc h1 hset
  obtain ⟨_, i2, _, _⟩ := C68_book_partial (C := C) (h.step ho hb0 (Or.inl ⟨_, hset⟩)) hs (by rw [key.pre]; exact hops)
    (fun e he => hu e (List.mem_cons_of_mem _ he)) k2 hb hr
  refine (C68_reads hg (fits_not_hole hf) hc).2 v ?_ hv
  rw [i2, run_other _ _ _ hn, k1]
  show (if isPreplaced tag then _ else _ : Book) (tag % 65536) = _
  rw [if_neg (by rw [preplaced_not_loose, hl]; decide), Function.update_self, if_neg hd]

/-- **C68 (only the history counts).** Two tuples which hold the same, however they came about, read the same. -/
theorem C68_same_reads {C : Nat → Bool} {s t : RW} {tag : Nat} {g : Genus} (h1 : Singles C (bookOf s)) (he : bookOf t = bookOf s)
    (hg : tag2genus tag = g) (hh : g ≠ .hole) (hv : g ≠ .varbin) (hc : isLooseCollection tag = false) (hC : C (tag % 65536) = false) :
    getLoose t tag g = getLoose s tag g := by
  obtain ⟨h2, h3⟩ := h1 _ hC
  rcases Nat.le_one_iff_eq_zero_or_eq_one.1 h2 with h4 | h4
  · have h4 := Multiset.card_eq_zero.1 h4
    rw [(C68_reads hg hh hc).1 h4, (C68_reads hg hh hc).1 (by rw [he]; exact h4)]
  · obtain ⟨x, hx⟩ := Multiset.card_eq_one.1 h4
    cases x with
    | none => rw [hx] at h3; exact absurd (Multiset.mem_singleton_self _) h3
    | some v => rw [(C68_reads hg hh hc).2 v hx hv, (C68_reads hg hh hc).2 v (by rw [he]; exact hx) hv]

/-! ## Preplaced fields -/

theorem preplaced_reads {s : RW} {tag : Nat} {g : Genus} (hg : tag2genus tag = g) (hfx : g.isFixed = false) {v : Val}
    (hv : valueAt g s.mem (s.pivot + tag2offset tag / 4) = some v) (hne : g ≠ .varbin) : getPreplacedStretchy s tag g = .ok (some v) := by
  unfold getPreplacedStretchy
  rw [if_neg (fun h => h hg)]
  simp only
  unfold valueAt at hv
  have hni : ¬ g.isInplaced = true := by
    intro hh; have := (inplaced_facts g hh).1; rw [hfx] at this; cases this
  rw [if_neg hni] at hv
  by_cases c : (s.mem (s.pivot + tag2offset tag / 4)).lo ≠ 0
  · rw [if_pos c]
    rw [if_pos (Or.inr c), decode_eq hne] at hv
    unfold RW.start
    rw [hv]
  · rw [if_neg (by rw [hfx]; rintro (h | h); cases h; exact c h)] at hv; cases hv

/-- Where a preplaced field lies: offset and size. -/
def slotOf (tag : Nat) : Nat × Nat :=
  if isPreplaced tag then
    if (tag2genus tag).isFixed then (tag2offset tag, (tag2genus tag).preplacedBytes) else (4 * (tag2offset tag / 4), 4)
  else (0, 0)

def Apart (a b : Nat × Nat) : Prop := a.1 + a.2 ≤ b.1 ∨ b.1 + b.2 ≤ a.1

private theorem kept_post {σ : Sch} {s t : RW} {tag n : Nat} (h : WF σ s) (post : PreplacedPost σ s t tag n) :
    PreplacedKept σ s t (tag2offset tag) n := by
  refine ⟨post.pre, fun k hk hn => ?_, fun k g' hσ hk _ => ?_⟩
  · rw [post.pivot]; exact post.bytes _ (by omega)
  · rw [post.pivot]
    have hbase : s.base = s.pivot + s.pre := rfl
    have hfa : FieldAt σ s (s.pivot + k) g' := Or.inr ⟨by omega, by omega, by rw [Nat.add_sub_cancel_left]; exact hσ⟩
    exact (post.kept _ _ hfa).2.value h hfa (stretchy_not_hole (h.sch _ _ hσ))

/-- A modification changes the preplaced field it addresses only. -/
theorem step_slot {F : Fix} {σ : Sch} {s t : RW} {o : Op} {u : Unit} (h : Reachable F σ s) (ho : OpOk σ s.pre o)
    (hb : StepBenign F s o) (hr : step F s o = .ok u t) : PreplacedKept σ s t (slotOf o.tag).1 (slotOf o.tag).2 := by
  have hnp : ∀ tag, isLoose tag = true → isPreplaced tag = false := fun tag h => by rw [preplaced_not_loose, h]; rfl
  have hpl : ∀ tag, isPreplaced tag = false → isLoose tag = true := fun tag h => by rw [preplaced_not_loose] at h; simpa using h
  cases o with
  | set tag g v =>
    have hr : setField F s tag g v = .ok () t := hr
    have hf : v.fits g = true := ho.2
    show PreplacedKept σ s t (slotOf tag).1 (slotOf tag).2
    unfold slotOf
    cases hp : isPreplaced tag with
    | true =>
      have hg : tag2genus tag = g := by
        by_contra hg
        unfold setField at hr
        rw [if_pos hp] at hr
        by_cases hfx : g.isFixed = true
        · rw [if_pos hfx] at hr
          unfold assignPreplacedFixed at hr
          rw [if_pos hg] at hr; cases hr
        · rw [if_neg hfx] at hr
          obtain ⟨_, _, hr, _⟩ := Out.bind_ok hr
          unfold assignStretchy at hr
          rw [if_pos hg] at hr; cases hr
      rw [if_pos rfl, hg]
      cases hfx : g.isFixed with
      | true => rw [if_pos rfl]; exact (C09_set_preplaced_fixed h hp ho.1 hfx hf hr).2.2.2
      | false => rw [if_neg (by decide)]; exact (C09_set_preplaced_stretchy_partial h hp ho.1 hfx hf hb hr).2.2.2.2.2
    | false =>
      rw [if_neg (by decide)]
      by_cases hd : dropped tag g v
      · exact (C09_unset_partial h (hpl tag hp) hf hb hr hd).2.2.2
      · exact (C09_set_partial h (hpl tag hp) hf hb hr hd).2.2.2.2
  | insert tag g v =>
    have hc := insert_loose hr
    have hp : isPreplaced tag = false := by
      have hc' : tag ≥ collectionThreshold := by simpa [isLooseCollection] using hc
      have e : collectionThreshold ≥ looseThreshold := by decide
      have : ¬ tag < looseThreshold := by omega
      simpa [isPreplaced] using this
    have hr : (insertField F s tag g v).bind (fun _ s => Out.ok () s) = .ok u t := hr
    obtain ⟨r, s', hi, he⟩ := Out.bind_ok hr
    injection he with _ he
    rw [he] at hi
    show PreplacedKept σ s t (slotOf tag).1 (slotOf tag).2
    unfold slotOf
    rw [hp, if_neg (by decide)]
    exact (C10_insert_partial h ho.2 hb hi).2.2.2
  | erase tag =>
    have hr : (if isPreplaced tag then (erasePreplaced F s tag).bind fun _ s => .ok () s
      else (eraseLoose s tag).bind fun _ s => .ok () s : Out Unit) = .ok u t := hr
    show PreplacedKept σ s t (slotOf tag).1 (slotOf tag).2
    unfold slotOf
    cases hp : isPreplaced tag with
    | true =>
      rw [hp, if_pos rfl] at hr
      obtain ⟨r, s2, hr, h3⟩ := Out.bind_ok hr
      injection h3 with _ h3
      rw [h3] at hr
      unfold erasePreplaced at hr
      rw [if_pos rfl]
      by_cases hex : preplacedExist s tag = true
      · rw [if_pos hex] at hr
        obtain ⟨_, s1, h1, h2⟩ := Out.bind_ok hr
        injection h2 with _ h2
        rw [h2] at h1
        have hslot := ho.2 hp
        cases hfx : (tag2genus tag).isFixed with
        | true =>
          rw [hfx, if_pos rfl] at hslot
          obtain ⟨s', e', post, _⟩ := erasePreplacedFixed_spec (F := F) h.wf rfl hfx hslot
          rw [e'] at h1
          injection h1 with _ h1
          rw [← h1, if_pos rfl]
          exact kept_post h.wf post
        | false =>
          rw [hfx, if_neg (by decide)] at hslot
          have key := erasePreplacedStretchy_spec (F := F) h.wf rfl hslot
          rw [h1] at key
          obtain ⟨_, o, _⟩ := key
          rw [if_neg (by decide)]
          refine PreplacedKept.of_kept h.wf o.pivot o.pre (fun b h1 h2 h3 => o.kept b ?_ (Or.inr ⟨h1, h2⟩)) ⟨by omega, by omega⟩
          rintro rfl
          exact h3 ⟨by omega, by omega⟩
      · rw [if_neg hex] at hr
        injection hr with _ hr
        rw [← hr]
        exact ⟨rfl, fun _ _ _ => rfl, fun _ _ _ _ _ => rfl⟩
    | false =>
      rw [hp, if_neg (by decide)] at hr
      obtain ⟨r, s2, hr, h3⟩ := Out.bind_ok hr
      injection h3 with _ h3
      rw [h3] at hr
      rw [if_neg (by decide)]
      have hg : tag2genus tag ≠ .hole := ho.1
      cases hc : isLooseCollection tag with
      | true => exact ((C11_erase_collection h hg hc).2.2 _ _ hr).2.2.2
      | false => exact ((C11_erase_single h hg hc).2.2 _ _ hr).2.2.2.2

theorem slot_fixed {σ : Sch} {s t : RW} {tag : Nat} {g : Genus} {lo n : Nat} (k : PreplacedKept σ s t lo n)
    (hs : FixedSlot σ s.pre tag g) (ha : Apart (lo, n) (tag2offset tag, g.preplacedBytes)) :
    getPreplacedFixed t tag g = getPreplacedFixed s tag g := by
  have : t.mem.readBytes (4 * t.pivot + tag2offset tag) g.preplacedBytes = s.mem.readBytes (4 * s.pivot + tag2offset tag) g.preplacedBytes := by
    unfold Memory.readBytes
    refine List.map_congr_left fun i hi => ?_
    have hi := List.mem_range.1 hi
    have h1 := hs.1
    have ha : lo + n ≤ tag2offset tag ∨ tag2offset tag + g.preplacedBytes ≤ lo := ha
    have := k.bytes (tag2offset tag + i) (by omega) (by omega)
    rw [Nat.add_assoc, Nat.add_assoc]
    exact this
  unfold getPreplacedFixed
  rw [this]

/-- Any sequence of steps that spare a preplaced field. -/
theorem life_slot {F : Fix} {guard : Bool} {σ : Sch} {srt : List Item → List Item} {s t : RW} {es : List Ev} {outs : List (Option Exc)}
    {tag : Nat} (h : Reachable F σ s) (hs : Sorter srt) (hops : ∀ e ∈ es, EvOk σ s.pre e) (hb : LifeBenign F guard σ srt s es)
    (hr : life F guard σ srt s es = some (outs, t)) (ht : TokenOk σ s.pre tag) (hp : isPreplaced tag = true)
    (hn : ∀ o, Ev.op o ∈ es → Apart (slotOf o.tag) (slotOf tag)) :
    ((tag2genus tag).isFixed = true → getPreplacedFixed t tag (tag2genus tag) = getPreplacedFixed s tag (tag2genus tag)) ∧
    ((tag2genus tag).isFixed = false → valueAt (tag2genus tag) t.mem (t.pivot + tag2offset tag / 4) =
      valueAt (tag2genus tag) s.mem (s.pivot + tag2offset tag / 4)) := by
  induction es generalizing s outs with
  | nil =>
    have hr := Option.some.inj hr
    have e2 : s = t := congrArg Prod.snd hr
    rw [e2]; exact ⟨fun _ => rfl, fun _ => rfl⟩
  | cons e es ih =>
    have hops' : ∀ e ∈ es, EvOk σ s.pre e := fun e he => hops e (List.mem_cons_of_mem _ he)
    have hn' : ∀ o, Ev.op o ∈ es → Apart (slotOf o.tag) (slotOf tag) := fun o he => hn o (List.mem_cons_of_mem _ he)
    have hslot := ht.2 hp
    cases e with
    | op o =>
      have ho : OpOk σ s.pre o := hops (.op o) (List.mem_cons_self ..)
      obtain ⟨hb1, hb2⟩ := hb
      have key := step_spec h.wf o ho hb1
      obtain ⟨x, s1, outs1, rfl, hl, hx⟩ := life_op hr
      rcases hx with ⟨rfl, hx⟩ | ⟨e, rfl, hx⟩
      · rw [hx] at hb2 key
        have key : Keep σ s s1 := key
        obtain ⟨i1, i2⟩ := ih (h.step ho hb1 (Or.inl ⟨_, hx⟩)) (by rw [key.pre]; exact hops') hb2 hl (by rw [key.pre]; exact ht) hn'
        have kk := step_slot h ho hb1 hx
        have ha := hn o (List.mem_cons_self ..)
        constructor
        · intro hfx
          rw [i1 hfx]
          rw [hfx, if_pos rfl] at hslot
          refine slot_fixed kk hslot ?_
          unfold slotOf at ha ⊢
          rw [if_pos hp, if_pos hfx] at ha
          exact ha
        · intro hfx
          rw [i2 hfx]
          rw [hfx, if_neg (by decide)] at hslot
          refine kk.stretchy _ _ hslot.2 hslot.1 ?_
          have e : slotOf tag = (4 * (tag2offset tag / 4), 4) := by unfold slotOf; rw [if_pos hp, if_neg (by rw [hfx]; decide)]
          rw [e] at ha
          have ha : (slotOf o.tag).1 + (slotOf o.tag).2 ≤ 4 * (tag2offset tag / 4) ∨ 4 * (tag2offset tag / 4) + 4 ≤ (slotOf o.tag).1 := ha
          omega
      · rw [hx] at hb2 key
        have key : s1 = s := key
        subst key
        exact ih h hops' hb2 hl ht hn'
    | compact =>
      obtain ⟨s1, outs1, rfl, hl, hx⟩ := life_compact hr
      unfold LifeBenign at hb
      rw [hx] at hb
      obtain ⟨cp, wf, hpu, k1, k2, k3, k4, k5, k6, k7⟩ := compactify_ok hs h.wf hx
      have kc := compacted_of h.wf cp wf k1 k2 k3 k4 k5 k6 k7
      obtain ⟨i1, i2⟩ := ih (h.compactify hs hx) (by rw [k3]; exact hops') hb hl (by rw [k3]; exact ht) hn'
      constructor
      · intro hfx
        rw [hfx, if_pos rfl] at hslot
        rw [i1 hfx]; exact kc.same.preFixed _ _ hslot
      · intro hfx
        rw [hfx, if_neg (by decide)] at hslot
        rw [i2 hfx]; exact kc.same.preStored _ _ hslot.2 hslot.1

theorem preplaced_genus {F : Fix} {s t : RW} {tag : Nat} {g : Genus} {v : Val} {u : Unit} (hp : isPreplaced tag = true)
    (hset : step F s (.set tag g v) = .ok u t) : tag2genus tag = g := by
  have hsf : setField F s tag g v = .ok u t := hset
  by_contra hg
  unfold setField at hsf
  rw [if_pos hp] at hsf
  by_cases hfx : g.isFixed = true
  · rw [if_pos hfx] at hsf
    unfold assignPreplacedFixed at hsf
    rw [if_pos hg] at hsf; cases hsf
  · rw [if_neg hfx] at hsf
    obtain ⟨_, _, hsf, _⟩ := Out.bind_ok hsf
    unfold assignStretchy at hsf
    rw [if_pos hg] at hsf; cases hsf

/-- **C68 (the last value set is read, preplaced fields, partial).** A preplaced field was set successfully. Whatever sequence of
operations on other fields, failing operations and compactions follows, the field reads as the value that was set (the designated
"no value" pattern of a field of fixed size reads as absent when NULLs are distinguished). -/
theorem C68_last_preplaced_partial {F : Fix} {guard : Bool} {σ : Sch} {srt : List Item → List Item} {s s1 t : RW} {es : List Ev}
    {outs : List (Option Exc)} {tag : Nat} {g : Genus} {v : Val} (h : Reachable F σ s) (hs : Sorter srt)
    (ho : OpOk σ s.pre (.set tag g v)) (hset : step F s (.set tag g v) = .ok () s1) (hp : isPreplaced tag = true)
    (hb0 : StepBenign F s (.set tag g v)) (hops : ∀ e ∈ es, EvOk σ s.pre e) (hn : ∀ o, Ev.op o ∈ es → Apart (slotOf o.tag) (slotOf tag))
    (hb : LifeBenign F guard σ srt s1 es) (hr : life F guard σ srt s1 es = some (outs, t)) :
    (g.isFixed = true → getPreplacedFixed t tag g =
      if isDiscernible tag ∧ v.bytes g = denilBytes g then .error .fieldAbsent else .ok (v.bytes g)) ∧
    (g.isFixed = false → ¬ dropped tag g v → g ≠ .varbin → getPreplacedStretchy t tag g = .ok (some v)) := by
  have hsf : setField F s tag g v = .ok () s1 := hset
  have hf : v.fits g = true := ho.2
  have key := step_spec h.wf _ ho hb0
  rw [hset] at key
  have key : Keep σ s s1 := key
  have hg : tag2genus tag = g := preplaced_genus hp hset
  obtain ⟨i1, i2⟩ := life_slot (tag := tag) (h.step ho hb0 (Or.inl ⟨_, hset⟩)) hs (by rw [key.pre]; exact hops) hb hr
    (by rw [key.pre]; exact ho.1) hp hn
  rw [hg] at i1 i2
  constructor
  · intro hfx
    rw [i1 hfx]
    exact (C09_set_preplaced_fixed h hp ho.1 hfx hf hsf).1
  · intro hfx hd hv
    have k := (C09_set_preplaced_stretchy_partial h hp ho.1 hfx hf hb0 hsf).2.1 hd
    rw [← i2 hfx] at k
    exact preplaced_reads hg hfx k hv

/-! ## The hypotheses are met -/

def lifeBenignB (F : Fix) (guard : Bool) (σ : Sch) (srt : List Item → List Item) : RW → List Ev → Bool
  | _, [] => true
  | s, .op o :: es => stepBenignB F s o && match step F s o with
    | .ub => true
    | .exc _ s' => lifeBenignB F guard σ srt s' es
    | .ok _ s' => lifeBenignB F guard σ srt s' es
  | s, .compact :: es =>
    match compactifyWith guard srt σ s with
    | .ok _ s' => lifeBenignB F guard σ srt s' es
    | _ => true

theorem lifeBenign_of {F : Fix} {guard : Bool} {σ : Sch} {srt : List Item → List Item} {s : RW} {es : List Ev}
    (h : lifeBenignB F guard σ srt s es = true) : LifeBenign F guard σ srt s es := by
  induction es generalizing s with
  | nil => trivial
  | cons e es ih =>
    cases e with
    | op o =>
      rw [lifeBenignB, Bool.and_eq_true] at h
      refine ⟨stepBenign_of h.1, ?_⟩
      have h2 := h.2
      cases hr : step F s o with
      | ub => trivial
      | exc e s1 => rw [hr] at h2; exact ih h2
      | ok u s1 => rw [hr] at h2; exact ih h2
    | compact =>
      rw [lifeBenignB] at h
      unfold LifeBenign
      cases hr : compactifyWith guard srt σ s with
      | ub => trivial
      | exc e s1 => trivial
      | ok u s1 => rw [hr] at h; exact ih h

theorem life_decide {F : Fix} {guard : Bool} {σ : Sch} {srt : List Item → List Item} {s : RW} {es : List Ev} (p : List (Option Exc) → RW → Bool)
    (h : (match life F guard σ srt s es with | some r => p r.1 r.2 | none => false) = true) :
    ∃ outs t, life F guard σ srt s es = some (outs, t) ∧ p outs t = true := by
  cases hl : life F guard σ srt s es with
  | none => rw [hl] at h; cases h
  | some r => rw [hl] at h; exact ⟨r.1, r.2, rfl, h⟩

theorem evOk_of {σ : Sch} {pre : Nat} {es : List Ev} (h : (es.all fun e => match e with | .op o => looseOpB o | .compact => true) = true) :
    ∀ e ∈ es, EvOk σ pre e := by
  intro e he
  have h := List.all_eq_true.1 h e he
  cases e with
  | op o => exact opOk_of (ops := [o]) (by rw [List.all_cons, List.all_nil, Bool.and_true]; exact h) o (List.mem_cons_self ..)
  | compact => trivial

/-- Fields set, set again and erased, a collection, a step that throws, a compaction. -/
def bookEvs : List Ev :=
  [.op (insC 4 1), .op (setN 1 3), .op (insC 4 2), .op (setF .u64 3 5), .op (.set (fix .u64 3) .u32 (unitsVal 1 1)), .op (setF .u64 3 7),
   .op (eraseN 1), .compact, .op (setN 2 2)]

def bookC (w : Nat) : Bool := w == colU 4 % 65536

private theorem book_uses : ∀ e ∈ bookEvs, Uses bookC e := by
  intro e he
  have key : (bookEvs.all fun e => match e with | .op o => !isLoose o.tag || (isLooseCollection o.tag == bookC (o.tag % 65536)) | .compact => true) = true := by
    decide +kernel
  have h := List.all_eq_true.1 key e he
  cases e with
  | op o =>
    intro hl
    have h : (!isLoose o.tag || (isLooseCollection o.tag == bookC (o.tag % 65536))) = true := h
    rw [hl] at h
    exact eq_of_beq h
  | compact => trivial

/-- The code as it is, with a compaction on the way: nine steps, the fifth one throws, and all hypotheses are met. -/
example : ∃ outs t, life .code false noPre itemSort (fresh 8 60) bookEvs = some (outs, t) ∧
    outs = [none, none, none, none, some .typeMismatch, none, none, none, none] ∧ (liveSet t).card = 4 ∧
    Reachable .code noPre (fresh 8 60) ∧ Sorter itemSort ∧ (∀ e ∈ bookEvs, EvOk noPre 0 e) ∧ (∀ e ∈ bookEvs, Uses bookC e) ∧
    Singles bookC (bookOf (fresh 8 60)) ∧ LifeBenign .code false noPre itemSort (fresh 8 60) bookEvs := by
  obtain ⟨outs, t, hl, hp⟩ := life_decide (F := .code) (guard := false) (σ := noPre) (srt := itemSort) (s := fresh 8 60) (es := bookEvs)
    (fun outs t => decide (outs = [none, none, none, none, some .typeMismatch, none, none, none, none] ∧ (liveSet t).card = 4)) (by decide +kernel)
  obtain ⟨p1, p2⟩ := of_decide_eq_true hp
  refine ⟨outs, t, hl, p1, p2, ?_, itemSort_ok, evOk_of (by decide +kernel), book_uses, ?_, lifeBenign_of (by decide +kernel)⟩
  · exact .create (fun _ => .zero) (image := []) rfl (by decide) (by decide) (fun _ _ h => (by cases h)) (fun _ _ h => (by cases h))
  · rw [show bookOf (fresh 8 60) = fun _ => 0 from bookOf_create _ _ _ _ _]
    exact singles_zero _

/-- The last value of the field set twice is read at the end. -/
example : ∃ outs t, life .repaired true noPre itemSort (fresh 8 60) bookEvs = some (outs, t) ∧
    getLoose t (fix .u64 3) .u64 = .ok (some (unitsVal 2 7)) ∧ getLoose t (nst 1) .nested = absent (nst 1) .nested := by
  obtain ⟨outs, t, hl, hp⟩ := life_decide (F := .repaired) (guard := true) (σ := noPre) (srt := itemSort) (s := fresh 8 60) (es := bookEvs)
    (fun outs t => decide (outs = [none, none, none, none, some .typeMismatch, none, none, none, none])) (by decide +kernel)
  have p1 := of_decide_eq_true hp
  obtain ⟨k1, _⟩ := C68_book_repaired (C := bookC) (image := []) rfl (by decide) (by decide) (fun _ _ h => (by cases h)) (fun _ _ h => (by cases h))
    itemSort_ok (evOk_of (by decide +kernel)) book_uses hl
  rw [p1] at k1
  refine ⟨outs, t, hl, (C68_reads (by decide +kernel) (by decide) (by decide +kernel)).2 _ ?_ (by decide),
    (C68_reads (by decide +kernel) (by decide) (by decide +kernel)).1 ?_⟩
  · rw [k1]
    have hd : ¬ dropped (fix .u64 3) .u64 (unitsVal Genus.u64.looseUnits 7) := by unfold dropped; decide +kernel
    unfold bookEvs setF setN eraseN insC
    simp only [Book.run, Book.act]
    rw [if_neg (by decide +kernel), Function.update_of_ne (by decide +kernel), if_neg (by decide +kernel),
      Function.update_of_ne (by decide +kernel), if_neg (by decide +kernel), Function.update_self, if_neg hd]
    rfl
  · rw [k1]
    unfold bookEvs setF setN eraseN insC
    simp only [Book.run, Book.act]
    rw [if_neg (by decide +kernel), Function.update_of_ne (by decide +kernel), if_neg (by decide +kernel), Function.update_self]

/-- Two preplaced numbers side by side. -/
def preA : Nat := tagFromOffset 0 .u32 4 false false
def preB : Nat := tagFromOffset 4 .u32 4 false false

theorem preAB_ok : ∀ tag ∈ [preA, preB], TokenOk noPre 2 tag := by
  intro tag h
  have key : ∀ tag ∈ [preA, preB], tag2genus tag = .u32 ∧ tag2offset tag + 4 ≤ 8 := by decide +kernel
  obtain ⟨k1, k2⟩ := key tag h
  refine ⟨by rw [k1]; decide, fun _ => ?_⟩
  rw [k1]
  exact ⟨k2, fun k hk => by obtain ⟨g, hk⟩ := hk; cases hk⟩

example : ∃ s1 outs t, step .code (create (fun _ => .zero) 8 2 60 [.zero, .zero]) (.set preA .u32 (unitsVal 1 9)) = .ok () s1 ∧
    life .code false noPre itemSort s1 [.op (.set preB .u32 (unitsVal 1 5)), .op (setN 1 3), .op (setN 2 2), .op (eraseN 1), .compact] = some (outs, t) ∧
    getPreplacedFixed t preA .u32 = .ok ((unitsVal 1 9).bytes .u32) := by
  cases hs : step .code (create (fun _ => .zero) 8 2 60 [.zero, .zero]) (.set preA .u32 (unitsVal 1 9)) with
  | ub => exact absurd (show (match step .code (create (fun _ => .zero) 8 2 60 [.zero, .zero]) (.set preA .u32 (unitsVal 1 9)) with | .ub => false | _ => true) = true by decide +kernel) (by rw [hs]; decide)
  | exc e u => exact absurd (show (match step .code (create (fun _ => .zero) 8 2 60 [.zero, .zero]) (.set preA .u32 (unitsVal 1 9)) with | .exc _ _ => false | _ => true) = true by decide +kernel) (by rw [hs]; exact Bool.false_ne_true)
  | ok u s1 =>
    have hl : (match step .code (create (fun _ => .zero) 8 2 60 [.zero, .zero]) (.set preA .u32 (unitsVal 1 9)) with
      | .ok _ s1 => (life .code false noPre itemSort s1
          [.op (.set preB .u32 (unitsVal 1 5)), .op (setN 1 3), .op (setN 2 2), .op (eraseN 1), .compact]).isSome &&
        lifeBenignB .code false noPre itemSort s1 [.op (.set preB .u32 (unitsVal 1 5)), .op (setN 1 3), .op (setN 2 2), .op (eraseN 1), .compact]
      | _ => false) = true := by decide +kernel
    rw [hs] at hl
    have hl := Bool.and_eq_true_iff.1 hl
    obtain ⟨r, hr⟩ := Option.isSome_iff_exists.1 hl.1
    refine ⟨s1, r.1, r.2, rfl, hr, ?_⟩
    have key := C68_last_preplaced_partial (F := .code) (σ := noPre) (tag := preA)
      (.create (fun _ => .zero) (image := [.zero, .zero]) rfl (by decide) (by decide) (fun _ _ h => (by cases h)) (fun _ _ h => (by cases h)))
      itemSort_ok ⟨preAB_ok preA (by simp), by decide⟩ hs (by decide +kernel) (stepBenign_of (by decide +kernel)) ?_ ?_ (lifeBenign_of hl.2) hr
    · rw [key.1 rfl, if_neg (by decide +kernel)]
    · intro e he
      rcases List.mem_cons.1 he with rfl | he
      · exact ⟨preAB_ok preB (by simp), by decide⟩
      · exact evOk_of (by decide +kernel) e he
    · intro o ho
      simp only [List.mem_cons, List.not_mem_nil, or_false, Ev.op.injEq, reduceCtorEq] at ho
      rcases ho with rfl | rfl | rfl | rfl <;> (unfold Apart; decide +kernel)

end Fptu.Props
