import Verif.Props.Book
/-!
# C68: what a tuple holds after any life

`C68_book_partial` is about modifications and compactions. Here the life of a tuple has everything else too: serialization and
re-creation, sorting, `reset`, reservation of space and modifications with automatic growth.
-/
namespace Fptu.Props
open Fptu Fptu.Gear Fptu.Rw Fptu.Audit Fptu.Serial Fptu.Compact Fptu.Grow

/-- What a turn of the life of a tuple amounts to for the user. -/
inductive Did where
  | nothing
  | op (o : Op)
  | reset

/-- One turn of the life of a tuple: a modification, with or without automatic growth, successful or not; a reservation of space, successful
or not; a compaction; sorting; a transfer through the serialized form; a reset. `F` and `E` say which defects are repaired;
where they are not, the turn must not be one in which they show. -/
inductive Turn (F : Fix) (sch : Option Schema) (C : Nat → Bool) : RW → Did → RW → Prop
  | done {s t : RW} {o : Op} {u : Unit} (ho : OpOk (schOf sch) s.pre o) (hb : StepBenign F s o) (hu : Uses C (.op o))
      (e : step F s o = .ok u t) : Turn F sch C s (.op o) t
  | failed {s t : RW} {o : Op} {x : Exc} (ho : OpOk (schOf sch) s.pre o) (hb : StepBenign F s o) (e : step F s o = .exc x t) :
      Turn F sch C s .nothing t
  | grown {s t : RW} {o : Op} {E : Env} {S : Nat → Supply} {k : Nat} (hE : EnvOk E sch) (ho : OpOk (schOf sch) s.pre o)
      (hb : GrowBenign F E s o) (hu : Uses C (.op o)) (e : managed E S (fun s => step F s o) k s = some (.ok () t)) :
      Turn F sch C s (.op o) t
  | stuck {s t : RW} {o : Op} {E : Env} {S : Nat → Supply} {k : Nat} {x : Exc} (hE : EnvOk E sch) (ho : OpOk (schOf sch) s.pre o)
      (hb : GrowBenign F E s o) (e : managed E S (fun s => step F s o) k s = some (.exc x t)) : Turn F sch C s .nothing t
  | reserved {s t : RW} {E : Env} {S : Supply} {i n : Nat} {u : Unit} (hE : EnvOk E sch)
      (hk : E.keepJunk = true ∨ (s.jc = 0 ∧ s.jv = 0)) (e : manage E S i n s = .ok u t) : Turn F sch C s .nothing t
  | refused {s t : RW} {E : Env} {S : Supply} {i n : Nat} {x : Exc} (hE : EnvOk E sch) (e : manage E S i n s = .exc x t) :
      Turn F sch C s .nothing t
  | compacted {s t : RW} {guard : Bool} {srt : List Item → List Item} (hs : Sorter srt)
      (e : compactifyWith guard srt (schOf sch) s = .ok () t) : Turn F sch C s .nothing t
  | sorted {s t : RW} {srt : List Cell → List Cell} {b : Bool} (hF : F = .repaired) (hj : s.jc = 0) (hs : GidSorter srt)
      (e : sortWith false srt s = .ok b t) : Turn F sch C s .nothing t
  | recreated {s t : RW} (hidx : s.pivot - s.head ≤ 8191) (hsize : s.tail - s.head + 1 ≤ 65534) {overhead more moreData extra : Nat}
      {mem : Memory} (e : createFromRo overhead mem s.jc s.jv (takeAsis sch s) more moreData (preBytesOf sch) extra = .ok t)
      (hroom : t.tail ≤ t.lim) : Turn F sch C s .nothing t
  | reset {s t : RW} {image : List Cell} (h1 : image.length = s.pre)
      (h4 : ∀ k g, schOf sch k = some g → k < s.pre → (image.getD k .zero).lo = 0) (e : Serial.reset s image = .ok t) :
      Turn F sch C s .reset t

/-- The book after a turn. -/
noncomputable def Book.did (B : Book) : Did → Book
  | .nothing => B
  | .op o => B.act o
  | .reset => fun _ => 0

/-- A life of a tuple, and what the user wrote down meanwhile. -/
inductive Story (F : Fix) (sch : Option Schema) (C : Nat → Bool) : RW → Book → Prop
  | create (mem : Memory) {items lim : Nat} {image : List Cell} (h0 : ∀ S, sch = some S → SchemaOk S)
      (h1 : image.length = bytes2units (preBytesOf sch)) (h2 : items + image.length ≤ lim) (h3 : lim ≤ 65534)
      (h4 : ∀ k g, schOf sch k = some g → k < image.length → (image.getD k .zero).lo = 0) :
      Story F sch C (Rw.create mem items image.length lim image) fun _ => 0
  | turn {s t : RW} {B : Book} {d : Did} (h : Story F sch C s B) (e : Turn F sch C s d t) : Story F sch C t (B.did d)

/-- The preplaced field holds the same. -/
structure SlotSame (s t : RW) (tag : Nat) : Prop where
  fixed : (tag2genus tag).isFixed = true → getPreplacedFixed t tag (tag2genus tag) = getPreplacedFixed s tag (tag2genus tag)
  stretchy : (tag2genus tag).isFixed = false → valueAt (tag2genus tag) t.mem (t.pivot + tag2offset tag / 4) =
    valueAt (tag2genus tag) s.mem (s.pivot + tag2offset tag / 4)

/-- The turn is not a modification of this preplaced field. -/
def Did.Spares (tag : Nat) : Did → Prop
  | .nothing => True
  | .op o => Apart (slotOf o.tag) (slotOf tag)
  | .reset => False

/-- A part of a life in which a preplaced field is not modified. -/
inductive Since (F : Fix) (sch : Option Schema) (C : Nat → Bool) (tag : Nat) : RW → RW → Prop
  | start (s : RW) : Since F sch C tag s s
  | turn {s t u : RW} {d : Did} (h : Since F sch C tag s t) (hd : d.Spares tag) (e : Turn F sch C t d u) : Since F sch C tag s u

private theorem book_same {s t : RW} (h : fieldsOf t = fieldsOf s) : bookOf t = bookOf s := by
  funext w; unfold bookOf; rw [h]

private theorem SlotSame.trans {s t u : RW} {tag : Nat} (h : SlotSame s t tag) (h' : SlotSame t u tag) : SlotSame s u tag :=
  ⟨fun k => (h'.fixed k).trans (h.fixed k), fun k => (h'.stretchy k).trans (h.stretchy k)⟩

private theorem slot_same {σ : Sch} {s t : RW} {tag : Nat} (hf : ∀ tag g, FixedSlot σ s.pre tag g → getPreplacedFixed t tag g = getPreplacedFixed s tag g)
    (hs : ∀ k g, σ k = some g → k < s.pre → valueAt g t.mem (t.pivot + k) = valueAt g s.mem (s.pivot + k)) (ht : TokenOk σ s.pre tag)
    (hp : isPreplaced tag = true) : SlotSame s t tag := by
  have hslot := ht.2 hp
  constructor
  · intro hfx
    rw [hfx, if_pos rfl] at hslot
    exact hf _ _ hslot
  · intro hfx
    rw [hfx, if_neg (by decide)] at hslot
    exact hs _ _ hslot.2 hslot.1

private theorem slot_step {F : Fix} {σ : Sch} {s t : RW} {o : Op} {u : Unit} {tag : Nat} (h : Reachable F σ s) (ho : OpOk σ s.pre o)
    (hb : StepBenign F s o) (e : step F s o = .ok u t) (ht : TokenOk σ s.pre tag) (hp : isPreplaced tag = true)
    (ha : Apart (slotOf o.tag) (slotOf tag)) : SlotSame s t tag := by
  have kk := step_slot h ho hb e
  have hslot := ht.2 hp
  constructor
  · intro hfx
    rw [hfx, if_pos rfl] at hslot
    refine slot_fixed kk hslot ?_
    unfold slotOf at ha ⊢
    rw [if_pos hp, if_pos hfx] at ha
    exact ha
  · intro hfx
    rw [hfx, if_neg (by decide)] at hslot
    refine kk.stretchy _ _ hslot.2 hslot.1 ?_
    have e : slotOf tag = (4 * (tag2offset tag / 4), 4) := by unfold slotOf; rw [if_pos hp, if_neg (by rw [hfx]; decide)]
    rw [e] at ha
    have ha : (slotOf o.tag).1 + (slotOf o.tag).2 ≤ 4 * (tag2offset tag / 4) ∨ 4 * (tag2offset tag / 4) + 4 ≤ (slotOf o.tag).1 := ha
    omega

/-- One turn. -/
private theorem turn_ok {F : Fix} {sch : Option Schema} {C : Nat → Bool} {s t : RW} {d : Did} (i3 : History F sch s) (h : Turn F sch C s d t) :
    (Singles C (bookOf s) → bookOf t = (bookOf s).did d ∧ Singles C (bookOf t)) ∧ History F sch t ∧
    ∀ tag, TokenOk (schOf sch) s.pre tag → isPreplaced tag = true → d.Spares tag → SlotSame s t tag := by
  have same : ∀ {t : RW}, bookOf t = bookOf s → Singles C (bookOf s) → bookOf t = (bookOf s).did .nothing ∧ Singles C (bookOf t) :=
    fun h k => ⟨h, by rw [h]; exact k⟩
  cases h with
  | done ho hb hu e =>
    have key := step_spec i3.made.wf _ ho hb
    rw [e] at key
    exact ⟨fun i2 => act_ok i3.made ho hb hu i2 e, ⟨i3.schema, i3.made.step ho hb (Or.inl ⟨_, e⟩), (Keep.pre key).trans i3.pre⟩,
      fun tag ht hp hd => slot_step i3.made ho hb e ht hp hd⟩
  | failed ho hb e =>
    have key := step_spec i3.made.wf _ ho hb
    rw [e] at key
    have key : t = s := key
    rw [key]; exact ⟨same rfl, i3, fun _ _ _ _ => ⟨fun _ => rfl, fun _ => rfl⟩⟩
  | @grown _ o E S k hE ho hb hu e =>
    obtain ⟨u, k1, k2, k3, k4⟩ := (C33_loop_partial k i3 hE ho hb).1 t e
    have hbk := book_same k1.same.stored
    have hpre : u.pre = s.pre := k1.history.pre.trans i3.pre.symm
    refine ⟨fun i2 => ?_, k4, fun tag ht hp hd => ?_⟩
    · obtain ⟨l1, l2⟩ := act_ok k1.history.made (by rw [hpre]; exact ho) k2 hu (by rw [hbk]; exact i2) k3
      rw [hbk] at l1
      exact ⟨l1, l2⟩
    · exact (slot_same k1.same.preFixed k1.same.preStored ht hp).trans
        (slot_step k1.history.made (by rw [hpre]; exact ho) k2 k3 (by rw [hpre]; exact ht) hp hd)
  | @stuck _ o E S k x hE ho hb e =>
    obtain ⟨k1, _⟩ := (C33_loop_partial k i3 hE ho hb).2 x t e
    exact ⟨same (book_same k1.same.stored), k1.history, fun tag ht hp _ => slot_same k1.same.preFixed k1.same.preStored ht hp⟩
  | reserved hE hk e =>
    obtain ⟨k1, _⟩ := C33_content_partial i3 hE hk e
    exact ⟨same (book_same k1.same.stored), k1.history, fun tag ht hp _ => slot_same k1.same.preFixed k1.same.preStored ht hp⟩
  | refused hE e =>
    obtain ⟨k1, _⟩ := (C33_failed i3 hE).1 _ _ e
    exact ⟨same (book_same k1.same.stored), k1.history, fun tag ht hp _ => slot_same k1.same.preFixed k1.same.preStored ht hp⟩
  | compacted hs e =>
    obtain ⟨cp, wf, _, k1, k2, k3, k4, k5, k6, k7⟩ := compactify_ok hs i3.made.wf e
    have kc := (compacted_of i3.made.wf cp wf k1 k2 k3 k4 k5 k6 k7).same
    exact ⟨same (book_same kc.stored), i3.compactify hs e, fun tag ht hp _ => slot_same kc.preFixed kc.preStored ht hp⟩
  | sorted hF hj hs e =>
    obtain ⟨b', t', f, e', p, k⟩ := sort_spec hs i3.made.wf i3.made.pure
    have hr := i3.made.sort hF hj hs e
    rw [e'] at e
    injection e with _ e
    rw [← e] at hr ⊢
    have kc := SameUnordered.of_permuted i3.made.wf p
    exact ⟨same (book_same kc.stored), ⟨i3.schema, hr, p.pre.trans i3.pre⟩, fun tag ht hp _ => slot_same kc.preFixed kc.preStored ht hp⟩
  | recreated hidx hsize e hroom =>
    have k1 := GrownTo.moved i3 (recreate_moved i3.made.wf i3.pre hidx hsize e hroom)
    exact ⟨same (book_same k1.same.stored), k1.history, fun tag ht hp _ => slot_same k1.same.preFixed k1.same.preStored ht hp⟩
  | @reset _ image h1 h4 e =>
    have hr := i3.made.reset h1 h4 e
    unfold Serial.reset at e
    split_ifs at e with c1 c2
    injection e with e
    have e : Rw.create s.mem s.pivot s.pre s.lim image = t := e
    rw [← e] at hr ⊢
    exact ⟨fun _ => ⟨bookOf_create .., by rw [bookOf_create]; exact singles_zero C⟩, ⟨i3.schema, hr, i3.pre⟩, fun _ _ _ h => h.elim⟩

/-- **C68 (a tuple holds what its life says, partial).** After any life, in any order and number: creation, modifications with and without
automatic growth, successful or not, reservations of space, compactions, sorting, transfers through the serialized form, resets: the tuple
holds exactly the values the book says. Missing: lives with turns in which defects show. -/
theorem C68_story_partial {F : Fix} {sch : Option Schema} {C : Nat → Bool} {s : RW} {B : Book} (h : Story F sch C s B) :
    bookOf s = B ∧ Singles C B ∧ History F sch s := by
  induction h with
  | create mem h0 h1 h2 h3 h4 =>
    exact ⟨bookOf_create .., singles_zero C, h0, .create mem rfl h2 h3 (fun k g h => schOf_stretchy k g h) h4, h1⟩
  | turn h e ih =>
    obtain ⟨rfl, i2, i3⟩ := ih
    obtain ⟨k1, k2, _⟩ := turn_ok i3 e
    obtain ⟨l1, l2⟩ := k1 i2
    exact ⟨l1, by rw [← l1]; exact l2, k2⟩

private theorem since_ok {F : Fix} {sch : Option Schema} {C : Nat → Bool} {s t : RW} {tag : Nat} (hs : History F sch s)
    (h : Since F sch C tag s t) (ht : TokenOk (schOf sch) s.pre tag) (hp : isPreplaced tag = true) : History F sch t ∧ SlotSame s t tag := by
  induction h with
  | start => exact ⟨hs, fun _ => rfl, fun _ => rfl⟩
  | turn h hd e ih =>
    obtain ⟨i1, i2⟩ := ih
    obtain ⟨_, k1, k2⟩ := turn_ok i1 e
    exact ⟨k1, i2.trans (k2 _ (by rw [i1.pre, ← hs.pre]; exact ht) hp hd)⟩

/-- **C68 (the last value of a preplaced field is read, partial).** A preplaced field was set successfully, with or without automatic growth.
Whatever part of a life follows in which neither this field is modified nor the tuple reset, the field reads as the value that was set. -/
theorem C68_story_preplaced_partial {F : Fix} {sch : Option Schema} {C : Nat → Bool} {s s1 t : RW} {tag : Nat} {g : Genus} {v : Val}
    (h : History F sch s) (ho : OpOk (schOf sch) s.pre (.set tag g v)) (hb : StepBenign F s (.set tag g v))
    (hset : step F s (.set tag g v) = .ok () s1) (hp : isPreplaced tag = true) (hl : Since F sch C tag s1 t) :
    (g.isFixed = true → getPreplacedFixed t tag g =
      if isDiscernible tag ∧ v.bytes g = denilBytes g then .error .fieldAbsent else .ok (v.bytes g)) ∧
    (g.isFixed = false → ¬ dropped tag g v → g ≠ .varbin → getPreplacedStretchy t tag g = .ok (some v)) := by
  have key := step_spec h.made.wf _ ho hb
  rw [hset] at key
  have key : Keep (schOf sch) s s1 := key
  obtain ⟨_, i1⟩ := since_ok ⟨h.schema, h.made.step ho hb (Or.inl ⟨_, hset⟩), key.pre.trans h.pre⟩ hl (by rw [key.pre]; exact ho.1) hp
  obtain ⟨l1, l2⟩ := C68_last_preplaced_partial (guard := true) (srt := itemSort) (es := []) (outs := []) h.made itemSort_ok ho hset hp hb
    (fun _ h => (by cases h)) (fun _ h => (by cases h)) trivial rfl
  have hg : tag2genus tag = g := preplaced_genus hp hset
  refine ⟨fun hfx => ?_, fun hfx hd hv => ?_⟩
  · rw [← l1 hfx, ← hg]; exact i1.fixed (by rw [hg]; exact hfx)
  · have k := (C09_set_preplaced_stretchy_partial h.made hp ho.1 hfx ho.2 hb hset).2.1 hd
    have i2 := i1.stretchy (by rw [hg]; exact hfx)
    rw [hg] at i2
    rw [← i2] at k
    exact preplaced_reads hg hfx k hv

/-- **C68 (reading after any life, partial).** The getter returns the value the book says, or the absent value if it says none. -/
theorem C68_story_reads_partial {F : Fix} {sch : Option Schema} {C : Nat → Bool} {s : RW} {B : Book} {tag : Nat} {g : Genus}
    (h : Story F sch C s B) (hg : tag2genus tag = g) (hh : g ≠ .hole) (hv : g ≠ .varbin) (hc : isLooseCollection tag = false) :
    (B (tag % 65536) = 0 → getLoose s tag g = absent tag g) ∧ ∀ v, B (tag % 65536) = {some v} → getLoose s tag g = .ok (some v) := by
  obtain ⟨rfl, _⟩ := C68_story_partial h
  exact ⟨(C68_reads hg hh hc).1, fun v k => (C68_reads hg hh hc).2 v k hv⟩

/-- **C68 (only the book counts).** Two tuples with the same book, whatever their lives, schemas and buffers, read the same. -/
theorem C68_two_stories_partial {F F' : Fix} {sch sch' : Option Schema} {C : Nat → Bool} {s t : RW} {B : Book} {tag : Nat} {g : Genus}
    (h : Story F sch C s B) (h' : Story F' sch' C t B) (hg : tag2genus tag = g) (hh : g ≠ .hole) (hv : g ≠ .varbin)
    (hc : isLooseCollection tag = false) (hC : C (tag % 65536) = false) : getLoose t tag g = getLoose s tag g := by
  obtain ⟨k1, k2, _⟩ := C68_story_partial h
  obtain ⟨l1, _⟩ := C68_story_partial h'
  exact C68_same_reads (C := C) (by rw [k1]; exact k2) (l1.trans k1.symm) hg hh hv hc hC

/-! ## Example -/

/-- The code as it is: a field is set; the next one needs a bigger buffer; the tuple is transferred through its serialized form; the
first field is replaced. -/
def demo : Option (RW × RW × RW × RW) :=
  match step .code (fresh 1 3) (setN 1 2) with
  | .ok _ s1 => match managed codeEnv (fun _ => zeroSupply) (fun s => step .code s (setN 2 4)) 3 s1 with
    | some (.ok _ s2) => match createFromRo 44 (fun _ => .zero) s2.jc s2.jv (takeAsis none s2) 1 40 0 0 with
      | .ok s3 => match step .code s3 (setN 1 3) with
        | .ok _ s4 => some (s1, s2, s3, s4)
        | _ => none
      | _ => none
    | _ => none
  | _ => none

private theorem demo_story : ∃ s1 s2 s3 s4, demo = some (s1, s2, s3, s4) ∧ capacity s1 < capacity s2 ∧ looseCount s4 = 2 ∧
    ∃ B, Story .code none (fun _ => false) s4 B ∧ B (nst 1 % 65536) = {some (nstVal 3 1)} ∧ B (nst 2 % 65536) = {some (nstVal 4 2)} := by
  have key : (match demo with
      | some (s1, s2, s3, s4) => decide (capacity s1 < capacity s2 ∧ looseCount s4 = 2 ∧ s1.jc = 0 ∧ s1.jv = 0 ∧ s2.pivot - s2.head ≤ 8191 ∧
          s2.tail - s2.head + 1 ≤ 65534 ∧ s3.tail ≤ s3.lim ∧ s1.pre = 0 ∧ s3.pre = 0) && stepBenignB .code s3 (setN 1 3)
      | none => false) = true := by decide +kernel
  cases hd : demo with
  | none => rw [hd] at key; cases key
  | some x =>
    obtain ⟨s1, s2, s3, s4⟩ := x
    rw [hd] at key
    have key := Bool.and_eq_true _ _ ▸ key
    obtain ⟨k, kb⟩ := key
    obtain ⟨k1, k2, k3, k4, k5, k6, k7, k8, k9⟩ := of_decide_eq_true k
    refine ⟨s1, s2, s3, s4, rfl, k1, k2, ?_⟩
    unfold demo at hd
    cases e1 : step .code (fresh 1 3) (setN 1 2) with
    | ub => rw [e1] at hd; cases hd
    | exc x y => rw [e1] at hd; cases hd
    | ok u1 r1 =>
      rw [e1] at hd
      dsimp only at hd
      cases e2 : managed codeEnv (fun _ => zeroSupply) (fun s => step .code s (setN 2 4)) 3 r1 with
      | none => rw [e2] at hd; cases hd
      | some o2 =>
        rw [e2] at hd
        cases o2 with
        | ub => cases hd
        | exc x y => cases hd
        | ok u2 r2 =>
          dsimp only at hd
          cases e3 : createFromRo 44 (fun _ => .zero) r2.jc r2.jv (takeAsis none r2) 1 40 0 0 with
          | error x => rw [e3] at hd; cases hd
          | ok r3 =>
            rw [e3] at hd
            dsimp only at hd
            cases e4 : step .code r3 (setN 1 3) with
            | ub => rw [e4] at hd; cases hd
            | exc x y => rw [e4] at hd; cases hd
            | ok u4 r4 =>
              rw [e4] at hd
              have hd := Option.some.inj hd
              obtain ⟨a1, hd⟩ := Prod.mk.inj hd
              obtain ⟨a2, hd⟩ := Prod.mk.inj hd
              obtain ⟨a3, a4⟩ := Prod.mk.inj hd
              rw [← a1] at k3 k4 k8
              rw [← a2] at k5 k6
              rw [← a3] at k7 k9 kb
              rw [← a4]
              have ok : ∀ op ∈ [setN 1 2, setN 2 4, setN 1 3], ∀ pre, OpOk (schOf none) pre op := fun op h pre => opOk_of (by decide +kernel) op h
              have uses : ∀ op ∈ [setN 1 2, setN 2 4, setN 1 3], Uses (fun _ => false) (.op op) := fun op h hl => by
                have : ([setN 1 2, setN 2 4, setN 1 3].all fun o => !isLooseCollection o.tag) = true := by decide +kernel
                have := List.all_eq_true.1 this op h
                simpa using this
              have st0 : Story .code none (fun _ => false) (fresh 1 3) fun _ => 0 :=
                .create (fun _ => .zero) (image := []) (fun S h => (by cases h)) rfl (by decide) (by decide) (fun _ _ h => (by cases h))
              have st1 := st0.turn (.done (ok _ (by simp) _) (stepBenign_of (by decide +kernel)) (uses _ (by simp)) e1)
              have st2 := st1.turn (.grown (S := fun _ => zeroSupply) codeEnv_ok (ok _ (by simp) _) (Or.inr ⟨k3, k4, by show isLoose (nst 2) = true; decide +kernel⟩)
                (uses (setN 2 4) (by simp)) e2)
              have st3 := st2.turn (.recreated k5 k6 e3 k7)
              have st4 := st3.turn (.done (ok _ (by simp) _) (stepBenign_of kb) (uses _ (by simp)) e4)
              refine ⟨_, st4, ?_, ?_⟩
              · unfold setN
                simp only [Book.did, Book.act]
                rw [if_neg (by decide +kernel), Function.update_self, if_neg (by unfold dropped; decide +kernel)]
              · unfold setN
                simp only [Book.did, Book.act]
                rw [if_neg (by decide +kernel), Function.update_of_ne (by decide +kernel), if_neg (by decide +kernel), Function.update_self,
                  if_neg (by unfold dropped; decide +kernel)]

/-- Both fields are read as they were last set. -/
example : ∃ s1 s2 s3 s4, demo = some (s1, s2, s3, s4) ∧ getLoose s4 (nst 1) .nested = .ok (some (nstVal 3 1)) ∧
    getLoose s4 (nst 2) .nested = .ok (some (nstVal 4 2)) := by
  obtain ⟨s1, s2, s3, s4, hd, _, _, B, st, b1, b2⟩ := demo_story
  exact ⟨s1, s2, s3, s4, hd, (C68_story_reads_partial st (by decide +kernel) (by decide) (by decide) (by decide +kernel)).2 _ b1,
    (C68_story_reads_partial st (by decide +kernel) (by decide) (by decide) (by decide +kernel)).2 _ b2⟩

/-- A schema with two preplaced numbers: one is set, then the other one, then the tuple is transferred. -/
def twoPre : Schema := ⟨8, [preA, preB]⟩
def demoPre : Option (RW × RW × RW) :=
  match step .code (create (fun _ => .zero) 2 2 20 [.zero, .zero]) (.set preA .u32 (unitsVal 1 7)) with
  | .ok _ s1 => match step .code s1 (.set preB .u32 (unitsVal 1 9)) with
    | .ok _ s2 => match createFromRo 44 (fun _ => .zero) s2.jc s2.jv (takeAsis (some twoPre) s2) 3 40 8 0 with
      | .ok s3 => some (s1, s2, s3)
      | _ => none
    | _ => none
  | _ => none

example : ∃ s1 s2 s3, demoPre = some (s1, s2, s3) ∧ getPreplacedFixed s3 preA .u32 = .ok [7, 0, 7, 0] ∧
    getPreplacedFixed s3 preB .u32 = .ok [9, 0, 7, 0] := by
  have key : (match demoPre with
      | some (s1, s2, s3) => decide (s1.pre = 2 ∧ s2.pivot - s2.head ≤ 8191 ∧ s2.tail - s2.head + 1 ≤ 65534 ∧ s3.tail ≤ s3.lim) &&
          stepBenignB .code s1 (.set preB .u32 (unitsVal 1 9))
      | none => false) = true := by decide +kernel
  cases hd : demoPre with
  | none => rw [hd] at key; cases key
  | some x =>
    obtain ⟨s1, s2, s3⟩ := x
    rw [hd] at key
    have key := Bool.and_eq_true _ _ ▸ key
    obtain ⟨k, kb⟩ := key
    obtain ⟨k1, k2, k3, k4⟩ := of_decide_eq_true k
    refine ⟨s1, s2, s3, rfl, ?_⟩
    unfold demoPre at hd
    cases e1 : step .code (create (fun _ => .zero) 2 2 20 [.zero, .zero]) (.set preA .u32 (unitsVal 1 7)) with
    | ub => rw [e1] at hd; cases hd
    | exc x y => rw [e1] at hd; cases hd
    | ok u1 r1 =>
      rw [e1] at hd
      dsimp only at hd
      cases e2 : step .code r1 (.set preB .u32 (unitsVal 1 9)) with
      | ub => rw [e2] at hd; cases hd
      | exc x y => rw [e2] at hd; cases hd
      | ok u2 r2 =>
        rw [e2] at hd
        dsimp only at hd
        cases e3 : createFromRo 44 (fun _ => .zero) r2.jc r2.jv (takeAsis (some twoPre) r2) 3 40 8 0 with
        | error x => rw [e3] at hd; cases hd
        | ok r3 =>
          rw [e3] at hd
          have hd := Option.some.inj hd
          obtain ⟨a1, hd⟩ := Prod.mk.inj hd
          obtain ⟨a2, a3⟩ := Prod.mk.inj hd
          rw [← a1] at k1 kb
          rw [← a2] at k2 k3
          rw [← a3] at k4
          rw [← a3]
          have none_of : ∀ k g, ¬ schOf (some twoPre) k = some g := fun k g h => by
            have : twoPre.tokens.filter isStretchyPre = [] := by decide +kernel
            unfold schOf Schema.sch at h
            simp only [this] at h
            cases h
          have tok : ∀ tag ∈ [preA, preB], TokenOk (schOf (some twoPre)) 2 tag := fun tag h => by
            have hk := preAB_ok tag h
            refine ⟨hk.1, fun hp => ?_⟩
            have h2 := hk.2 hp
            have : schOf (some twoPre) = noPre := by
              funext k
              cases hx : schOf (some twoPre) k with
              | none => rfl
              | some g => exact absurd hx (none_of k g)
            rw [this]; exact h2
          have h0 : History .code (some twoPre) (create (fun _ => .zero) 2 2 20 [.zero, .zero]) :=
            ⟨fun S h => by
                rw [← Option.some.inj h]
                have nil : ∀ t ∈ twoPre.tokens, isStretchyPre t = false := by decide +kernel
                refine ⟨by decide +kernel, fun t ht hs => ?_, ?_⟩
                · rw [nil t ht] at hs; cases hs
                · rw [show twoPre.tokens.filter isStretchyPre = [] by decide +kernel]; exact .nil,
              .create _ rfl (by decide) (by decide) (fun k g h => absurd h (none_of k g)) (fun k g h => absurd h (none_of k g)), by decide +kernel⟩
          have o1 : OpOk (schOf (some twoPre)) 2 (.set preA .u32 (unitsVal 1 7)) := ⟨tok _ (by simp), by decide +kernel⟩
          have o2 : OpOk (schOf (some twoPre)) 2 (.set preB .u32 (unitsVal 1 9)) := ⟨tok _ (by simp), by decide +kernel⟩
          have b1 : StepBenign .code (create (fun _ => .zero) 2 2 20 [.zero, .zero]) (.set preA .u32 (unitsVal 1 7)) := stepBenign_of (by decide +kernel)
          have b2 : StepBenign .code r1 (.set preB .u32 (unitsVal 1 9)) := stepBenign_of kb
          have u2' : Uses (fun _ => false) (.op (.set preB .u32 (unitsVal 1 9))) := fun h => absurd h (by decide +kernel)
          have h1 : History .code (some twoPre) r1 := ⟨h0.schema, h0.made.step o1 b1 (Or.inl ⟨_, e1⟩), by rw [k1]; decide +kernel⟩
          have tr : Turn .code (some twoPre) (fun _ => false) r2 .nothing r3 := .recreated k2 k3 e3 k4
          have t1 : Since .code (some twoPre) (fun _ => false) preA r1 r3 :=
            .turn (.turn (.start r1) (by show Apart (slotOf preB) (slotOf preA); unfold Apart; decide +kernel) (.done (by rw [k1]; exact o2) b2 u2' e2)) (d := .nothing) trivial tr
          have t2 : Since .code (some twoPre) (fun _ => false) preB r2 r3 := .turn (.start r2) (d := .nothing) trivial tr
          refine ⟨((C68_story_preplaced_partial h0 o1 b1 e1 (by decide +kernel) t1).1 rfl).trans ?_,
            ((C68_story_preplaced_partial h1 (by rw [k1]; exact o2) b2 e2 (by decide +kernel) t2).1 rfl).trans ?_⟩
          · rw [if_neg (by decide +kernel)]
            exact congrArg Except.ok (by decide +kernel)
          · rw [if_neg (by decide +kernel)]
            exact congrArg Except.ok (by decide +kernel)

end Fptu.Props
