import Verif.Lemmas.TwinCompact
import Verif.Props.Book

/-!
C69: a modifiable tuple touches only its own memory.

Two tuples of the same buffer geometry whose used parts agree (from the first index entry to the end of the data) behave alike,
whatever the free space of their buffers, and the memory around the buffers, contains. Hence nothing of the contents of an
uninitialised buffer gets into a tuple or into its serialized form, and no unit behind the buffer is written.
-/

namespace Fptu.Props

open Fptu Fptu.Gear Fptu.Rw Fptu.Compact Fptu.Serial

/-- Two tuples with the same used part. Everything else in their memories may differ. -/
structure SameUsed (s s' : RW) : Prop where
  head : s'.head = s.head
  pivot : s'.pivot = s.pivot
  pre : s'.pre = s.pre
  tail : s'.tail = s.tail
  lim : s'.lim = s.lim
  jc : s'.jc = s.jc
  jv : s'.jv = s.jv
  used : ∀ u, s.head ≤ u → u < s.tail → s'.mem u = s.mem u

/-- No unit behind the buffer of `s` is changed on the way to `t`. -/
def Inside (s t : RW) : Prop := ∀ u, s.lim ≤ u → t.mem u = s.mem u

/-- Both runs end in the same way, with the same used part again, and neither has left its buffer. -/
def AlikeFrom (s s' : RW) : Out Unit → Out Unit → Prop
  | .ok _ t, .ok _ t' => SameUsed t t' ∧ Inside s t ∧ Inside s' t'
  | .exc e t, .exc e' t' => e' = e ∧ SameUsed t t' ∧ Inside s t ∧ Inside s' t'
  | .ub, .ub => True
  | _, _ => False

private def ctxOf (s s' : RW) : Ctx := ⟨s.mem, s'.mem, s.pivot, s.pre, s.lim⟩
private def usedOf (s : RW) (u : Nat) : Prop := s.head ≤ u ∧ u < s.tail

private theorem twin_of {σ : Sch} {s s' : RW} (hw : WF σ s) (h : SameUsed s s') :
    Twin (ctxOf s s') (usedOf s) s s' ∧ Cov none' (usedOf s) s := by
  have h1 := hw.inv.hp
  have h2 := hw.inv.bt
  have h3 := hw.inv.tl
  have hb : s.base = s.pivot + s.pre := rfl
  refine ⟨⟨?_, rfl, rfl, rfl, h1, ?_, h3, fun u hu => h.used u hu.1 hu.2, fun _ _ => ⟨rfl, rfl⟩, fun u hu => ?_⟩, ?_⟩
  · obtain ⟨e1, e2, e3, e4, e5, e6, e7, _⟩ := h
    cases s; cases s'
    simp only at e1 e2 e3 e4 e5 e6 e7
    subst e1 e2 e3 e4 e5 e6 e7
    rfl
  · show s.pivot ≤ s.lim; omega
  · show u < s.lim; exact Nat.lt_of_lt_of_le hu.2 h3
  · intro u hu hc
    exact Or.inl ⟨hu, by omega⟩

private theorem alike_state {s s' t t' : RW} {D : Nat → Prop} (h : Twin (ctxOf s s') D t t') (hc : Cov none' D t) :
    SameUsed t t' ∧ Inside s t ∧ Inside s' t' ∨ s'.lim ≠ s.lim := by
  by_cases hl : s'.lim = s.lim
  · refine Or.inl ⟨?_, fun u hu => (h.out u fun k => ?_).1, fun u hu => (h.out u fun k => ?_).2⟩
    · obtain ⟨m', rfl⟩ := h.ex
      exact ⟨rfl, rfl, rfl, rfl, rfl, rfl, rfl, fun u h1 h2 => h.eq u ((hc u h1 (Or.inr h2)).resolve_right id)⟩
    · have : u < s.lim := h.bd u k
      omega
    · have : u < s.lim := h.bd u k
      omega
  · exact Or.inr hl

private theorem alike_of {σ : Sch} {s s' : RW} (h : SameUsed s s') {o o' : Out Unit} (k : Sim (ctxOf s s') (usedOf s) Good o o') :
    AlikeFrom s s' o o' := by
  cases o <;> cases o' <;> first | exact k.elim | skip
  · obtain ⟨_, D, _, h2, h3⟩ := k
    exact (alike_state h2 h3).resolve_right (fun c => c h.lim)
  · obtain ⟨e, D, _, h2, h3⟩ := k
    exact ⟨e, (alike_state h2 h3).resolve_right (fun c => c h.lim)⟩
  · trivial

/-- **C69 (one operation, partial).** A set, insertion or erasure on two tuples with the same used part ends in the same way in both,
with the same used part again; no unit behind the buffers is changed. Restricted to steps in which no defect of `src/gear.cxx`
shows. -/
theorem C69_step_partial {F : Fix} {σ : Sch} {s s' : RW} {o : Op} (h : Reachable F σ s) (hs : SameUsed s s') (ho : OpOk σ s.pre o)
    (ha : o.Aligned) (hb : StepBenign F s o) : AlikeFrom s s' (step F s o) (step F s' o) := by
  obtain ⟨h1, h2⟩ := twin_of h.wf hs
  exact alike_of (σ := σ) hs (step_twin h.wf h1 h2 ho hb ha)

/-- **C69 (one operation)** with the defects of `src/gear.cxx` repaired: every step. -/
theorem C69_step_repaired {σ : Sch} {s s' : RW} {o : Op} (h : Reachable .repaired σ s) (hs : SameUsed s s') (ho : OpOk σ s.pre o)
    (ha : o.Aligned) : AlikeFrom s s' (step .repaired s o) (step .repaired s' o) :=
  C69_step_partial h hs ho ha (stepBenign_repaired s o)

/-- **C69 (compaction).** The compaction of the code, or with its defect repaired, depends on the used part only, and changes no unit
behind the buffer. -/
theorem C69_compact {F : Fix} {guard : Bool} {σ : Sch} {srt : List Item → List Item} {s s' : RW} (h : Reachable F σ s) (hs : SameUsed s s')
    (hsrt : Sorter srt) : AlikeFrom s s' (compactifyWith guard srt σ s) (compactifyWith guard srt σ s') := by
  obtain ⟨h1, h2⟩ := twin_of h.wf hs
  exact alike_of (σ := σ) hs (compactify_twin guard hsrt h.wf h1 h2)

/-- Both histories end in the same way. -/
def LivesAlike (s s' : RW) : Option (List (Option Exc) × RW) → Option (List (Option Exc) × RW) → Prop
  | some (outs, t), some (outs', t') => outs' = outs ∧ SameUsed t t' ∧ Inside s t ∧ Inside s' t'
  | none, none => True
  | _, _ => False

def Ev.Aligned : Ev → Prop
  | .op o => o.Aligned
  | .compact => True

/-- Operations on loose fields. -/
theorem loose_aligned {es : List Ev} (h : (es.all fun e => match e with | .op o => looseOpB o | .compact => true) = true) : ∀ e ∈ es, e.Aligned := by
  intro e he
  have h := List.all_eq_true.1 h e he
  cases e with
  | compact => trivial
  | op o =>
    cases o with
    | set tag g v => trivial
    | insert tag g v => trivial
    | erase tag =>
      intro hp
      have h : (decide (tag2genus tag ≠ .hole) && isLoose tag) = true := h
      rw [Bool.and_eq_true] at h
      rw [preplaced_not_loose, h.2] at hp
      cases hp

private theorem lives_cons {s s' t t' : RW} {l l' : Option (List (Option Exc) × RW)} (x : Option Exc) (hl : t.lim = s.lim) (hl' : t'.lim = s'.lim)
    (hi : Inside s t) (hi' : Inside s' t') (h : LivesAlike t t' l l') :
    LivesAlike s s' (l.map fun p => (x :: p.1, p.2)) (l'.map fun p => (x :: p.1, p.2)) := by
  cases l <;> cases l' <;> first | exact h.elim | skip
  · trivial
  · obtain ⟨e, h1, h2, h3⟩ := h
    exact ⟨by rw [e], h1, fun u hu => (h2 u (by rw [hl]; exact hu)).trans (hi u hu), fun u hu => (h3 u (by rw [hl']; exact hu)).trans (hi' u hu)⟩

/-- **C69 (whole histories, partial).** Whatever sequence of operations and compactions is applied to two tuples with the same used
part, with exceptions caught: the same steps throw the same exceptions in both, the used parts are the same at the end, and no
unit behind the buffers is changed. Restricted to histories on which no defect of `src/gear.cxx` shows. -/
theorem C69_life_partial {F : Fix} {guard : Bool} {σ : Sch} {srt : List Item → List Item} {s s' : RW} {es : List Ev} (h : Reachable F σ s)
    (hs : SameUsed s s') (hsrt : Sorter srt) (hops : ∀ e ∈ es, EvOk σ s.pre e) (hal : ∀ e ∈ es, e.Aligned)
    (hb : LifeBenign F guard σ srt s es) : LivesAlike s s' (life F guard σ srt s es) (life F guard σ srt s' es) := by
  induction es generalizing s s' with
  | nil => exact ⟨rfl, hs, fun _ _ => rfl, fun _ _ => rfl⟩
  | cons e es ih =>
    have hops' : ∀ e ∈ es, EvOk σ s.pre e := fun e he => hops e (List.mem_cons_of_mem _ he)
    have hal' : ∀ e ∈ es, e.Aligned := fun e he => hal e (List.mem_cons_of_mem _ he)
    cases e with
    | op o =>
      have ho : OpOk σ s.pre o := hops (.op o) (List.mem_cons_self ..)
      obtain ⟨hb1, hb2⟩ := hb
      have key := step_spec h.wf o ho hb1
      have k := C69_step_partial h hs ho (hal (.op o) (List.mem_cons_self ..)) hb1
      unfold life
      cases hr : step F s o with
      | ub => cases hr' : step F s' o <;> rw [hr, hr'] at k <;> first | exact k.elim | trivial
      | exc e t =>
        cases hr' : step F s' o with
        | ub => rw [hr, hr'] at k; exact k.elim
        | ok u t' => rw [hr, hr'] at k; exact k.elim
        | exc e' t' =>
          rw [hr, hr'] at k
          rw [hr] at hb2 key
          obtain ⟨e1, k1, k2, k3⟩ := k
          have key : t = s := key
          subst e1
          have hlim' : t'.lim = s'.lim := by rw [k1.lim, key, hs.lim]
          subst key
          exact lives_cons _ rfl hlim' k2 k3 (ih h k1 hops' hal' hb2)
      | ok u t =>
        cases hr' : step F s' o with
        | ub => rw [hr, hr'] at k; exact k.elim
        | exc e t' => rw [hr, hr'] at k; exact k.elim
        | ok u' t' =>
          rw [hr, hr'] at k
          rw [hr] at hb2 key
          obtain ⟨k1, k2, k3⟩ := k
          have key : Keep σ s t := key
          exact lives_cons _ key.lim (by rw [k1.lim, key.lim, hs.lim]) k2 k3
            (ih (h.step ho hb1 (Or.inl ⟨_, hr⟩)) k1 (by rw [key.pre]; exact hops') hal' hb2)
    | compact =>
      have k := C69_compact (guard := guard) h hs hsrt
      unfold life
      unfold LifeBenign at hb
      cases hr : compactifyWith guard srt σ s with
      | ub => cases hr' : compactifyWith guard srt σ s' <;> rw [hr, hr'] at k <;> first | exact k.elim | trivial
      | exc e t => exact absurd hr compactify_not_exc
      | ok u t =>
        cases hr' : compactifyWith guard srt σ s' with
        | ub => rw [hr, hr'] at k; exact k.elim
        | exc e t' => rw [hr, hr'] at k; exact k.elim
        | ok u' t' =>
          rw [hr, hr'] at k
          rw [hr] at hb
          obtain ⟨k1, k2, k3⟩ := k
          obtain ⟨_, _, _, _, _, j3, _, j5, _⟩ := compactify_ok hsrt h.wf hr
          exact lives_cons _ j5 (by rw [k1.lim, j5, hs.lim]) k2 k3 (ih (h.compactify hsrt hr) k1 (by rw [j3]; exact hops') hal' hb)

/-- **C69 (whole histories)** with the defects of the code repaired: every history. -/
theorem C69_life_repaired {σ : Sch} {srt : List Item → List Item} {s s' : RW} {es : List Ev} (h : Reachable .repaired σ s)
    (hs : SameUsed s s') (hsrt : Sorter srt) (hops : ∀ e ∈ es, EvOk σ s.pre e) (hal : ∀ e ∈ es, e.Aligned) :
    LivesAlike s s' (life .repaired true σ srt s es) (life .repaired true σ srt s' es) :=
  C69_life_partial h hs hsrt hops hal (lifeBenign_repaired _ _ _ _ _)

/-- New tuples in two buffers of arbitrary contents have the same used part. -/
theorem create_sameUsed (mem mem' : Memory) {items pre lim : Nat} {image : List Cell} (h : image.length = pre) :
    SameUsed (create mem items pre lim image) (create mem' items pre lim image) := by
  refine ⟨rfl, rfl, rfl, rfl, rfl, rfl, rfl, fun u h1 h2 => ?_⟩
  have h1 : items ≤ u := h1
  have h2 : u < items + pre := h2
  show mem'.writeCells items image u = mem.writeCells items image u
  rw [Memory.writeCells_apply, Memory.writeCells_apply, if_pos ⟨h1, by omega⟩, if_pos ⟨h1, by omega⟩]

/-- The serialized form is the same. -/
def SameImage (sch : Option Audit.Schema) (t t' : RW) : Prop :=
  (takeAsis sch t' 0).lo = (takeAsis sch t 0).lo ∧ ∀ u, u < t.tail - t.head + 1 → takeAsis sch t' u = takeAsis sch t u

theorem SameUsed.image {t t' : RW} (h : SameUsed t t') (sch : Option Audit.Schema) : SameImage sch t t' := by
  have key : ∀ u, u < t.tail - t.head + 1 → takeAsis sch t' u = takeAsis sch t u := by
    intro u hu
    unfold takeAsis
    by_cases c : u = 0
    · rw [if_pos c, if_pos c, h.tail, h.head, h.pivot]
    · rw [if_neg c, if_neg c, h.head]
      exact h.used _ (by omega) (by omega)
  exact ⟨congrArg Cell.lo (key 0 (Nat.succ_pos _)), key⟩

/-- **C69 (no uninitialised memory in a serialized tuple, partial).** Two new tuples, made in buffers of arbitrary contents and put
through the same history, have the same serialized form, unit by unit. -/
theorem C69_image_partial {F : Fix} {guard : Bool} {σ : Sch} {srt : List Item → List Item} {mem mem' : Memory} {items pre lim : Nat}
    {image : List Cell} {es : List Ev} {outs : List (Option Exc)} {t : RW} (n1 : image.length = pre) (n2 : items + pre ≤ lim)
    (n3 : lim ≤ 65534) (n4 : ∀ k g, σ k = some g → g.isFixed = false) (n5 : ∀ k g, σ k = some g → k < pre → (image.getD k .zero).lo = 0)
    (hsrt : Sorter srt) (hops : ∀ e ∈ es, EvOk σ pre e) (hal : ∀ e ∈ es, e.Aligned)
    (hb : LifeBenign F guard σ srt (create mem items pre lim image) es)
    (hr : life F guard σ srt (create mem items pre lim image) es = some (outs, t)) (sch : Option Audit.Schema) :
    ∃ t', life F guard σ srt (create mem' items pre lim image) es = some (outs, t') ∧ SameImage sch t t' := by
  have k := C69_life_partial (.create mem n1 n2 n3 n4 n5) (create_sameUsed mem mem' n1) hsrt hops hal hb
  rw [hr] at k
  cases hr' : life F guard σ srt (create mem' items pre lim image) es with
  | none => rw [hr'] at k; exact k.elim
  | some r =>
    rw [hr'] at k
    obtain ⟨e, k1, _⟩ := k
    exact ⟨r.2, by rw [← e], k1.image sch⟩

/-- **C69 (no uninitialised memory in a serialized tuple)** with the defects of the code repaired: every history. -/
theorem C69_image_repaired {σ : Sch} {srt : List Item → List Item} {mem mem' : Memory} {items pre lim : Nat}
    {image : List Cell} {es : List Ev} {outs : List (Option Exc)} {t : RW} (n1 : image.length = pre) (n2 : items + pre ≤ lim)
    (n3 : lim ≤ 65534) (n4 : ∀ k g, σ k = some g → g.isFixed = false) (n5 : ∀ k g, σ k = some g → k < pre → (image.getD k .zero).lo = 0)
    (hsrt : Sorter srt) (hops : ∀ e ∈ es, EvOk σ pre e) (hal : ∀ e ∈ es, e.Aligned)
    (hr : life .repaired true σ srt (create mem items pre lim image) es = some (outs, t)) (sch : Option Audit.Schema) :
    ∃ t', life .repaired true σ srt (create mem' items pre lim image) es = some (outs, t') ∧ SameImage sch t t' :=
  C69_image_partial n1 n2 n3 n4 n5 hsrt hops hal (lifeBenign_repaired _ _ _ _ _) hr sch

/-- **C69 (reading, partial).** Tuples with the same used part hold the same fields, and every getter returns the same for both. Missing:
getters of binary blobs, see `C69_read_refuted`. -/
theorem C69_read_partial {F : Fix} {σ : Sch} {s s' : RW} (h : Reachable F σ s) (hs : SameUsed s s') :
    SameFields σ s s' ∧ Reachable F σ s' := by
  have h1 := h.wf.inv.hp
  have h2 := h.wf.inv.bt
  have hb : s.base = s.pivot + s.pre := rfl
  have m : Moved s s' := by
    refine ⟨?_, hs.pre, ?_, fun i hi => ?_, hs.jc, hs.jv, ?_, ?_⟩
    · rw [hs.pivot, hs.head]; omega
    · rw [hs.tail, hs.head]; omega
    · rw [hs.head]; exact hs.used _ (by omega) (by omega)
    · rw [hs.tail, hs.lim]; exact h.wf.inv.tl
    · rw [hs.lim]; exact h.wf.inv.ll
  exact ⟨SameFields.of_copied h.wf (m.copied h.wf), h.relocated m⟩

/-! ## The code leaves its buffer -/

/-- Eleven units of data fill the buffer; ten of them are freed and three reused. The rest of the hole is recorded too far to the
right (C12), up to three units behind the buffer; the last value is put there. -/
def overrunOps : List Op := [setF .bin320 1 1, setF .u32 2 20, .erase (fix .bin320 1), setF .bin96 3 40, setF .bin224 4 60]

/-- **C69 fails for the code as it is.** Five ordinary operations on a new tuple write three units behind the end of its buffer. -/
theorem C69_overrun_refuted : Fresh noPre 0 (fresh 5 16) ∧ (∀ op ∈ overrunOps, OpOk noPre 0 op) ∧
    ∃ t, run .code (fresh 5 16) overrunOps = some t ∧ t.lim = 16 ∧
      ∀ u, 16 ≤ u → u < 19 → (fresh 5 16).mem u = .zero ∧ t.mem u = ⟨48 + u, 7⟩ := by
  refine ⟨fresh_ok (by decide) (by decide), opOk_of (by decide +kernel), ?_⟩
  obtain ⟨t, hr, hp⟩ := run_decide (F := .code) (s := fresh 5 16) (ops := overrunOps) (fun t => decide (
    t.lim = 16 ∧ t.mem 16 = ⟨64, 7⟩ ∧ t.mem 17 = ⟨65, 7⟩ ∧ t.mem 18 = ⟨66, 7⟩)) (by decide +kernel)
  obtain ⟨h1, h2, h3, h4⟩ := of_decide_eq_true hp
  refine ⟨t, hr, h1, fun u hu hv => ⟨rfl, ?_⟩⟩
  have : u = 16 ∨ u = 17 ∨ u = 18 := by omega
  rcases this with rfl | rfl | rfl
  · exact h2
  · exact h3
  · exact h4

/-- With the defect repaired the same operations succeed and stay inside. -/
example : ∃ outs t, life .repaired true noPre itemSort (fresh 5 16) (overrunOps.map .op) = some (outs, t) ∧
    outs = [none, none, none, none, none] ∧ Inside (fresh 5 16) t := by
  obtain ⟨outs, t, hl, hp⟩ := life_decide (F := .repaired) (guard := true) (σ := noPre) (srt := itemSort) (s := fresh 5 16)
    (es := overrunOps.map .op) (fun outs t => decide (outs = [none, none, none, none, none])) (by decide +kernel)
  refine ⟨outs, t, hl, of_decide_eq_true hp, ?_⟩
  have h : Reachable .repaired noPre (fresh 5 16) :=
    .create (fun _ => .zero) (image := []) rfl (by decide) (by decide) (fun _ _ h => (by cases h)) (fun _ _ h => (by cases h))
  have k := C69_life_repaired (es := overrunOps.map .op) h (s' := fresh 5 16) ⟨rfl, rfl, rfl, rfl, rfl, rfl, rfl, fun _ _ _ => rfl⟩ itemSort_ok
    (evOk_of (by decide +kernel)) (loose_aligned (by decide +kernel))
  rw [hl] at k
  exact k.2.2.1

/-! ## Reading past the value -/

def vbt : Nat := makeTag .varbin 1 false false false
/-- A tuple whose buffer, of contents `mem`, is filled by one blob of one byte. -/
def vbOf (mem : Memory) : RW := create mem 8 0 10 []

/-- **C69 fails for getters of binary blobs**, with the defects of `src/gear.cxx` repaired as well: in a tuple that fills its buffer, a blob of
one byte is read with the contents of the memory behind the buffer. -/
theorem C69_read_refuted : ∃ s s', Reachable .repaired noPre s ∧ SameUsed s s' ∧ s.tail = s.lim ∧
    getLoose s vbt .varbin = .ok (some (.varbin [1, 0, 0, 0, 0])) ∧ getLoose s' vbt .varbin = .ok (some (.varbin [1, 0, 0, 0, 7])) := by
  have h : Reachable .repaired noPre (vbOf fun _ => .zero) :=
    .create (fun _ => .zero) (image := []) rfl (by decide) (by decide) (fun _ _ h => (by cases h)) (fun _ _ h => (by cases h))
  have ho : OpOk noPre (vbOf fun _ => .zero).pre (.set vbt .varbin (.varbin [1])) :=
    opOk_of (ops := [.set vbt .varbin (.varbin [1])]) (by decide +kernel) _ (List.mem_cons_self ..)
  have k := C69_step_repaired h (create_sameUsed (fun _ => .zero) (fun _ => ⟨7, 7⟩) (items := 8) (lim := 10) (image := []) rfl) ho trivial
  have p : (match step .repaired (vbOf fun _ => .zero) (.set vbt .varbin (.varbin [1])) with
      | .ok _ t => decide (t.tail = t.lim ∧ getLoose t vbt .varbin = .ok (some (.varbin [1, 0, 0, 0, 0]))) | _ => false) = true := by decide +kernel
  have p' : (match step .repaired (vbOf fun _ => ⟨7, 7⟩) (.set vbt .varbin (.varbin [1])) with
      | .ok _ t => decide (getLoose t vbt .varbin = .ok (some (.varbin [1, 0, 0, 0, 7]))) | _ => false) = true := by decide +kernel
  have k : AlikeFrom (vbOf fun _ => .zero) (vbOf fun _ => ⟨7, 7⟩) (step .repaired (vbOf fun _ => .zero) (.set vbt .varbin (.varbin [1])))
    (step .repaired (vbOf fun _ => ⟨7, 7⟩) (.set vbt .varbin (.varbin [1]))) := k
  cases e : step .repaired (vbOf fun _ => .zero) (.set vbt .varbin (.varbin [1])) with
  | ub => rw [e] at p; exact absurd p Bool.false_ne_true
  | exc x t => rw [e] at p; exact absurd p Bool.false_ne_true
  | ok u t =>
    cases e' : step .repaired (vbOf fun _ => ⟨7, 7⟩) (.set vbt .varbin (.varbin [1])) with
    | ub => rw [e'] at p'; exact absurd p' Bool.false_ne_true
    | exc x t => rw [e'] at p'; exact absurd p' Bool.false_ne_true
    | ok u' t' =>
      rw [e] at p k
      rw [e'] at p' k
      obtain ⟨p1, p2⟩ := of_decide_eq_true p
      exact ⟨t, t', h.step ho (stepBenign_repaired _ _) (Or.inl ⟨_, e⟩), k.1, p1, p2, of_decide_eq_true p'⟩

/-! ## The hypotheses are met -/

/-- The history of C68 (nine steps, one of which throws, and a compaction) on the code as it is, in a buffer full of garbage: the same
outcomes, the same serialized form as in a buffer of zeros. -/
example (mem' : Memory) : ∃ outs t t', life .code false noPre itemSort (fresh 8 60) bookEvs = some (outs, t) ∧
    outs = [none, none, none, none, some .typeMismatch, none, none, none, none] ∧ t.tail - t.head = 10 ∧
    life .code false noPre itemSort (create mem' 8 0 60 []) bookEvs = some (outs, t') ∧ SameImage none t t' := by
  obtain ⟨outs, t, hl, hp⟩ := life_decide (F := .code) (guard := false) (σ := noPre) (srt := itemSort) (s := fresh 8 60) (es := bookEvs)
    (fun outs t => decide (outs = [none, none, none, none, some .typeMismatch, none, none, none, none] ∧ t.tail - t.head = 10)) (by decide +kernel)
  obtain ⟨p1, p2⟩ := of_decide_eq_true hp
  obtain ⟨t', k1, k2⟩ := C69_image_partial (mem' := mem') rfl (by decide) (by decide) (fun _ _ h => (by cases h)) (fun _ _ h => (by cases h))
    itemSort_ok (evOk_of (by decide +kernel)) (loose_aligned (by decide +kernel)) (lifeBenign_of (by decide +kernel)) hl none
  exact ⟨outs, t, t', hl, p1, p2, k1, k2⟩

/-- A tuple reached by nine operations of the code, with a hole; the same tuple in another buffer. -/
example (c : Cell) : ∃ s s' : RW, Reachable .code noPre s ∧ SameUsed s s' ∧ 0 < s.jc ∧ s.tail < s.lim ∧ s'.mem s.tail = c ∧
    getLoose s' (nst 2) .nested = .ok (some (nstVal 5 2)) := by
  obtain ⟨s, hr, hp⟩ := run_decide (F := .code) (s := fresh 8 60) (ops := goodOps) (fun s => decide (
    getLoose s (nst 2) .nested = .ok (some (nstVal 5 2)) ∧ 0 < s.jc ∧ s.tail < s.lim)) (by decide +kernel)
  obtain ⟨p1, p2, p3⟩ := of_decide_eq_true hp
  have h : Reachable .code noPre s := (fresh_ok (by decide) (by decide)).reachable (opOk_of (by decide +kernel)) (runBenign_of (by decide +kernel)) hr
  have hs : SameUsed s { s with mem := Function.update s.mem s.tail c } :=
    ⟨rfl, rfl, rfl, rfl, rfl, rfl, rfl, fun u _ h2 => Function.update_of_ne (Nat.ne_of_lt h2) _ _⟩
  exact ⟨s, _, h, hs, p2, p3, Function.update_self .., ((C69_read_partial h hs).1.loose _ _ (by decide +kernel) (by decide)).trans p1⟩

end Fptu.Props
