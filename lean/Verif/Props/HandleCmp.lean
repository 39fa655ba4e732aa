import Verif.Props.OwnerTuple
import Verif.Model.HandleCmp
/-! # C82: comparing handles -/
namespace Fptu.Props
open Fptu.Rw Fptu.Serial
open Fptu.Gear hiding upd upd_self upd_ne
open Fptu.Owner (World Ro Ptr Buf Cmd Contents Image tupleC nestedOf shown upd_self upd_ne eqRo neRo eqRw neRw eqRwRo neRwRo takeWeak)
open Fptu.Buffer (upd wrap)

variable {α : Type}

/-- Two managed read-only handles of a program compare equal exactly if they are the same in every respect: both hollow, or the
same place of the same buffer, both counted there. `!=` is the opposite. -/
theorem C82_managed {C : Contents α} {n : Nat} (hn : Few n) {w : World α} (h : Arises C n anyCmd w) (x y : Nat) :
    (eqRo (w.ro x).pimpl (w.ro y).pimpl = true ↔ w.ro x = w.ro y) ∧
      neRo (w.ro x).pimpl (w.ro y).pimpl = !eqRo (w.ro x).pimpl (w.ro y).pimpl := by
  refine ⟨⟨fun e => ?_, fun e => by rw [e]; exact decide_eq_true rfl⟩, ?_⟩
  · have e := of_decide_eq_true e
    rcases (h.inv hn).match_ x with hx | ⟨b, o, hx⟩ <;> rcases (h.inv hn).match_ y with hy | ⟨c, q, hy⟩ <;> rw [hx, hy] at e ⊢
    · cases e
    · cases e
    · have e : some (⟨b, o⟩ : Ptr) = some ⟨c, q⟩ := e
      cases e
      rfl
  · unfold neRo eqRo
    by_cases e : (w.ro x).pimpl = (w.ro y).pimpl <;> simp [e]

/-- A copy is equal to its source. -/
theorem C82_copy {C : Contents α} {n : Nat} (hn : Few n) {w w' : World α} (h : Arises C n anyCmd w) {x y : Nat} {u : Unit}
    (hl : Legal n w (.roAssign x y)) (hs : Owner.step C w (.roAssign x y) = .ok w' u) :
    eqRo (w'.ro x).pimpl (w'.ro y).pimpl = true ∧ eqRo (w'.ro x).pimpl (w.ro y).pimpl = true := by
  obtain ⟨h1, h2, _⟩ := C77_copy hn h hl hs
  refine ⟨decide_eq_true ?_, decide_eq_true (by rw [h1])⟩
  by_cases e : y = x
  · rw [e]
  · rw [h1, h2 y e]

/-- The target of a move is equal to what the source was, and to the source only if both are hollow. -/
theorem C82_move {C : Contents α} {n : Nat} (hn : Few n) {w w' : World α} (h : Arises C n anyCmd w) {x y : Nat} {u : Unit}
    (hxy : x ≠ y) (hl : Legal n w (.roMove x y)) (hs : Owner.step C w (.roMove x y) = .ok w' u) :
    eqRo (w'.ro x).pimpl (w.ro y).pimpl = true ∧
      (eqRo (w'.ro x).pimpl (w'.ro y).pimpl = true ↔ w.ro y = .hollow) := by
  obtain ⟨h1, h2, _⟩ := C77_move_partial hn h hxy hl hs
  refine ⟨decide_eq_true (by rw [h1]), ?_⟩
  rw [(C82_managed hn (h.done hl trivial hs) x y).1, h1, h2]

/-- In programs that never ask a modifiable tuple for a managed handle to a nested one: two modifiable handles compare equal exactly
if they are the same variable or both hold nothing. -/
theorem C82_modifiable_partial {C : Contents α} {n : Nat} (hn : Few n) {w : World α} (h : Arises C n calm w) (x y : Nat) :
    (eqRw w x y = true ↔ x = y ∨ (w.rw x = none ∧ w.rw y = none)) ∧ neRw w x y = !eqRw w x y := by
  refine ⟨⟨fun e => ?_, fun e => decide_eq_true ?_⟩, ?_⟩
  · have e := of_decide_eq_true e
    cases hx : w.rw x with
    | none => exact Or.inr ⟨rfl, by rw [← e, hx]⟩
    | some b => exact Or.inl ((h.alone hn).1 x y b hx (by rw [← e, hx]))
  · rcases e with rfl | ⟨e1, e2⟩
    · rfl
    · rw [e1, e2]
  · unfold neRw eqRw
    by_cases e : w.rw x = w.rw y <;> simp [e]

/-- In such programs no modifiable tuple is equal to a managed read-only handle. -/
theorem C82_exclusive_partial {C : Contents α} {n : Nat} (hn : Few n) {w : World α} (h : Arises C n calm w) {x y b : Nat}
    (hx : w.rw x = some b) (hy : w.ro y ≠ .hollow) :
    eqRwRo C w x (w.ro y).pimpl = some false ∧ neRwRo C w x (w.ro y).pimpl = some true := by
  obtain ⟨B, hB, hf⟩ := ((h.inv hn).rw_alive hx).2.2
  have e : eqRwRo C w x (w.ro y).pimpl = some false := by
    rcases (h.inv hn).match_ y with hr | ⟨c, o, hr⟩
    · exact absurd hr hy
    · have hne : c ≠ b := fun e => (h.alone hn).2 x y b hx (by rw [hr, e])
      unfold eqRwRo
      rw [hx, hr]
      simp only [hB]
      rw [if_neg (by rw [hf]; exact fun hh => hh rfl)]
      congr 1
      exact decide_eq_false fun e => hne (congrArg Ptr.block e)
  refine ⟨e, ?_⟩
  unfold neRwRo
  rw [e]
  rfl

/-- In any program: a modifiable tuple is equal to a managed read-only handle only if both refer to the same buffer and the handle
is one to the whole tuple. -/
theorem C82_same_buffer {C : Contents α} {n : Nat} (hn : Few n) {w : World α} (h : Arises C n anyCmd w) {x y : Nat}
    (e : eqRwRo C w x (w.ro y).pimpl = some true) :
    ∃ b B, w.rw x = some b ∧ w.buf b = some B ∧ w.ro y = ⟨some ⟨b, C.place B.data⟩, some b⟩ ∧ 2 ≤ owners n w b := by
  unfold eqRwRo at e
  cases hx : w.rw x with
  | none => rw [hx] at e; cases e
  | some b =>
    rcases (h.inv hn).match_ y with hr | ⟨c, o, hr⟩
    · rw [hx, hr] at e; cases e
    · rw [hx, hr] at e
      simp only at e
      cases hB : w.buf b with
      | none => rw [hB] at e; cases e
      | some B =>
        rw [hB] at e
        simp only at e
        by_cases hf : B.freed ≠ 0
        · rw [if_pos hf] at e; cases e
        · rw [if_neg hf] at e
          have e := of_decide_eq_true (Option.some.inj e)
          have e1 : c = b := congrArg Ptr.block e
          refine ⟨b, B, rfl, hB, by rw [hr, e, e1], ?_⟩
          have hc : (w.ro y).hb = some b := by rw [hr, e1]
          unfold owners
          have q1 : 0 < ((Finset.range n).filter fun z => (w.ro z).hb = some b).card :=
            Finset.card_pos.2 ⟨y, Finset.mem_filter.2 ⟨Finset.mem_range.2 ((h.inv hn).ro_alive hc).1, hc⟩⟩
          have q2 : 0 < ((Finset.range n).filter fun z => w.rw z = some b).card :=
            Finset.card_pos.2 ⟨x, Finset.mem_filter.2 ⟨Finset.mem_range.2 ((h.inv hn).rw_alive hx).1, hx⟩⟩
          omega

/-- A weak handle taken from a modifiable tuple is equal to it, and different from every other modifiable tuple; the next
one taken is the same. -/
theorem C82_taken {H n : Nat} (hn : Few n) {w : World Image} (h : Arises (tupleC H) n calm w) {x b : Nat} (hx : w.rw x = some b) :
    ∃ w' p, takeWeak (tupleC H) w x = .ok w' p ∧ eqRwRo (tupleC H) w' x p = some true ∧ w'.ro = w.ro ∧ w'.rw = w.rw ∧
      (∀ y c, y ≠ x → w.rw y = some c → eqRwRo (tupleC H) w' y p = some false) ∧
      ∃ w'', takeWeak (tupleC H) w' x = .ok w'' p := by
  obtain ⟨B, hB, hf⟩ := ((h.inv hn).rw_alive hx).2.2
  have hff : ¬ B.freed ≠ 0 := by rw [hf]; exact fun hh => hh rfl
  have hpl : (tupleC H).place ((tupleC H).stamp B.data) = (tupleC H).place B.data := stamp_place H B.data
  refine ⟨w.setBuf b { B with data := (tupleC H).stamp B.data }, some ⟨b, (tupleC H).place B.data⟩, ?_, ?_, rfl, rfl, ?_,
    (w.setBuf b { B with data := (tupleC H).stamp B.data }).setBuf b { B with data := (tupleC H).stamp ((tupleC H).stamp B.data) }, ?_⟩
  · unfold takeWeak
    simp only [hx, hB]
    rw [if_neg hff]
  · have e : (w.setBuf b { B with data := (tupleC H).stamp B.data }).rw x = some b := hx
    have e2 : (w.setBuf b { B with data := (tupleC H).stamp B.data }).buf b = some { B with data := (tupleC H).stamp B.data } := upd_self _ _ _
    unfold eqRwRo
    simp only [e, e2]
    rw [if_neg hff, hpl]
    congr 1
    exact decide_eq_true rfl
  · intro y c hne hy
    have hcb : c ≠ b := fun e => hne ((h.alone hn).1 y x b (by rw [hy, e]) hx)
    obtain ⟨D, hD, hdf⟩ := ((h.inv hn).rw_alive hy).2.2
    have e : (w.setBuf b { B with data := (tupleC H).stamp B.data }).rw y = some c := hy
    have e2 : (w.setBuf b { B with data := (tupleC H).stamp B.data }).buf c = some D := (upd_ne _ _ hcb).trans hD
    unfold eqRwRo
    simp only [e, e2]
    rw [if_neg (by rw [hdf]; exact fun hh => hh rfl)]
    congr 1
    exact decide_eq_false fun e => hcb (congrArg Ptr.block e).symm
  · have e : (w.setBuf b { B with data := (tupleC H).stamp B.data }).rw x = some b := hx
    have e2 : (w.setBuf b { B with data := (tupleC H).stamp B.data }).buf b = some { B with data := (tupleC H).stamp B.data } := upd_self _ _ _
    unfold takeWeak
    simp only [e, e2]
    rw [if_neg hff, hpl]

/-- After the tuple was changed in its block, a weak handle taken before is equal to it exactly if the index begins where it
began. -/
theorem C82_changed {H n : Nat} (hn : Few n) {w w' w'' : World Image} (h : Arises (tupleC H) n anyCmd w) {x b : Nat} {p : Option Ptr}
    {B : Buf Image} {f : Image → Image} {u : Unit} (hx : w.rw x = some b) (hB : w.buf b = some B) (ht : takeWeak (tupleC H) w x = .ok w' p)
    (hs : Owner.step (tupleC H) w' (.write x f) = .ok w'' u) :
    eqRwRo (tupleC H) w'' x p = some (decide ((f B.data.stamp).rw.head = B.data.rw.head)) := by
  obtain ⟨B', hB', hf⟩ := ((h.inv hn).rw_alive hx).2.2
  rw [hB] at hB'
  cases hB'
  have hff : ¬ B.freed ≠ 0 := by rw [hf]; exact fun hh => hh rfl
  unfold takeWeak at ht
  simp only [hx, hB] at ht
  rw [if_neg hff] at ht
  cases ht
  have hs : Owner.write (w.setBuf b { B with data := (tupleC H).stamp B.data }) x f = .ok w'' u := hs
  have e : (w.setBuf b { B with data := (tupleC H).stamp B.data }).rw x = some b := hx
  have e2 : (w.setBuf b { B with data := (tupleC H).stamp B.data }).buf b = some { B with data := (tupleC H).stamp B.data } := upd_self _ _ _
  unfold Owner.write at hs
  simp only [e, e2] at hs
  rw [if_neg hff] at hs
  cases hs
  unfold eqRwRo
  have e3 : ((w.setBuf b { B with data := (tupleC H).stamp B.data }).setBuf b { B with data := f ((tupleC H).stamp B.data) }).rw x = some b := hx
  have e4 : ((w.setBuf b { B with data := (tupleC H).stamp B.data }).setBuf b { B with data := f ((tupleC H).stamp B.data) }).buf b =
    some { B with data := f ((tupleC H).stamp B.data) } := upd_self _ _ _
  simp only [e3, e4]
  rw [if_neg hff]
  congr 1
  apply decide_eq_decide.2
  show (⟨b, H + 4 * B.data.rw.head⟩ : Ptr) = ⟨b, H + 4 * (f B.data.stamp).rw.head⟩ ↔ _
  constructor
  · intro e
    have := congrArg Ptr.off e
    simp only at this
    show (f B.data.stamp).rw.head = _
    omega
  · intro e
    rw [e]

/-- What a weak handle shows. -/
def weakShows (H : Nat) (w : World Image) (p : Option Ptr) : Option (List Cell) :=
  match p with
  | none => none
  | some q => (w.buf q.block).map fun B => shown H B.data q.off

/-- A weak handle can be equal to a modifiable tuple and show something else than one taken now: a nested tuple was made longer. -/
theorem C82_stale_refuted : ∃ (w w' w'' w3 : World Image) (p : Option Ptr), Arises (tupleC hdr) 4 calm w ∧
    takeWeak (tupleC hdr) w 0 = .ok w' p ∧
    Owner.step (tupleC hdr) w' (.write 0 (applyOp .code (.set (nst 1) .nested (nstVal 4 9)))) = .ok w'' () ∧
    eqRwRo (tupleC hdr) w'' 0 p = some true ∧ takeWeak (tupleC hdr) w'' 0 = .ok w3 p ∧ weakShows hdr w'' p ≠ weakShows hdr w3 p := by
  obtain ⟨w, hw, hp⟩ := exec_decide (C := tupleC hdr) (n := 4) (w := .empty)
    (cs := [.rwNew 0 6 newTuple, .write 0 (applyOp .code (setN 1 3))])
    (fun w =>
      match takeWeak (tupleC hdr) w 0 with
      | .ok w' p =>
        match Owner.step (tupleC hdr) w' (.write 0 (applyOp .code (.set (nst 1) .nested (nstVal 4 9)))) with
        | .ok w'' _ => decide (eqRwRo (tupleC hdr) w'' 0 p = some true) &&
          match takeWeak (tupleC hdr) w'' 0 with
          | .ok w3 q => decide (q = p) && decide (weakShows hdr w'' p ≠ weakShows hdr w3 p)
          | _ => false
        | _ => false
      | _ => false) (by decide +kernel)
  cases h1 : takeWeak (tupleC hdr) w 0 with
  | ok w' p =>
    rw [h1] at hp
    simp only at hp
    cases h2 : Owner.step (tupleC hdr) w' (.write 0 (applyOp .code (.set (nst 1) .nested (nstVal 4 9)))) with
    | ok w'' u =>
      rw [h2] at hp
      simp only [Bool.and_eq_true] at hp
      cases h3 : takeWeak (tupleC hdr) w'' 0 with
      | ok w3 q =>
        rw [h3] at hp
        simp only [Bool.and_eq_true] at hp
        have hq := of_decide_eq_true hp.2.1
        subst hq
        refine ⟨w, w', w'', w3, q, exec_arises .start ?_ hw, h1, h2, of_decide_eq_true hp.1, h3, of_decide_eq_true hp.2.2⟩
        intro c hc
        simp only [List.mem_cons, List.not_mem_nil, or_false] at hc
        rcases hc with rfl | rfl <;> trivial
      | threw e v => rw [h3] at hp; cases hp.2
      | terminate => rw [h3] at hp; cases hp.2
      | ub => rw [h3] at hp; cases hp.2
    | threw e v => rw [h2] at hp; cases hp
    | terminate => rw [h2] at hp; cases hp
    | ub => rw [h2] at hp; cases hp
  | threw e v => rw [h1] at hp; cases hp
  | terminate => rw [h1] at hp; cases hp
  | ub => rw [h1] at hp; cases hp

/-- Comparing a modifiable handle whose tuple was moved away, or any modifiable handle with a hollow read-only one, is undefined,
while all other comparisons of these handles are defined. -/
theorem C82_empty_refuted {C : Contents α} {n : Nat} (hn : Few n) {w w' : World α} (h : Arises C n calm w) {x y : Nat} {u : Unit}
    (hxy : x ≠ y) (hl : Legal n w (.rwMove x y)) (hs : Owner.step C w (.rwMove x y) = .ok w' u) :
    (∀ p, eqRwRo C w' y p = none ∧ neRwRo C w' y p = none) ∧ eqRw w' y y = true ∧
      (∀ z k, w'.ro k = .hollow → eqRwRo C w' z (w'.ro k).pimpl = none ∧ neRwRo C w' z (w'.ro k).pimpl = none) ∧
      ∀ z k, w'.rw z ≠ none → w'.ro k ≠ .hollow → (eqRwRo C w' z (w'.ro k).pimpl).isSome = true := by
  obtain ⟨_, h2, _, _⟩ := C77_rw_move hn h hl hs
  have h' := h.done hl trivial hs
  have h0 := h2 hxy
  refine ⟨fun p => ?_, decide_eq_true rfl, fun z k hk => ?_, fun z k hz hk => ?_⟩
  · have : eqRwRo C w' y p = none := by
      unfold eqRwRo
      rw [h0]
    exact ⟨this, by unfold neRwRo; rw [this]; rfl⟩
  · have : eqRwRo C w' z (w'.ro k).pimpl = none := by
      unfold eqRwRo
      rw [hk]
      cases w'.rw z <;> rfl
    exact ⟨this, by unfold neRwRo; rw [this]; rfl⟩
  · cases hb : w'.rw z with
    | none => exact absurd hb hz
    | some b => rw [(C82_exclusive_partial hn h' hb hk).1]; rfl

/-! ## Cases -/

/-- A modifiable tuple and a managed handle to a nested one of it share a buffer and are not equal; a copy of the handle is equal
to it. -/
example : ∃ w : World Image, Arises (tupleC hdr) 4 anyCmd w ∧ w.rw 0 = some 0 ∧ (w.ro 0).hb = some 0 ∧
    eqRwRo (tupleC hdr) w 0 (w.ro 0).pimpl = some false ∧ eqRo (w.ro 1).pimpl (w.ro 0).pimpl = true ∧ w.ro 1 ≠ .hollow ∧
    eqRo (w.ro 1).pimpl (w.ro 2).pimpl = false := by
  obtain ⟨w, hw, hp⟩ := exec_decide (C := tupleC hdr) (n := 4) (w := .empty) (cs := nestedProgram ++ [.roAssign 1 0])
    (fun w => decide (w.rw 0 = some 0 ∧ (w.ro 0).hb = some 0 ∧
      eqRwRo (tupleC hdr) w 0 (w.ro 0).pimpl = some false ∧ eqRo (w.ro 1).pimpl (w.ro 0).pimpl = true ∧ w.ro 1 ≠ .hollow ∧
      eqRo (w.ro 1).pimpl (w.ro 2).pimpl = false)) (by decide +kernel)
  exact ⟨w, exec_arises .start (fun _ _ => trivial) hw, of_decide_eq_true hp⟩

/-- Two modifiable tuples and a read-only one. -/
example : ∃ w : World Image, Arises (tupleC hdr) 4 calm w ∧ w.rw 0 = some 0 ∧ w.rw 1 = some 1 ∧ w.ro 0 ≠ .hollow ∧
    eqRw w 0 1 = false ∧ eqRw w 2 3 = true ∧ eqRwRo (tupleC hdr) w 0 (w.ro 0).pimpl = some false ∧ Legal 4 w (.rwMove 0 1) := by
  obtain ⟨w, hw, hp⟩ := exec_decide (C := tupleC hdr) (n := 4) (w := .empty)
    (cs := [.rwNew 0 6 newTuple, .rwNew 1 6 newTuple, .rwNew 2 6 newTuple, .roOfRw 0 2])
    (fun w => decide (w.rw 0 = some 0 ∧ w.rw 1 = some 1 ∧ w.ro 0 ≠ .hollow ∧
      eqRw w 0 1 = false ∧ eqRw w 2 3 = true ∧ eqRwRo (tupleC hdr) w 0 (w.ro 0).pimpl = some false)) (by decide +kernel)
  obtain ⟨a, b, c, d, e, f⟩ := of_decide_eq_true hp
  refine ⟨w, exec_arises .start ?_ hw, a, b, c, d, e, f, (by decide), (by decide)⟩
  intro c hc
  simp only [List.mem_cons, List.not_mem_nil, or_false] at hc
  rcases hc with rfl | rfl | rfl | rfl <;> trivial

/-- A new field moves the beginning of the index: the weak handle is no longer equal. -/
example : ∃ w : World Image, Arises (tupleC hdr) 4 calm w ∧
    (match takeWeak (tupleC hdr) w 0 with
      | .ok w' p => match Owner.step (tupleC hdr) w' (.write 0 (applyOp .code (setN 2 3))) with
        | .ok w'' _ => eqRwRo (tupleC hdr) w'' 0 p
        | _ => none
      | _ => none) = some false := by
  obtain ⟨w, hw, hp⟩ := exec_decide (C := tupleC hdr) (n := 4) (w := .empty)
    (cs := [.rwNew 0 6 newTuple, .write 0 (applyOp .code (setN 1 3))])
    (fun w => decide ((match takeWeak (tupleC hdr) w 0 with
      | .ok w' p => match Owner.step (tupleC hdr) w' (.write 0 (applyOp .code (setN 2 3))) with
        | .ok w'' _ => eqRwRo (tupleC hdr) w'' 0 p
        | _ => none
      | _ => none) = some false)) (by decide +kernel)
  refine ⟨w, exec_arises .start ?_ hw, of_decide_eq_true hp⟩
  intro c hc
  simp only [List.mem_cons, List.not_mem_nil, or_false] at hc
  rcases hc with rfl | rfl <;> trivial

end Fptu.Props
