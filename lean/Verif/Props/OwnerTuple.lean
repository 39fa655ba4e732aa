import Verif.Props.Owner
import Verif.Model.OwnerTuple
import Verif.Props.TupleDefects
/-! # C77, continued: handles to tuples -/
namespace Fptu.Props
open Fptu.Rw Fptu.Serial
open Fptu.Gear hiding upd upd_self
open Fptu.Owner (World Ro Ptr Buf Cmd Image tupleC nestedOf shown upd_self bufferOf declRo roOfRw nestedRw roCtor addRef New)
open Fptu.Buffer (upd wrap)

/-! ## Blocks that hold tuples -/

/-- What variable `x` shows. -/
def shows (H : Nat) (w : World Image) (x : Nat) : Option (List Cell) :=
  match (w.ro x).pimpl with
  | none => none
  | some p => (w.buf p.block).map fun B => shown H B.data p.off

theorem stamp_place (H : Nat) (a : Image) : (tupleC H).place a.stamp = (tupleC H).place a := by
  unfold Owner.Image.stamp
  show H + 4 * (if a.rw.head = 0 then _ else _ : Image).rw.head = _
  split <;> rfl

theorem stamp_unit (a : Image) : a.stamp.unit a.rw.head = takeAsis a.sch a.rw 0 := by
  unfold Owner.Image.stamp Owner.Image.unit
  by_cases h : a.rw.head = 0
  · simp only [h, if_true]
  · simp only [h, if_false]
    exact if_pos rfl

theorem stamp_other (a : Image) {u : Nat} (h : a.rw.head < u) : a.stamp.unit u = a.rw.mem (u - 1) := by
  unfold Owner.Image.stamp Owner.Image.unit
  rw [if_neg (by omega)]
  by_cases h0 : a.rw.head = 0
  · simp only [h0, if_true]
  · simp only [h0, if_false]
    exact if_neg (by omega)

theorem place_index (H u : Nat) : (H + 4 * u - H) / 4 = u := by omega

/-- Turning a modifiable tuple in a managed buffer into a read-only handle always succeeds; the handle shows the serialized tuple;
the variable of the modifiable tuple is empty afterwards. -/
theorem C77_take {H n : Nat} (hn : Few n) {w : World Image} (h : Arises (tupleC H) n anyCmd w) {F : Fix} {σ : Sch} {x y b : Nat}
    {B : Buf Image} (hb : w.buf b = some B) (hy : w.rw y = some b) (ht : B.tag ≠ 0) (hs : Reachable F σ B.data.rw)
    (hsz : H + 4 + 4 * B.data.rw.lim ≤ B.size) :
    ∃ w', Owner.step (tupleC H) w (.roOfRw x y) = .ok w' () ∧ w'.rw y = none ∧
      shows H w' x = some ((List.range (B.data.rw.tail - B.data.rw.head + 1)).map (takeAsis B.data.sch B.data.rw)) := by
  obtain ⟨B', hB', hf⟩ := ((h.inv hn).rw_alive hy).2.2
  rw [hb] at hB'
  rw [← Option.some.inj hB'] at hf
  have hwf := hs.wf
  have hlo : (takeAsis B.data.sch B.data.rw 0).lo = B.data.rw.tail - B.data.rw.head + 1 := by
    show (B.data.rw.tail - B.data.rw.head + 1) % 65536 = _
    have := hwf.inv.tl; have := hwf.inv.ll
    exact Nat.mod_eq_of_lt (by omega)
  have hht : B.data.rw.head ≤ B.data.rw.tail := by
    have := hwf.inv.hp; have := hwf.inv.bt
    show _ ≤ _
    have : B.data.rw.base = B.data.rw.pivot + B.data.rw.pre := rfl
    omega
  have htl := hwf.inv.tl
  have hpl : (tupleC H).place B.data = H + 4 * B.data.rw.head := rfl
  have hun : (B.data.stamp).unit ((H + 4 * B.data.rw.head - H) / 4) = takeAsis B.data.sch B.data.rw 0 := by
    rw [place_index, stamp_unit]
  have hck : Owner.check (tupleC H) (w.setBuf b { B with data := B.data.stamp }) ⟨some ⟨b, H + 4 * B.data.rw.head⟩, some b⟩ =
      .ok (w.setBuf b { B with data := B.data.stamp }) () := by
    unfold Owner.check Owner.World.setBuf
    simp only [upd_self]
    rw [if_neg (by rw [hf]; exact fun hh => hh.elim (fun h => h rfl) (fun h => h rfl)), if_pos]
    refine ⟨trivial, ?_⟩
    show H + 4 * B.data.rw.head + 4 * ((B.data.stamp).unit ((H + 4 * B.data.rw.head - H) / 4)).lo ≤ B.size
    rw [hun, hlo]
    omega
  have hbo : bufferOf (w.setBuf b { B with data := B.data.stamp }) b = some b := by
    unfold bufferOf Owner.World.setBuf
    simp only [upd_self]
    rw [if_pos ht]
  refine ⟨((w.setBuf b { B with data := B.data.stamp }).setRw y none).setRo x ⟨some ⟨b, H + 4 * B.data.rw.head⟩, some b⟩, ?_, upd_self _ _ _, ?_⟩
  · show declRo x (roOfRw (tupleC H) w y) = _
    unfold roOfRw
    simp only [hy, hb]
    rw [if_neg (by rw [hf]; exact fun hh => hh rfl)]
    have e1 : (tupleC H).stamp = Owner.Image.stamp := rfl
    rw [e1, hbo, hpl, hck]
    rfl
  · unfold shows Owner.World.setRo
    simp only [upd_self]
    show ((upd w.buf b (some { B with data := B.data.stamp })) b).map _ = _
    rw [upd_self]
    show some (shown H B.data.stamp (H + 4 * B.data.rw.head)) = _
    unfold shown
    rw [hun, hlo]
    congr 1
    apply List.map_congr_left
    intro i _
    rw [place_index]
    by_cases hi : i = 0
    · rw [hi]; exact stamp_unit _
    · rw [stamp_other _ (by omega)]
      unfold takeAsis
      rw [if_neg hi]
      congr 1
      omega

/-- A managed handle to a nested tuple that is there is always granted and shows it; it shares the buffer with the whole. -/
theorem C77_nested_partial {H n : Nat} (hn : Few n) {w : World Image} (h : Arises (tupleC H) n anyCmd w) {F : Fix} {σ : Sch}
    {x y b tag : Nat} {B : Buf Image} {v : List Cell} (hb : w.buf b = some B) (hy : w.rw y = some b) (ht : B.tag ≠ 0)
    (hs : Reachable F σ B.data.rw) (hsz : H + 4 + 4 * B.data.rw.lim ≤ B.size)
    (hv : getLoose B.data.rw tag .nested = .ok (some (.nested (some v)))) :
    ∃ w', Owner.step (tupleC H) w (.nestedRw x y (nestedOf H tag)) = .ok w' () ∧ w'.rw = w.rw ∧ (w'.ro x).hb = some b ∧
      shows H w' x = some v := by
  obtain ⟨B', hB', hf⟩ := ((h.inv hn).rw_alive hy).2.2
  rw [hb] at hB'
  rw [← Option.some.inj hB'] at hf
  have hwf := hs.wf
  -- the field
  unfold getLoose at hv
  by_cases hc : isLooseCollection tag
  · rw [if_pos hc] at hv; cases hv
  rw [if_neg hc] at hv
  unfold getEntry at hv
  by_cases hg : tag2genus tag = .nested
  swap
  · rw [if_pos hg] at hv; cases hv
  rw [if_neg (fun hh => hh hg)] at hv
  cases hl : B.data.rw.lookup (tag2gid tag) with
  | none =>
    rw [hl] at hv
    by_cases hd : isDiscernible tag
    · simp only [hd, if_true] at hv; cases hv
    · simp only [hd] at hv; cases hv
  | some e =>
    rw [hl] at hv
    by_cases hz : (B.data.rw.mem e).lo = 0
    · have hv : (if isDiscernible tag = true then .error .fieldAbsent else .ok (some (Val.empty .nested)) : Except Exc (Option Val)) =
          .ok (some (.nested (some v))) := by
        rw [← hv]
        show _ = (if Genus.nested.isInplaced = true then _ else if Genus.nested.isFixed = true ∨ (B.data.rw.mem e).lo ≠ 0 then _ else _)
        rw [if_neg (show ¬ Genus.nested.isInplaced = true by decide), if_neg (show ¬ (Genus.nested.isFixed = true ∨ (B.data.rw.mem e).lo ≠ 0) from
          fun hh => hh.elim (fun h => absurd h (by decide)) (fun h => h hz))]
      by_cases hd : isDiscernible tag = true
      · rw [if_pos hd] at hv; cases hv
      · rw [if_neg hd] at hv; cases hv
    · have hv : (.ok (some (.nested (some (Nested.read B.data.rw.mem (B.data.rw.start e))))) : Except Exc (Option Val)) =
          .ok (some (.nested (some v))) := by
        rw [← hv]
        show _ = (if Genus.nested.isInplaced = true then _ else if Genus.nested.isFixed = true ∨ (B.data.rw.mem e).lo ≠ 0 then _ else _)
        rw [if_neg (by decide), if_pos (Or.inr hz)]
        rfl
      have hv : Nested.read B.data.rw.mem (B.data.rw.start e) = v := by
        have := Option.some.inj (Except.ok.inj hv)
        injection this with this
        exact Option.some.inj this
      rw [gid_eq] at hl
      obtain ⟨⟨hlive, hword⟩, _⟩ := (lookup_some (tag_not_hole (by rw [hg]; decide))).1 hl
      have hcg := cellGenus_tag (B.data.rw.mem e) tag hword
      rw [hg] at hcg
      have hst : StretchyAt σ B.data.rw e .nested := ⟨rfl, Or.inl ⟨hlive, hcg⟩⟩
      have hlen : lenOf σ B.data.rw e = (B.data.rw.mem (B.data.rw.start e)).lo := by
        rw [lenOf_index hlive.2.1, hcg]
        unfold fieldUnits
        rw [if_neg (by decide), if_neg hz]
        rfl
      have hpos := hwf.pos e _ hst hz
      have hcl : clen B.data.rw.pivot (lenOf σ B.data.rw) e (B.data.rw.mem e) = lenOf σ B.data.rw e := by
        unfold clen
        rw [if_neg (fun hh => hlive.2.2 hh.2)]
      have hlt : e < B.data.rw.base := by
        have := hlive.2.1
        show e < B.data.rw.pivot + B.data.rw.pre
        omega
      have hin := hwf.inv.inside hlive.1 hlt (by rw [hcl]; exact hpos)
      rw [hcl, hlen] at hin
      have htl := hwf.inv.tl
      have hun : B.data.unit ((H + 4 * (B.data.rw.start e + 1) - H) / 4) = B.data.rw.mem (B.data.rw.start e) := by
        rw [place_index]
        unfold Owner.Image.unit
        rw [if_neg (by omega)]
        rfl
      have hck : Owner.check (tupleC H) w ⟨some ⟨b, H + 4 * (B.data.rw.start e + 1)⟩, some b⟩ = .ok w () := by
        unfold Owner.check
        simp only [hb]
        rw [if_neg (by rw [hf]; exact fun hh => hh.elim (fun h => h rfl) (fun h => h rfl)), if_pos]
        refine ⟨trivial, ?_⟩
        show H + 4 * (B.data.rw.start e + 1) + 4 * (B.data.unit ((H + 4 * (B.data.rw.start e + 1) - H) / 4)).lo ≤ B.size
        rw [hun]
        omega
      have hbo : bufferOf w b = some b := by
        unfold bufferOf
        simp only [hb]
        rw [if_pos ht]
      have hcnt : ¬ B.cnt ≤ 0 := by
        have := (h.inv hn).live b B hb hf
        omega
      refine ⟨(w.setBuf b { B with cnt := wrap (B.cnt + 1) }).setRo x ⟨some ⟨b, H + 4 * (B.data.rw.start e + 1)⟩, some b⟩, ?_, rfl, ?_, ?_⟩
      · show declRo x (nestedRw (tupleC H) w y (nestedOf H tag)) = _
        have hfind : nestedOf H tag B.data = .ok (some (H + 4 * (B.data.rw.start e + 1))) := by
          unfold nestedOf
          rw [if_neg hc, if_neg (fun hh => hh hg), gid_eq, hl]
          simp only
          rw [if_pos hz]
        unfold nestedRw
        simp only [hy, hb, hfind]
        rw [if_neg (by rw [hf]; exact fun hh => hh rfl), hbo]
        unfold roCtor
        show declRo x ((Owner.check (tupleC H) w ⟨some ⟨b, H + 4 * (B.data.rw.start e + 1)⟩, some b⟩).bind _) = _
        rw [hck]
        show declRo x ((addRef w (some b)).bind _) = _
        have ha : addRef w (some b) = .ok (w.setBuf b { B with cnt := wrap (B.cnt + 1) }) () := by
          unfold addRef
          simp only [hb]
          rw [if_neg (by rw [hf]; exact fun hh => hh rfl), if_neg hcnt]
        rw [ha]
        rfl
      · show (upd w.ro x _ x).hb = _
        rw [upd_self]
      · unfold shows Owner.World.setRo
        simp only [upd_self]
        show ((upd w.buf b (some { B with cnt := wrap (B.cnt + 1) })) b).map _ = _
        rw [upd_self]
        show some (shown H B.data (H + 4 * (B.data.rw.start e + 1))) = _
        unfold shown
        rw [hun, ← hv]
        congr 1
        unfold Nested.read Memory.readCells
        apply List.map_congr_left
        intro i _
        rw [place_index]
        unfold Owner.Image.unit
        rw [if_neg (by omega)]
        congr 1
        omega

/-- One operation on the tuple in a block. -/
def applyOp (F : Rw.Fix) (op : Rw.Op) (a : Image) : Image :=
  match Rw.step F a.rw op with
  | .ok _ s => { a with rw := s }
  | .exc _ s => { a with rw := s }
  | .ub => a

/-- The place of `reserve_for_RO_header` in a block (rw.h:215-260 on 64-bit systems). -/
def hdr : Nat := 36

/-- A new tuple of eight index slots and 52 more units. -/
def newTuple : New Image := .built (hdr + 4 + 240) ⟨.zero, fresh 8 60, none⟩

/-- A modifiable tuple with a nested one, a managed handle to the nested one. -/
def nestedProgram : List (Cmd Image) :=
  [.rwNew 0 6 newTuple, .write 0 (applyOp .code (setN 1 3)), .nestedRw 0 0 (nestedOf hdr (nst 1))]

/-- A managed read-only handle to a nested tuple, obtained from a modifiable tuple, shows something else after the modifiable
tuple was changed. -/
theorem C77_nested_refuted : ∃ w w' : World Image, Arises (tupleC hdr) 4 anyCmd w ∧
    Owner.step (tupleC hdr) w (.write 0 (applyOp .code (.set (nst 1) .nested (nstVal 3 9)))) = .ok w' () ∧ w'.ro 0 = w.ro 0 ∧
    shows hdr w 0 = some [⟨3, 0⟩, ⟨1, 1⟩, ⟨1, 1⟩] ∧ shows hdr w' 0 = some [⟨3, 0⟩, ⟨9, 9⟩, ⟨9, 9⟩] := by
  obtain ⟨w, hw, hp⟩ := exec_decide (C := tupleC hdr) (n := 4) (w := .empty) (cs := nestedProgram)
    (fun w => decide (shows hdr w 0 = some [⟨3, 0⟩, ⟨1, 1⟩, ⟨1, 1⟩]) &&
      match Owner.step (tupleC hdr) w (.write 0 (applyOp .code (.set (nst 1) .nested (nstVal 3 9)))) with
      | .ok w' _ => decide (w'.ro 0 = w.ro 0) && decide (shows hdr w' 0 = some [⟨3, 0⟩, ⟨9, 9⟩, ⟨9, 9⟩])
      | _ => false) (by decide +kernel)
  rw [Bool.and_eq_true] at hp
  obtain ⟨h1, h2⟩ := hp
  cases hs : Owner.step (tupleC hdr) w (.write 0 (applyOp .code (.set (nst 1) .nested (nstVal 3 9)))) with
  | ok w' u =>
    rw [hs, Bool.and_eq_true] at h2
    exact ⟨w, w', exec_arises .start (fun _ _ => trivial) hw, hs, of_decide_eq_true h2.1, of_decide_eq_true h1, of_decide_eq_true h2.2⟩
  | threw e v => rw [hs] at h2; cases h2
  | terminate => rw [hs] at h2; cases h2
  | ub => rw [hs] at h2; cases h2

/-- A managed read-only handle moved to itself loses the tuple, although no other handle was left to it. -/
theorem C77_self_move_refuted : ∃ w w' : World Image, Arises (tupleC hdr) 4 anyCmd w ∧
    Owner.step (tupleC hdr) w (.roMove 0 0) = .ok w' () ∧ (shows hdr w 0).isSome = true ∧ shows hdr w' 0 = none ∧
    (w'.buf 0).map (·.freed) = some 1 := by
  obtain ⟨w, hw, hp⟩ := exec_decide (C := tupleC hdr) (n := 4) (w := .empty)
    (cs := [.rwNew 0 6 newTuple, .write 0 (applyOp .code (setN 1 3)), .roOfRw 0 0])
    (fun w => (shows hdr w 0).isSome &&
      match Owner.step (tupleC hdr) w (.roMove 0 0) with
      | .ok w' _ => decide (shows hdr w' 0 = none) && decide ((w'.buf 0).map (·.freed) = some 1)
      | _ => false) (by decide +kernel)
  rw [Bool.and_eq_true] at hp
  obtain ⟨h1, h2⟩ := hp
  cases hs : Owner.step (tupleC hdr) w (.roMove 0 0) with
  | ok w' u =>
    rw [hs, Bool.and_eq_true] at h2
    exact ⟨w, w', exec_arises .start (fun _ _ => trivial) hw, hs, h1, of_decide_eq_true h2.1, of_decide_eq_true h2.2⟩
  | threw e v => rw [hs] at h2; cases h2
  | terminate => rw [hs] at h2; cases h2
  | ub => rw [hs] at h2; cases h2

/-! ## Cases -/

/-- Four variables are few. -/
example : Few 4 := by unfold Few; decide

/-- A long program without `get_nested_managed` of a modifiable tuple: build, freeze, copy, a nested handle, drop the copies, back
to the modifiable form (a copy, because the nested handle is left), change it, an exception. -/
def longProgram : List (Cmd Image) :=
  [.rwNew 0 6 newTuple, .write 0 (applyOp .code (setN 1 3)), .roOfRw 0 0, .roCopy 1 0,
   .nestedRo 2 1 (fun a _ => nestedOf hdr (nst 1) a), .roPurge 1, .rwOfRo 0 0 newTuple, .write 0 (applyOp .code (setN 1 4)),
   .nestedRo 3 2 (fun _ _ => .ok none)]

/-- The nested handle is the only one to the first block and shows what it showed; the block of the modifiable tuple is another. -/
example : ∃ w : World Image, Arises (tupleC hdr) 4 calm w ∧ Arises (tupleC hdr) 4 anyCmd w ∧ w.rw 0 = some 1 ∧ (w.ro 2).hb = some 0 ∧
    owners 4 w 0 = 1 ∧ shows hdr w 2 = some [⟨3, 0⟩, ⟨1, 1⟩, ⟨1, 1⟩] ∧ (w.buf 0).map (fun B => (B.cnt, B.freed)) = some (1, 0) := by
  obtain ⟨w, hw, hp⟩ := exec_decide (C := tupleC hdr) (n := 4) (w := .empty) (cs := longProgram)
    (fun w => decide (w.rw 0 = some 1 ∧ (w.ro 2).hb = some 0 ∧ owners 4 w 0 = 1 ∧
      shows hdr w 2 = some [⟨3, 0⟩, ⟨1, 1⟩, ⟨1, 1⟩] ∧ (w.buf 0).map (fun B => (B.cnt, B.freed)) = some (1, 0))) (by decide +kernel)
  refine ⟨w, exec_arises .start ?_ hw, exec_arises .start (fun _ _ => trivial) hw, of_decide_eq_true hp⟩
  intro c hc
  simp only [longProgram, List.mem_cons, List.not_mem_nil, or_false] at hc
  rcases hc with rfl | rfl | rfl | rfl | rfl | rfl | rfl | rfl | rfl <;> trivial

/-- Back to the modifiable form without copying: the handle is alone and refers to the whole tuple. -/
example : ∃ w : World Image, Arises (tupleC hdr) 4 calm w ∧ w.rw 1 = some 0 ∧ w.ro 0 = .hollow ∧ w.next = 1 := by
  obtain ⟨w, hw, hp⟩ := exec_decide (C := tupleC hdr) (n := 4) (w := .empty)
    (cs := [.rwNew 0 6 newTuple, .write 0 (applyOp .code (setN 1 3)), .roOfRw 0 0, .rwOfRo 1 0 newTuple])
    (fun w => decide (w.rw 1 = some 0 ∧ w.ro 0 = .hollow ∧ w.next = 1)) (by decide +kernel)
  refine ⟨w, exec_arises .start ?_ hw, of_decide_eq_true hp⟩
  intro c hc
  simp only [List.mem_cons, List.not_mem_nil, or_false] at hc
  rcases hc with rfl | rfl | rfl | rfl <;> trivial

/-- Programs in which an operation throws: a lookup without result, a plain block, a copy that cannot be built. -/
def throwingProgram : List (Cmd Image) :=
  [.rwNew 0 6 newTuple, .rwNew 1 0 newTuple, .roOfRw 1 1, .nestedRw 2 0 (nestedOf hdr (nst 7)), .roOfRw 0 0, .roCopy 1 0,
   .rwOfRo 2 0 (.broken 100 ⟨.zero, fresh 8 60, none⟩)]

/-- All three throw; the plain tuple and both handles are still there; the block borrowed for the copy was handed back. -/
example : ∃ w : World Image, Arises (tupleC hdr) 4 anyCmd w ∧ w.rw 1 = some 1 ∧ w.rw 2 = none ∧ (w.ro 0).hb = some 0 ∧ w.ro 2 = .hollow ∧
    (w.buf 0).map (fun B => (B.cnt, B.freed)) = some (2, 0) ∧ (w.buf 2).map (fun B => B.freed) = some 1 := by
  obtain ⟨w, hw, hp⟩ := exec_decide (C := tupleC hdr) (n := 4) (w := .empty) (cs := throwingProgram)
    (fun w => decide (w.rw 1 = some 1 ∧ w.rw 2 = none ∧ (w.ro 0).hb = some 0 ∧ w.ro 2 = .hollow ∧
    (w.buf 0).map (fun B => (B.cnt, B.freed)) = some (2, 0) ∧ (w.buf 2).map (fun B => B.freed) = some 1)) (by decide +kernel)
  exact ⟨w, exec_arises .start (fun _ _ => trivial) hw, of_decide_eq_true hp⟩

/-- The block of `newTuple` is as large as `C77_take` and `C77_nested_partial` want it, and its tuple is a reachable one, also after
a field was set. -/
example : ∃ s, run .code (fresh 8 60) [setN 1 3] = some s ∧ Reachable .code noPre s ∧ hdr + 4 + 4 * s.lim ≤ hdr + 4 + 240 ∧
    getLoose s (nst 1) .nested = .ok (some (nstVal 3 1)) := by
  obtain ⟨s, hs, hp⟩ := run_decide (F := .code) (s := fresh 8 60) (ops := [setN 1 3])
    (fun s => decide (s.lim = 60) && match getLoose s (nst 1) .nested with | .ok (some v) => decide (v = nstVal 3 1) | _ => false)
    (by decide +kernel)
  rw [Bool.and_eq_true] at hp
  have hlim : s.lim = 60 := of_decide_eq_true hp.1
  refine ⟨s, hs, (fresh_ok (by decide) (by decide)).reachable (opOk_of (by decide +kernel)) (runBenign_of (by decide +kernel)) hs, by omega, ?_⟩
  have h2 := hp.2
  cases hg : getLoose s (nst 1) .nested with
  | error e => rw [hg] at h2; cases h2
  | ok o =>
    rw [hg] at h2
    cases o with
    | none => cases h2
    | some v => rw [of_decide_eq_true h2]

end Fptu.Props
