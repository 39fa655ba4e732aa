import Verif.Model.Message
import Verif.Props.AuditComplete
import Verif.Props.Serial
/-! # C92: exceptions about damaged tuples tell what is damaged -/
namespace Fptu.Props
open Fptu.Gear Fptu.Audit Fptu.Serial Fptu.Message

/-- The text that pieces without null pointers stand for. -/
def plain : List Piece → List Nat
  | [] => []
  | .lit t :: ps => t ++ plain ps
  | .str p :: ps => p.getD [] ++ plain ps

/-- No `%s` has a null pointer. -/
def NoNull (ps : List Piece) : Prop := ∀ p ∈ ps, p ≠ .str none

private theorem render_plain (n : Option (List Nat)) {ps : List Piece} (h : NoNull ps) : render n ps = some (plain ps) := by
  induction ps with
  | nil => rfl
  | cons p ps ih =>
    have ih := ih fun q hq => h q (List.mem_cons_of_mem _ hq)
    cases p with
    | lit t => simp only [render, plain, ih, Option.map_some]
    | str p =>
      cases p with
      | none => exact absurd rfl (h _ List.mem_cons_self)
      | some t => simp only [render, plain, ih, Option.some_or, Option.map_some, Option.getD_some]

/-- **C92 (formatting).** For every list of pieces without null pointers and less than 2^31 characters, and whatever capacity the string gets:
the string holds exactly the text, is terminated, and the memory after the terminator is as it was. -/
theorem C92_format {L : Lib} (hL : L.Ok) {ps : List Piece} (hn : NoNull ps) (hl : (plain ps).length < 2 ^ 31) :
    ∃ s, formatVa L ps = some s ∧ s.text = plain ps ∧ s.size < s.capacity ∧ s.data s.size = 0 ∧ ∀ i, s.size < i → s.data i = L.junk i := by
  have hc := hL ((plain ps).length + 1)
  unfold formatVa
  rw [render_plain _ hn, Option.bind_some]
  generalize plain ps = t at hl hc ⊢
  have e : ∀ d n, vsnprintf d n t = (fun i =>
      if n = 0 then d i
      else if i < min t.length (n - 1) then t.getD i 0
      else if i = min t.length (n - 1) then 0
      else d i, (t.length : Int)) := by
    intro d n
    unfold vsnprintf
    rw [if_neg (by omega)]
  simp only [e, sized, Int.toNat_natCast]
  rw [if_neg (by omega), if_neg (by omega), if_neg (by simp)]
  have hmin : min t.length (L.capacity (t.length + 1) - 1) = t.length := by omega
  have hne : L.capacity (t.length + 1) ≠ 0 := by omega
  refine ⟨_, rfl, ?_, by dsimp only; omega, ?_, ?_⟩
  · unfold Str.text
    dsimp only
    rw [hmin]
    apply List.ext_getElem
    · simp
    · intro i h1 h2
      simp only [List.getElem_map, List.getElem_range]
      rw [if_neg hne, if_pos h2, List.getD_eq_getElem?_getD, List.getElem?_eq_getElem h2, Option.getD_some]
  · dsimp only
    rw [hmin, if_neg hne, if_neg (by omega), if_pos rfl]
  · intro i hi
    dsimp only at hi ⊢
    rw [hmin, if_neg hne, if_neg (by omega), if_neg (by omega), if_neg (by omega)]

/-- Longer text than an `int` can count is not formatted. -/
theorem C92_format_refuted (L : Lib) (ps : List Piece) (hn : NoNull ps) (hl : 2 ^ 31 ≤ (plain ps).length) : formatVa L ps = none := by
  unfold formatVa
  rw [render_plain _ hn, Option.bind_some]
  have e : ∀ d n, vsnprintf d n (plain ps) = (d, -1) := by
    intro d n
    unfold vsnprintf
    rw [if_pos (by omega)]
  simp only [e]
  rw [if_pos (by decide)]

/-- A text that C functions take whole: not empty, no zero bytes. -/
def Telling (m : String) : Prop := bytes m ≠ [] ∧ (∀ c ∈ bytes m, c ≠ 0) ∧ (bytes m).length ≤ 100

private theorem telling {m : String} (h : (!(bytes m).isEmpty && (bytes m).all (· ≠ 0) && decide ((bytes m).length ≤ 100)) = true) : Telling m := by
  simp only [Bool.and_eq_true, Bool.not_eq_true', List.isEmpty_eq_false_iff, List.all_eq_true, decide_eq_true_eq] at h
  exact ⟨h.1.1, h.1.2, h.2⟩

/-- Whatever is refused is refused with a telling text. -/
def Tells (r : Res) : Prop := ∀ m l, r = .fail m l → Telling m

private theorem tells_pass {s : St} : Tells (.pass s) := fun _ _ h => by cases h
private theorem tells_bug {l : List Nat} : Tells (.bug l) := fun _ _ h => by cases h
private theorem tells_fail {m : String} {l : List Nat}
    (h : (!(bytes m).isEmpty && (bytes m).all (· ≠ 0) && decide ((bytes m).length ≤ 100)) = true) : Tells (.fail m l) := by
  intro a b e
  cases e
  exact telling h
private theorem tells_bind {r : Res} {f : St → Res} (h : Tells r) (hf : ∀ s, Tells (f s)) : Tells (r.bind f) := by
  cases r with
  | pass s => exact hf s
  | bug l => exact tells_bug
  | fail m l =>
    intro a b e
    cases e
    exact h _ _ rfl

private theorem tells_if {c : Prop} [Decidable c] {r r' : Res} (h : Tells r) (h' : Tells r') : Tells (if c then r else r') := by
  by_cases k : c
  · rw [if_pos k]; exact h
  · rw [if_neg k]; exact h'

local macro "telltale" : tactic => `(tactic| first | exact tells_pass | exact tells_bug | exact tells_fail (by decide +kernel))

private theorem chunk_tells (s : St) (cb cu pb pe : Nat) : Tells (checkChunk s cb cu pb pe) := by
  unfold checkChunk
  split_ifs <;> try telltale
  split <;> telltale

private theorem loose_tells (m : Memory) (pb pe a : Nat) (s : St) : Tells (checkLoose m pb pe a s) := by
  unfold checkLoose
  simp only
  split_ifs <;> first | telltale | exact chunk_tells _ _ _ _ _

private theorem down_tells {f : Nat → St → Res} (h : ∀ a s, Tells (f a s)) (lo n : Nat) (s : St) : Tells (scanDown f lo n s) := by
  induction n generalizing s with
  | zero => exact tells_pass
  | succ n ih => exact tells_bind (h _ _) ih

private theorem pre_tells (m : Memory) (pivot pe : Nat) (ts : List Nat) (s : St) : Tells (scanPre m pivot pe ts s) := by
  induction ts generalizing s with
  | nil => exact tells_pass
  | cons t ts ih =>
    unfold scanPre
    simp only
    split_ifs <;> first | telltale | exact ih _ | exact tells_bind (chunk_tells _ _ _ _ _) ih

private theorem adjacent_tells (m : Memory) (lo pb n : Nat) (M : Map) (k : Nat) (s : St) : Tells (scanAdjacent m lo pb n M k s) := by
  induction n generalizing M k s with
  | zero => exact tells_pass
  | succ n ih =>
    unfold scanAdjacent
    simp only
    split_ifs <;> first | telltale | exact ih _ _ _

private theorem finish_tells (m : Memory) (ib pivot pe pb : Nat) (fl : Flags) (s : St) : Tells (finish m ib pivot pe pb fl s) := by
  unfold finish presence
  refine tells_bind ?_ fun s => ?_
  · split_ifs <;> first | telltale | exact adjacent_tells _ _ _ _ _ _ _
  · simp only
    split_ifs <;> telltale

private theorem passPre_tells (sch : Option Schema) (m : Memory) (pivot pe pb : Nat) (s : St) : Tells (passPre sch m pivot pe pb s) := by
  unfold passPre
  split_ifs <;> try telltale
  split
  · exact pre_tells _ _ _ _ _
  · exact tells_pass

private theorem tuple_tells (sch : Option Schema) (m : Memory) (ib pivot pe : Nat) (fl : Flags) : Tells (auditTuple sch m ib pivot pe fl) := by
  unfold auditTuple
  simp only
  refine tells_if tells_bug ?_
  refine tells_bind (down_tells (fun a s => loose_tells _ _ _ _ _) _ _ _) fun s => ?_
  split_ifs <;> first | telltale | exact tells_bind (passPre_tells _ _ _ _ _ _) fun s => finish_tells _ _ _ _ _ _ _

private theorem rw_tells (sch : Option Schema) (s : RW) : Tells (auditRw sch s) := by
  have h : Tells ((auditTuple sch s.mem s.head s.pivot s.tail ⟨false, decide (preBytesOf sch > 0), true⟩).bind fun st =>
    if s.jc ≠ st.hc % 65536 then .fail (if s.jc ≠ 0 then "tuple.holes_count mismatch" else "tuple have holes") st.reads
    else if s.jv ≠ st.hv % 65536 then .fail (if s.jv ≠ 0 then "tuple.junk_volume mismatch" else "tuple have unaccounted holes") st.reads
    else .pass st) := by
    refine tells_bind (tuple_tells _ _ _ _ _ _) fun st => ?_
    split_ifs <;> telltale
  unfold auditRw
  repeat' refine tells_if ?_ ?_
  all_goals first | exact h | telltale

private theorem ro_tells (sch : Option Schema) (m : Memory) (n : Nat) : Tells (auditRo sch m n) := by
  unfold auditRo
  split
  · rename_i e h
    intro a b k
    cases k
    unfold liteCheckup at h
    split_ifs at h <;> cases h <;> exact telling (by decide +kernel)
  · exact tells_bind (tuple_tells _ _ _ _ _ _) fun st => tells_pass

private theorem what_eq {s : Str} {t : List Nat} (h : s.text = t) (hz : ∀ c ∈ t, c ≠ 0) : s.what = t := by
  unfold Str.what
  rw [h]
  clear h
  induction t with
  | nil => rfl
  | cons c t ih =>
    rw [List.takeWhile_cons_of_pos (p := fun x => decide (x ≠ 0)) (decide_eq_true (hz c List.mem_cons_self)), ih fun d hd => hz d (List.mem_cons_of_mem _ hd)]

private theorem thrown_eq {α : Type} {L : Lib} (hL : L.Ok) {ps : List Piece} (hn : NoNull ps) (hl : (plain ps).length < 2 ^ 31)
    (hz : ∀ c ∈ plain ps, c ≠ 0) {m : String} (hm : Telling m) :
    thrown (α := α) (formatVa L ps) (some (bytes m)) = .badTuple (plain ps) := by
  obtain ⟨s, e, h, _⟩ := C92_format hL hn hl
  rw [e]
  unfold thrown
  obtain ⟨k1, k2, _⟩ := hm
  generalize bytes m = b at k1 k2
  cases b with
  | nil => exact absurd rfl k1
  | cons c b =>
    dsimp only
    rw [if_neg (k2 c List.mem_cons_self), what_eq h hz]

/-- The text of an address or of a number: without zeros, and not of astronomic length. -/
def Printed (t : List Nat) : Prop := (∀ c ∈ t, c ≠ 0) ∧ t.length ≤ 1000

private theorem rw_thrown {α : Type} {L : Lib} (hL : L.Ok) {ptr : List Nat} (hp : Printed ptr) {m : String} (hm : Telling m) :
    badTupleRw (α := α) L ptr (some (bytes m)) = .badTuple (bytes "fptu: Invalid rw-tuple " ++ ptr ++ bytes ": " ++ bytes m) := by
  have e : plain [.lit (bytes "fptu: Invalid rw-tuple "), .lit ptr, .lit (bytes ": "), .str (some (bytes m))] =
      bytes "fptu: Invalid rw-tuple " ++ ptr ++ bytes ": " ++ bytes m := by
    simp only [plain, Option.getD_some, List.append_nil, List.append_assoc]
  have t1 : Telling "fptu: Invalid rw-tuple " := telling (by decide +kernel)
  have t2 : Telling ": " := telling (by decide +kernel)
  unfold badTupleRw
  rw [thrown_eq hL ?_ ?_ ?_ hm, e]
  · intro p hp
    simp only [List.mem_cons, List.not_mem_nil, or_false] at hp
    rcases hp with rfl | rfl | rfl | rfl <;> intro h <;> cases h
  · rw [e]
    simp only [List.length_append]
    have := t1.2.2; have := t2.2.2; have := hm.2.2; have := hp.2
    omega
  · rw [e]
    intro c hc
    simp only [List.mem_append] at hc
    rcases hc with ((h | h) | h) | h
    · exact t1.2.1 c h
    · exact hp.1 c h
    · exact t2.2.1 c h
    · exact hm.2.1 c h

private theorem ro_thrown {α : Type} {L : Lib} (hL : L.Ok) {ptr size : List Nat} (hp : Printed ptr) (hq : Printed size) {m : String} (hm : Telling m) :
    badTupleRo (α := α) L ptr size (some (bytes m)) =
      .badTuple (bytes "fptu: Invalid ro-tuple {" ++ ptr ++ bytes ":" ++ size ++ bytes "}: " ++ bytes m) := by
  have e : plain [.lit (bytes "fptu: Invalid ro-tuple {"), .lit ptr, .lit (bytes ":"), .lit size, .lit (bytes "}: "), .str (some (bytes m))] =
      bytes "fptu: Invalid ro-tuple {" ++ ptr ++ bytes ":" ++ size ++ bytes "}: " ++ bytes m := by
    simp only [plain, Option.getD_some, List.append_nil, List.append_assoc]
  have t1 : Telling "fptu: Invalid ro-tuple {" := telling (by decide +kernel)
  have t2 : Telling ":" := telling (by decide +kernel)
  have t3 : Telling "}: " := telling (by decide +kernel)
  unfold badTupleRo
  rw [thrown_eq hL ?_ ?_ ?_ hm, e]
  · intro p hp
    simp only [List.mem_cons, List.not_mem_nil, or_false] at hp
    rcases hp with rfl | rfl | rfl | rfl | rfl | rfl <;> intro h <;> cases h
  · rw [e]
    simp only [List.length_append]
    have := t1.2.2; have := t2.2.2; have := t3.2.2; have := hm.2.2; have := hp.2; have := hq.2
    omega
  · rw [e]
    intro c hc
    simp only [List.mem_append] at hc
    rcases hc with ((((h | h) | h) | h) | h) | h
    · exact t1.2.1 c h
    · exact hp.1 c h
    · exact t2.2.1 c h
    · exact hq.1 c h
    · exact t3.2.1 c h
    · exact hm.2.1 c h

/-- **C92 (modifiable tuples, partial).** `ensure` of any tuple whatever, damaged or not: it returns when the validation accepts; when the
validation refuses, it throws `bad_tuple` with a text of the address and of the reason in full, which is not empty. Missing: tuples on which
the validation ends the process (`C12_audit_aborts`). -/
theorem C92_ensure_partial {L : Lib} (hL : L.Ok) {ptr : List Nat} (hp : Printed ptr) (sch : Option Schema) (s : RW) :
    (∀ st, auditRw sch s = .pass st → ensureRw L ptr sch s = .ok ()) ∧
    (∀ m l, auditRw sch s = .fail m l → m ≠ "" ∧
      ensureRw L ptr sch s = .badTuple (bytes "fptu: Invalid rw-tuple " ++ ptr ++ bytes ": " ++ bytes m)) := by
  refine ⟨fun st h => by unfold ensureRw; rw [h], fun m l h => ?_⟩
  have hm := rw_tells sch s m l h
  refine ⟨fun e => hm.1 (by rw [e]; decide +kernel), ?_⟩
  unfold ensureRw
  rw [h]
  exact rw_thrown hL hp hm

/-- **C92 (serialized tuples, partial).** The same for opening a serialized tuple: any bytes of any length. -/
theorem C92_open_partial {L : Lib} (hL : L.Ok) {ptr size : List Nat} (hp : Printed ptr) (hq : Printed size) (sch : Option Schema) (b : Memory)
    (n : Nat) :
    (n < 4 → makeFromBuffer L ptr size sch (some b) n false = .hollow) ∧
    (∀ st, 4 ≤ n → auditRo sch b n = .pass st → makeFromBuffer L ptr size sch (some b) n false = .ok (some b)) ∧
    (∀ m l, 4 ≤ n → auditRo sch b n = .fail m l → m ≠ "" ∧ makeFromBuffer L ptr size sch (some b) n false =
      .badTuple (bytes "fptu: Invalid ro-tuple {" ++ ptr ++ bytes ":" ++ size ++ bytes "}: " ++ bytes m)) := by
  refine ⟨fun h => ?_, fun st h e => ?_, fun m l h e => ?_⟩
  · unfold makeFromBuffer
    simp only [if_pos h]
    rfl
  · unfold makeFromBuffer
    simp only [if_neg (show ¬ n < 4 by omega), e]
    rfl
  · have hm := ro_tells sch b n m l e
    refine ⟨fun e => hm.1 (by rw [e]; decide +kernel), ?_⟩
    unfold makeFromBuffer
    simp only [if_neg (show ¬ n < 4 by omega), e]
    exact ro_thrown hL hp hq hm

/-- **C92, refuted for `reset`.** Whenever `reset` refuses a tuple of any history, the validation has nothing to say against the tuple, and the text
is made of a null pointer: undefined behaviour, or, with C libraries that print null pointers, `fptu::bug` instead of `bad_tuple`. -/
theorem C92_reset_refuted {F : Rw.Fix} {sch : Option Schema} {s : RW} (h : History F sch s) (hmax : s.pivot - s.head + stretchyOf sch ≤ 8191)
    {image : List Cell} {x : Exc} (hr : reset s image = .error x) {L : Lib} (hL : L.Ok) {ptr : List Nat} (hp : Printed ptr) :
    (L.nullText = none → resetRw L ptr sch s image = .ub) ∧
    (∀ t, L.nullText = some t → t.length ≤ 100 → resetRw L ptr sch s image = .bug) := by
  have ha := C12_audit_partial h hmax
  have e : resetRw L ptr sch s image = badTupleRw L ptr none := by
    unfold resetRw
    rw [hr]
    cases k : auditRw sch s with
    | pass st => rfl
    | fail m l => rw [k] at ha; cases ha
    | bug l => rw [k] at ha; cases ha
  rw [e]
  refine ⟨fun hn => ?_, fun t ht hl => ?_⟩
  · unfold badTupleRw formatVa
    rw [hn]
    rfl
  · have t1 : Telling "fptu: Invalid rw-tuple " := telling (by decide +kernel)
    have t2 : Telling ": " := telling (by decide +kernel)
    have k : formatVa L [.lit (bytes "fptu: Invalid rw-tuple "), .lit ptr, .lit (bytes ": "), .str none] =
        formatVa L [.lit (bytes "fptu: Invalid rw-tuple "), .lit ptr, .lit (bytes ": "), .str (some t)] := by
      unfold formatVa
      simp only [render, ht, Option.none_or, Option.some_or]
    obtain ⟨r, k', _⟩ := C92_format hL (ps := [.lit (bytes "fptu: Invalid rw-tuple "), .lit ptr, .lit (bytes ": "), .str (some t)])
      (by
        intro p hp
        simp only [List.mem_cons, List.not_mem_nil, or_false] at hp
        rcases hp with rfl | rfl | rfl | rfl <;> intro h <;> cases h)
      (by
        simp only [plain, Option.getD_some, List.length_append, List.length_nil]
        have := t1.2.2; have := t2.2.2; have := hp.2
        omega)
    unfold badTupleRw
    rw [k, k']
    rfl

/-- A library whose short strings have 15 characters of room, and which does not print null pointers. -/
def plainLib : Lib := ⟨fun n => max n 15, fun _ => 170, none⟩
theorem plainLib_ok : plainLib.Ok := fun n => Nat.le_max_left n 15

/-- Formatting "ab" and a `%s`. -/
example : ∃ s, formatVa plainLib [.lit [97, 98], .str (some [99])] = some s ∧ s.text = [97, 98, 99] ∧ s.capacity = 15 ∧ s.data 4 = 170 :=
  ⟨_, rfl, by decide +kernel, by decide +kernel, by decide +kernel⟩

/-- A tuple whose index begins after its end. -/
example : ensureRw plainLib (bytes "0x10") none ⟨fun _ => .zero, 9, 8, 0, 8, 20, 0, 0⟩ =
    .badTuple (bytes "fptu: Invalid rw-tuple 0x10: tuple.head > tuple.pivot") := by
  rw [((C92_ensure_partial plainLib_ok (ptr := bytes "0x10") ⟨by decide +kernel, by decide +kernel⟩ none _).2 "tuple.head > tuple.pivot" [] rfl).2]
  congr 1

/-- Four bytes that say they are eight. -/
example : makeFromBuffer plainLib (bytes "0x10") (bytes "4") none (some fun _ => ⟨0, 2⟩) 4 false =
    .badTuple (bytes "fptu: Invalid ro-tuple {0x10:4}: tuple size mismatch") := by
  rw [((C92_open_partial plainLib_ok (ptr := bytes "0x10") (size := bytes "4") ⟨by decide +kernel, by decide +kernel⟩
    ⟨by decide +kernel, by decide +kernel⟩ none _ 4).2.2 "tuple size mismatch" [0] (by decide) (by rfl)).2]
  congr 1

/-- A tuple created for no loose fields cannot be reset. -/
example : resetRw plainLib (bytes "0x10") none (Rw.create (fun _ => .zero) 0 0 33 []) [] = .ub :=
  (C92_reset_refuted (F := .code) (.of_run (mem := fun _ => .zero) (items := 0) (lim := 33) (image := []) (ops := []) (fun S h => (by cases h)) rfl
    (by decide) (by decide) (fun k g h => (by cases h)) (fun op h => (by cases h)) (runBenign_of (by decide +kernel)) rfl) (by decide)
    (x := .tupleBad) rfl plainLib_ok ⟨by decide +kernel, by decide +kernel⟩).1 rfl

/-- **C92, `reset` of a handle (partial).** The handle's `reset` of a tuple of any history whose index room is 1 to 8191 entries works as the one of the tuple. Missing: other
tuples (`C92_handle_reset_refuted`). -/
theorem C92_handle_reset_partial {F : Rw.Fix} {sch : Option Schema} {s : RW} (h : History F sch s) (h1 : 1 ≤ s.pivot) (h2 : s.pivot ≤ 8191) (image : List Cell)
    (L : Lib) (ptr : List Nat) : ∃ r, reset s image = .ok r ∧ handleReset L ptr sch s image = .ok r ∧ r.head = r.pivot ∧ r.jc = 0 ∧ r.jv = 0 := by
  have k1 := h.made.wf.inv.bt
  have k2 := h.made.wf.inv.tl
  have k3 := h.made.wf.inv.ll
  have hbase : s.base = s.pivot + s.pre := rfl
  have e : ∃ r, reset s image = .ok r ∧ r.head = r.pivot ∧ r.jc = 0 ∧ r.jv = 0 := by
    unfold reset Audit.maxFields bufLimit
    rw [if_neg (by omega), if_neg (by omega)]
    exact ⟨_, rfl, rfl, rfl, rfl⟩
  obtain ⟨r, e, e'⟩ := e
  refine ⟨r, e, ?_, e'⟩
  unfold handleReset resetRw
  rw [e]

example : ∃ r, handleReset plainLib (bytes "0x10") none (fresh 8 60) [] = .ok r ∧ r.head = r.pivot :=
  let ⟨r, _, h, k, _⟩ := C92_handle_reset_partial (F := .code) (.of_run (mem := fun _ => .zero) (items := 8) (lim := 60) (image := []) (ops := []) (fun S h => (by cases h)) rfl
    (by decide) (by decide) (fun k g h => (by cases h)) (fun op h => (by cases h)) (runBenign_of (by decide +kernel)) rfl) (by decide) (by decide) [] plainLib (bytes "0x10")
  ⟨r, h, k⟩

/-- **C92, refuted for `reset` of a handle.** `tuple_rw_fixed::reset` is declared `noexcept`. Whenever the tuple refuses to be reset, although the validation has nothing to say against the
tuple, the process ends or the behaviour is undefined: the program gets no exception it could handle. The function `fptu_clear` of the C API catches it. -/
theorem C92_handle_reset_refuted {F : Rw.Fix} {sch : Option Schema} {s : RW} (h : History F sch s) (hmax : s.pivot - s.head + stretchyOf sch ≤ 8191)
    {image : List Cell} {x : Exc} (hr : reset s image = .error x) {L : Lib} (hL : L.Ok) {ptr : List Nat} (hp : Printed ptr) :
    (L.nullText = none → handleReset L ptr sch s image = .ub) ∧
    (∀ t, L.nullText = some t → t.length ≤ 100 → handleReset L ptr sch s image = .terminated) := by
  obtain ⟨k1, k2⟩ := C92_reset_refuted h hmax hr hL hp
  refine ⟨fun hn => ?_, fun t ht hl => ?_⟩
  · unfold handleReset; rw [k1 hn]
  · unfold handleReset; rw [k2 t ht hl]

/-- A library that prints `(null)`: the process ends when a tuple created for no loose fields is reset. -/
example : handleReset { plainLib with nullText := some (bytes "(null)") } (bytes "0x10") none (Rw.create (fun _ => .zero) 0 0 33 []) [] = .terminated :=
  (C92_handle_reset_refuted (F := .code) (.of_run (mem := fun _ => .zero) (items := 0) (lim := 33) (image := []) (ops := []) (fun S h => (by cases h)) rfl
    (by decide) (by decide) (fun k g h => (by cases h)) (fun op h => (by cases h)) (runBenign_of (by decide +kernel)) rfl) (by decide)
    (x := .tupleBad) rfl (L := { plainLib with nullText := some (bytes "(null)") }) plainLib_ok ⟨by decide +kernel, by decide +kernel⟩).2 _ rfl (by decide +kernel)

end Fptu.Props
