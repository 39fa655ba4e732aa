import Verif.Model.LastError
import Verif.Props.Print
/-!
# C93: the last error of the C API
-/
namespace Fptu.Props
open Fptu.CapiRw Fptu.Print Fptu.LastError

/-! ## Notions of the statements -/

/-- What a thread learns by `fptu_last_error_code` and by reading `fptu_last_error_msg` at once. -/
def lastTold (s : State) (t : Nat) : Option Code × Option Text :=
  ((step (s t) .lastCode).2.code, (step (s t) .lastMsg).2.text.bind (LastError.read (step (s t) .lastMsg).1))

/-- The exception that ends the call: the checks of the function pass, and the function of the tuple throws. -/
def thrownBy : Call → Option Thrown
  | .modify r | .shrink r | .get r | .field r => r
  | .init false r | .alloc false false r | .clear false r | .checkSize false none r | .checkSizeEx false none r => r
  | .fetch false none r | .fetchEx false false r | .getCstr true r | .fieldCstr false r => r
  | _ => none

/-- The failed check with the code and the text it is reported with. -/
def complaintOf : Call → Option (Code × Text)
  | .checkSizeEx false (some m) _ | .fetch false (some m) _ => some (.inval, m)
  | .fetch true _ _ | .fetchEx false true _ => some (.inval, txt "invalid buffer (NULL)")
  | .fetchEx true _ _ => some (.inval, txt "invalid cbfs")
  | .getCstr false _ => some (.nofield, txt "fptu: no such field")
  | _ => none

/-- The failures that leave the last error as it was: a null buffer or tuple, sizes too large or no memory for a new tuple, a column out of range for
`fptu_erase`, an argument for the error that is null, a damaged tuple in `fptu_check_and_get_buffer_size`, a null field for `fptu_field_cstr`. -/
def silentFailure : Call → Bool
  | .init true _ | .alloc true _ _ | .alloc false true _ | .clear true _ | .erase true => true
  | .checkSize true _ _ | .checkSize false (some _) _ | .checkSizeEx true _ _ | .fieldCstr true _ => true
  | _ => false

/-- The calls that say nothing about errors: not `fptu_clear_error`, no exception, no reported check. -/
def quietCall (c : Call) : Prop := c ≠ .clearError ∧ thrownBy c = none ∧ complaintOf c = none

/-! ## Linking -/

/-- Whether the call is `fptu_clear_error`. -/
def isClearError : Call → Bool
  | .clearError => true
  | _ => false

theorem lastTold_eq (s : State) (t : Nat) : lastTold s t = (some (s t).code, some (s t).msg) := by
  simp [lastTold, step, LastError.read]

theorem step_state (s : Tls) (c : Call) : (step s c).1.code = (if isClearError c then .ok else ((thrownBy c).map fun e => codeOf e.kind).getD
      (((complaintOf c).map Prod.fst).getD s.code)) ∧
    (step s c).1.msg = (if isClearError c then [] else ((thrownBy c).map Thrown.what).getD (((complaintOf c).map Prod.snd).getD s.msg)) := by
  rcases c with (_ | e) | ⟨_ | _, _ | e⟩ | ⟨_ | _, _ | _, _ | e⟩ | ⟨_ | _, _ | e⟩ | (_ | e) | (_ | _) | ⟨_ | _, _ | m, _ | e⟩ |
    ⟨_ | _, _ | m, _ | e⟩ | ⟨_ | _, _ | m, _ | e⟩ | ⟨_ | _, _ | _, _ | e⟩ | (_ | e) | ⟨_ | _, _ | e⟩ | (_ | e) | ⟨_ | _, _ | e⟩ | _ | _ | _ <;>
    exact ⟨rfl, rfl⟩

theorem step_quiet {c : Call} (h : quietCall c) (s : Tls) : (step s c).1 = s := by
  obtain ⟨h0, h1, h2⟩ := h
  rcases c with (_ | e) | ⟨_ | _, _ | e⟩ | ⟨_ | _, _ | _, _ | e⟩ | ⟨_ | _, _ | e⟩ | (_ | e) | (_ | _) | ⟨_ | _, _ | m, _ | e⟩ |
    ⟨_ | _, _ | m, _ | e⟩ | ⟨_ | _, _ | m, _ | e⟩ | ⟨_ | _, _ | _, _ | e⟩ | (_ | e) | ⟨_ | _, _ | e⟩ | (_ | e) | ⟨_ | _, _ | e⟩ | _ | _ | _ <;>
    first
    | rfl
    | (cases h1; done)
    | (cases h2; done)
    | exact absurd rfl h0

theorem runErr_append (s : State) (a b : List (Nat × Call)) : (LastError.run s (a ++ b)).1 = (LastError.run (LastError.run s a).1 b).1 := by
  induction a generalizing s with
  | nil => rfl
  | cons x a ih => exact ih _

theorem runErr_quiet (t : Nat) (s : State) (b : List (Nat × Call)) (h : ∀ x ∈ b, x.1 = t → quietCall x.2) : (LastError.run s b).1 t = s t := by
  induction b generalizing s with
  | nil => rfl
  | cons x b ih =>
    have e : (LastError.run s (x :: b)).1 = (LastError.run (fun u => if u = x.1 then (step (s x.1) x.2).1 else s u) b).1 := rfl
    rw [e, ih _ fun y hy => h y (List.mem_cons_of_mem _ hy)]
    by_cases k : t = x.1
    · rw [if_pos k, step_quiet (h x (List.mem_cons_self ..) k.symm), k]
    · rw [if_neg k]

/-! ## C93 -/

/-- **C93, which calls are quiet.** A call leaves the last error of its thread alone exactly when it is not `fptu_clear_error` and either does its work or is one of the
listed failures. -/
theorem C93_quiet (c : Call) (s : Tls) : quietCall c ↔ c ≠ .clearError ∧ ((step s c).2.failed = false ∨ silentFailure c = true) := by
  unfold quietCall
  rcases c with (_ | e) | ⟨_ | _, _ | e⟩ | ⟨_ | _, _ | _, _ | e⟩ | ⟨_ | _, _ | e⟩ | (_ | e) | (_ | _) | ⟨_ | _, _ | m, _ | e⟩ |
    ⟨_ | _, _ | m, _ | e⟩ | ⟨_ | _, _ | m, _ | e⟩ | ⟨_ | _, _ | _, _ | e⟩ | (_ | e) | ⟨_ | _, _ | e⟩ | (_ | e) | ⟨_ | _, _ | e⟩ | _ | _ | _ <;>
    simp [thrownBy, complaintOf, silentFailure, step, caught, caughtMsg]

/-- **C93 (partial).** In any interleaving of calls of any threads, what a thread is told about the last error is the code and the text of its own latest call that threw or
reported a failed check, or "no error" after its `fptu_clear_error`; before any of these it is what it was at the start. Calls of other threads, calls that do
their work and questions about the error change nothing. The code is the one the failed call returned or stored, and the message it handed out reads the same.
Missing: the failures of `silentFailure` (`C93_silent_refuted`). -/
theorem C93_last_partial (s : State) (t : Nat) (pre post : List (Nat × Call)) (hq : ∀ x ∈ post, x.1 = t → quietCall x.2) :
    lastTold (LastError.run s (pre ++ post)).1 t = lastTold (LastError.run s pre).1 t ∧
    ∀ c, (∀ e, thrownBy c = some e → lastTold (LastError.run s (pre ++ (t, c) :: post)).1 t =
            (some (match e.kind with
              | .insufficientSpace _ _ => .nospace
              | .badAlloc => .nomem
              | .fieldAbsent => .nofield
              | _ => .inval), some e.what)) ∧
      (∀ k m, complaintOf c = some (k, m) → lastTold (LastError.run s (pre ++ (t, c) :: post)).1 t = (some k, some m)) ∧
      (c = .clearError → lastTold (LastError.run s (pre ++ (t, c) :: post)).1 t = (some .ok, some [])) ∧
      (silentFailure c = false → (step ((LastError.run s pre).1 t) c).2.failed = true →
        (∀ k, (step ((LastError.run s pre).1 t) c).2.code = some k → (lastTold (LastError.run s (pre ++ (t, c) :: post)).1 t).1 = some k) ∧
        ∀ p, (step ((LastError.run s pre).1 t) c).2.text = some p →
          LastError.read ((LastError.run s (pre ++ (t, c) :: post)).1 t) p = (lastTold (LastError.run s (pre ++ (t, c) :: post)).1 t).2) := by
  have key : ∀ c, (LastError.run s (pre ++ (t, c) :: post)).1 t = (step ((LastError.run s pre).1 t) c).1 := fun c => by
    rw [runErr_append]
    have e : (LastError.run (LastError.run s pre).1 ((t, c) :: post)).1 =
      (LastError.run (fun u => if u = t then (step ((LastError.run s pre).1 t) c).1 else (LastError.run s pre).1 u) post).1 := rfl
    rw [e, runErr_quiet t _ _ hq, if_pos rfl]
  refine ⟨?_, fun c => ⟨fun e he => ?_, fun k m hk => ?_, fun h => ?_, fun hs hf => ?_⟩⟩
  · rw [lastTold_eq, lastTold_eq, runErr_append, runErr_quiet t _ _ hq]
  · rw [lastTold_eq, key, (step_state _ _).1, (step_state _ _).2, he]
    have hc : ¬ (isClearError c = true) := fun k => by cases c <;> first | (cases k; done) | (cases he; done)
    rw [if_neg hc, if_neg hc]
    rcases e with ⟨k, w⟩
    cases k <;> rfl
  · have hc : ¬ (isClearError c = true) := fun k => by cases c <;> first | (cases k; done) | (cases hk; done)
    have ht : thrownBy c = none := by
      rcases c with (_ | e) | ⟨_ | _, _ | e⟩ | ⟨_ | _, _ | _, _ | e⟩ | ⟨_ | _, _ | e⟩ | (_ | e) | (_ | _) | ⟨_ | _, _ | m, _ | e⟩ |
        ⟨_ | _, _ | m, _ | e⟩ | ⟨_ | _, _ | m, _ | e⟩ | ⟨_ | _, _ | _, _ | e⟩ | (_ | e) | ⟨_ | _, _ | e⟩ | (_ | e) | ⟨_ | _, _ | e⟩ | _ | _ | _ <;>
        first | rfl | (cases hk; done)
    rw [lastTold_eq, key, (step_state _ _).1, (step_state _ _).2, ht, hk, if_neg hc, if_neg hc]
    rfl
  · subst h
    rw [lastTold_eq, key]
    rfl
  · rw [lastTold_eq, key]
    generalize (LastError.run s pre).1 t = u at hf ⊢
    rcases c with (_ | e) | ⟨_ | _, _ | e⟩ | ⟨_ | _, _ | _, _ | e⟩ | ⟨_ | _, _ | e⟩ | (_ | e) | (_ | _) | ⟨_ | _, _ | m, _ | e⟩ |
      ⟨_ | _, _ | m, _ | e⟩ | ⟨_ | _, _ | m, _ | e⟩ | ⟨_ | _, _ | _, _ | e⟩ | (_ | e) | ⟨_ | _, _ | e⟩ | (_ | e) | ⟨_ | _, _ | e⟩ | _ | _ | _ <;>
      first
      | (cases hs; done)
      | (cases hf; done)
      | (simp [step, caught, caughtMsg, setExc, setCode, LastError.read]; done)
      | (simp [step, caught, caughtMsg, setExc, setCode, LastError.read]; intro k hk; exact hk)

/-- Two threads: thread 1 runs out of space, thread 2 finds no field, thread 1 succeeds with another call. -/
example : let ops : List (Nat × Call) := [(1, .modify (some ⟨.insufficientSpace 0 1, txt "no space"⟩)), (2, .getCstr false none), (1, .get none)]
    lastTold (LastError.run (fun _ => {}) ops).1 1 = (some .nospace, some (txt "no space")) ∧
    lastTold (LastError.run (fun _ => {}) ops).1 2 = (some .nofield, some (txt "fptu: no such field")) ∧
    lastTold (LastError.run (fun _ => {}) ops).1 3 = (some .ok, some []) := by decide +kernel

/-- **C93, threads.** The replies to the calls of a thread are those it would get if no other thread existed. -/
theorem C93_threads (s : State) (t : Nat) (ops : List (Nat × Call)) :
    ((LastError.run s ops).2.filter fun x => x.1 = t) = (LastError.run s (ops.filter fun x => x.1 = t)).2 ∧
    lastTold (LastError.run s ops).1 t = lastTold (LastError.run s (ops.filter fun x => x.1 = t)).1 t := by
  have gen : ∀ (s s' : State), s t = s' t →
      ((LastError.run s ops).2.filter fun x => x.1 = t) = (LastError.run s' (ops.filter fun x => x.1 = t)).2 ∧
      (LastError.run s ops).1 t = (LastError.run s' (ops.filter fun x => x.1 = t)).1 t := by
    induction ops with
    | nil => exact fun s s' h => ⟨rfl, h⟩
    | cons x ops ih =>
      intro s s' h
      obtain ⟨u, c⟩ := x
      by_cases k : u = t
      · subst k
        rw [List.filter_cons_of_pos (by simp)]
        obtain ⟨h1, h2⟩ := ih (fun v => if v = u then (step (s u) c).1 else s v) (fun v => if v = u then (step (s' u) c).1 else s' v) (by simp [h])
        refine ⟨?_, h2⟩
        show List.filter _ ((u, (step (s u) c).2) :: (LastError.run _ ops).2) = (u, (step (s' u) c).2) :: (LastError.run _ _).2
        rw [List.filter_cons_of_pos (by simp), h1, h]
      · rw [List.filter_cons_of_neg (by simpa using k)]
        obtain ⟨h1, h2⟩ := ih (fun v => if v = u then (step (s u) c).1 else s v) s' (by simpa [fun e : t = u => k e.symm, Ne.symm k] using h)
        refine ⟨?_, h2⟩
        show List.filter _ ((u, (step (s u) c).2) :: (LastError.run _ ops).2) = _
        rw [List.filter_cons_of_neg (by simpa using k), h1]
  refine ⟨(gen s s rfl).1, ?_⟩
  rw [lastTold_eq, lastTold_eq, (gen s s rfl).2]

/-- **C93, failures without an error (refuted).** Not every failed call sets the last error: those of `silentFailure` leave what was there. After running out of space, an
`fptu_alloc` for which there is no memory gives the null pointer and the last error still says "no space left"; after `fptu_clear_error` it says that
there was no error. `fptu_clear` of a null tuple even returns a code that the last error does not have. -/
theorem C93_silent_refuted :
    (∀ c s, (step s c).2.failed = true → ((step s c).1 = s ↔ silentFailure c = true)) ∧
    (∃ ops : List (Nat × Call), (LastError.run (fun _ => {}) ops).2.map (fun x => x.2.failed) = [true, true] ∧
      lastTold (LastError.run (fun _ => {}) ops).1 1 = (some .nospace, some (txt "no space")) ∧ ops.drop 1 = [(1, .alloc false true none)]) ∧
    lastTold (LastError.run (fun _ => {}) [(1, .clearError), (1, .alloc false true none)]).1 1 = (some .ok, some []) ∧
    (step {} (.clear true none)).2.code = some .inval ∧ lastTold (LastError.run (fun _ => {}) [(1, .clear true none)]).1 1 = (some .ok, some []) := by
  refine ⟨fun c s hf => ?_, ⟨[(1, .modify (some ⟨.insufficientSpace 0 1, txt "no space"⟩)), (1, .alloc false true none)], by decide +kernel, by decide +kernel, rfl⟩,
    by decide +kernel, rfl, by decide +kernel⟩
  rcases s with ⟨k0, m0, g0⟩
  rcases c with (_ | e) | ⟨_ | _, _ | e⟩ | ⟨_ | _, _ | _, _ | e⟩ | ⟨_ | _, _ | e⟩ | (_ | e) | (_ | _) | ⟨_ | _, _ | m, _ | e⟩ |
    ⟨_ | _, _ | m, _ | e⟩ | ⟨_ | _, _ | m, _ | e⟩ | ⟨_ | _, _ | _, _ | e⟩ | (_ | e) | ⟨_ | _, _ | e⟩ | (_ | e) | ⟨_ | _, _ | e⟩ | _ | _ | _ <;>
    simp_all [step, caught, caughtMsg, setExc, setCode, silentFailure]

/-- **C93 (sizing).** `fptu_check_and_get_buffer_size` and its `_ex` form, given a place for the message, hand out a message exactly when they fail, that is when the tuple is damaged or
the estimate throws, and when they return it reads as the reason. The `_ex` form also gives the code, which is "ok" exactly on success. -/
theorem C93_sizing (s : Tls) (trouble : Option Text) (r : Option Thrown) (c : Call) (hc : c = .checkSize false trouble r ∨ c = .checkSizeEx false trouble r) :
    ((step s c).2.failed = false ↔ trouble = none ∧ r = none) ∧ ((step s c).2.text.isSome ↔ (step s c).2.failed = true) ∧
    (∀ p, (step s c).2.text = some p → LastError.read (step s c).1 p = trouble.or (r.map fun e => e.what)) ∧
    (c = .checkSizeEx false trouble r → ∃ k, (step s c).2.code = some k ∧ (k = .ok ↔ (step s c).2.failed = false)) := by
  have ne : ∀ e, codeOf e ≠ .ok := fun e => by cases e <;> simp [codeOf]
  rcases hc with rfl | rfl <;> rcases trouble with _ | m <;> rcases r with _ | e <;>
    simp [step, caughtMsg, setExc, setCode, LastError.read, ne]

example : (step {} (.checkSizeEx false none (some ⟨.tupleTooLarge, txt "too large"⟩))).2.text = some (.tls 1) := rfl

/-- **C93, how long a message lives (partial).** A message pointer handed to a thread by `fptu_last_error_msg` reads the same after any calls of other threads and any quiet calls of
its own. Missing: after its next reported failure or `fptu_clear_error` it is gone (`C93_message_refuted`). -/
theorem C93_message_partial (s : State) (t : Nat) (pre post : List (Nat × Call)) (hq : ∀ x ∈ post, x.1 = t → quietCall x.2) (p : Pointer)
    (hp : (step ((LastError.run s pre).1 t) .lastMsg).2.text = some p) :
    LastError.read ((LastError.run s (pre ++ post)).1 t) p = (lastTold (LastError.run s pre).1 t).2 ∧ (LastError.read ((LastError.run s (pre ++ post)).1 t) p).isSome := by
  cases hp
  rw [lastTold_eq, runErr_append, runErr_quiet t _ _ hq]
  simp [LastError.read]

example : (step ((LastError.run (fun _ => {}) [(1, .fetchEx true false none)]).1 1) .lastMsg).2.text = some (.tls 1) ∧
    LastError.read ((LastError.run (fun _ => {}) [(1, .fetchEx true false none), (2, .fetchEx true false none), (1, .get none)]).1 1) (.tls 1) = some (txt "invalid cbfs") := ⟨rfl, by decide +kernel⟩

/-- **C93, how long a message lives (refuted).** The message stored by `fptu_check_and_get_buffer_size_ex` in its result, and the one given by `fptu_last_error_msg`, is gone after any
call of the thread that throws, reports a failed check or is `fptu_clear_error`: the result keeps a pointer to freed or overwritten text. -/
theorem C93_message_refuted :
    (∀ s c p, (step s .lastMsg).2.text = some p → ¬ quietCall c → LastError.read (step s c).1 p = none) ∧
    (∀ s m r c p, (step s (.checkSizeEx false (some m) r)).2.text = some p →
      LastError.read (step s (.checkSizeEx false (some m) r)).1 p = some m ∧ (¬ quietCall c → LastError.read (step (step s (.checkSizeEx false (some m) r)).1 c).1 p = none)) := by
  have key : ∀ (s : Tls) c, ¬ quietCall c → (step s c).1.gen = s.gen + 1 := by
    intro s c h
    unfold quietCall at h
    rcases c with (_ | e) | ⟨_ | _, _ | e⟩ | ⟨_ | _, _ | _, _ | e⟩ | ⟨_ | _, _ | e⟩ | (_ | e) | (_ | _) | ⟨_ | _, _ | m, _ | e⟩ |
      ⟨_ | _, _ | m, _ | e⟩ | ⟨_ | _, _ | m, _ | e⟩ | ⟨_ | _, _ | _, _ | e⟩ | (_ | e) | ⟨_ | _, _ | e⟩ | (_ | e) | ⟨_ | _, _ | e⟩ | _ | _ | _ <;>
      first
      | rfl
      | exact absurd ⟨by simp, rfl, rfl⟩ h
  refine ⟨fun s c p hp hq => ?_, fun s m r c p hp => ?_⟩
  · cases hp
    show (if s.gen = (step s c).1.gen then _ else none) = none
    rw [key s c hq, if_neg (by omega)]
  · cases hp
    refine ⟨by simp [LastError.read, step, setCode], fun hq => ?_⟩
    show (if (setCode s .inval m).gen = (step (setCode s .inval m) c).1.gen then _ else none) = none
    rw [key _ c hq, if_neg (by omega)]

/-- **C93, storing a field.** Which exception a storing function of the C API meets is decided by the tuple (`Model/CapiRw.lean`): the one of the token, or the one of
the tuple's function; `w` is its text. The code it returns is then the last error of the thread, and if it returns `FPTU_OK`, the last error stays. -/
theorem C93_upsert {F : Rw.Fix} {s t : Gear.RW} {g : Genus} {column : Nat} {v : Rw.Val} {c : Code} (h : upsert F s g column v = .code c t) (w : Text) :
    ∃ r : Option Thrown, (∀ e, r = some e → e.what = w ∧ (capiToken g column false true = .error e.kind ∨
        ∃ tag y, capiToken g column false true = .ok tag ∧ Rw.setField F s tag g v = .exc e.kind y)) ∧
      (r = none ↔ ∃ tag y, capiToken g column false true = .ok tag ∧ Rw.setField F s tag g v = .ok () y) ∧
      ∀ u : State, ∀ k, lastTold (LastError.run u [(k, .modify r)]).1 k = if c = .ok then lastTold u k else (some c, some w) := by
  unfold upsert guarded at h
  have ne : ∀ e, codeOf e ≠ .ok := fun e => by cases e <;> simp [codeOf]
  cases ht : capiToken g column false true with
  | error e =>
    rw [ht] at h
    cases h
    refine ⟨some ⟨e, w⟩, (fun x k => by cases k; exact ⟨rfl, Or.inl rfl⟩), ⟨(fun k => by cases k), fun ⟨_, _, k, _⟩ => (by cases k)⟩, fun u k => ?_⟩
    rw [lastTold_eq, if_neg (ne e)]
    simp [LastError.run, step, caught, setExc]
  | ok tag =>
    rw [ht] at h
    cases hs : Rw.setField F s tag g v with
    | ok a y =>
      simp only [hs, reply] at h
      cases h
      refine ⟨none, (fun x k => by cases k), ⟨fun _ => ⟨tag, t, rfl, hs⟩, fun _ => rfl⟩, fun u k => ?_⟩
      rw [lastTold_eq, if_pos rfl, lastTold_eq]
      simp [LastError.run, step, caught]
    | exc e y =>
      simp only [hs, reply] at h
      cases h
      refine ⟨some ⟨e, w⟩, (fun x k => by cases k; exact ⟨rfl, Or.inr ⟨tag, t, rfl, hs⟩⟩), ⟨(fun k => by cases k), fun ⟨_, _, k, k'⟩ => (by cases k; rw [hs] at k'; cases k')⟩,
        fun u k => ?_⟩
      rw [lastTold_eq, if_neg (ne e)]
      simp [LastError.run, step, caught, setExc]
    | ub => simp only [hs, reply] at h; cases h

/-- A number stored into a tuple without room. -/
example : (match upsert .code (Rw.create (fun _ => .zero) 0 0 0 []) .u32 5 (.units [⟨1, 0⟩]) with | .code .nospace _ => true | _ => false) = true := by decide +kernel

/-- The texts, and the place of the text of an exception among them. -/
def kindTexts : List Text := ["fptu: invalid argument", "fptu: field type mismatch", "fptu: no such field in the tuple", "fptu: value out of range", "fptu: value is too long",
  "insufficient space", "fptu: hollow tuple", "fptu: tuple is too large", "fptu: field already removed (or index corrupted)", "fptu: collection required",
  "fptu: collection unallowed", "fptu: tuple schema mismatch", "fptu: no such field in the schema", "std::bad_alloc", "fptu: tuple size limit reached"].map txt

@[inherit_doc kindTexts] def kindNo : Exc → Nat
  | .invalidArgument => 0 | .typeMismatch => 1 | .fieldAbsent => 2 | .valueRange => 3 | .valueTooLong => 4 | .insufficientSpace _ _ => 5 | .tupleHollow => 6
  | .tupleTooLarge => 7 | .indexCorrupted => 8 | .collectionRequired => 9 | .collectionUnallowed => 10 | .schemaMismatch => 11 | .schemaNoSuchField => 12
  | .badAlloc => 13 | .tupleOverflow => 14 | .tupleBad | .schemaBadDefinition | .bug => 15

/-- **C93, kinds of failures.** The texts of exceptions thrown without details are not empty and tell the exceptions apart, so that the message tells more than the code: twelve
of these fifteen kinds have the code `FPTU_EINVAL`. The numbers in a report about missing space are not in the text. -/
theorem C93_kinds (a b : Exc) (x : Text) (ha : defaultText a = some x) (hb : defaultText b = some x) :
    x ≠ [] ∧ (a = b ∨ ∃ i u j v, a = .insufficientSpace i u ∧ b = .insufficientSpace j v) := by
  have no : ∀ e y, defaultText e = some y → kindTexts.idxOf y = kindNo e ∧ y ≠ [] := fun e y h => by
    cases e <;> first
      | (simp only [defaultText, Option.some.injEq, reduceCtorEq] at h; done)
      | (simp only [defaultText, Option.some.injEq] at h
         subst h
         exact ⟨by simp only [kindNo]; decide +kernel, by decide +kernel⟩)
  refine ⟨(no a x ha).2, ?_⟩
  have h : kindNo a = kindNo b := (no a x ha).1.symm.trans (no b x hb).1
  have ha' : kindNo a < 15 := by rw [← (no a x ha).1]; cases a <;> first | (simp only [defaultText, reduceCtorEq] at ha; done) | (rw [(no _ x ha).1]; simp [kindNo])
  revert h ha'
  cases a <;> cases b <;> simp [kindNo]

example : defaultText .valueRange = some (txt "fptu: value out of range") ∧ codeOf .valueRange = codeOf .tupleTooLarge := by decide +kernel

/-! ## The texts of codes -/

theorem lt_pow_decLen (f n : Nat) (h : n ≤ f) : n < 10 ^ decLen f n := by
  induction f generalizing n with
  | zero => simp [decLen]; omega
  | succ f ih =>
    unfold decLen
    split
    · simpa
    · rw [Nat.pow_succ]
      have := ih (n / 10) (by omega)
      omega

/-- **C93, texts of codes.** Different codes have different texts, on both platforms; so have numbers that are no codes. The texts of other numbers than the codes for success, "no field",
"invalid argument" and "no space" begin with `invalid`. -/
theorem C93_text (windows : Bool) (n m : Nat) (h : errorText windows n = errorText windows m) : n = m := by
  have hd : ∀ k, decValue (padDec 1 k) = some k := fun k => by
    unfold padDec
    rw [decValue_digits, Nat.mod_eq_of_lt]
    exact lt_of_lt_of_le (lt_pow_decLen k k (le_refl _)) (Nat.pow_le_pow_right (by norm_num) (le_max_right _ _))
  have h0 : ∀ k, (errorText windows k)[0]? = some 105 ∨ (errorText windows k)[0]? = some 70 := fun k => by
    unfold errorText
    split_ifs <;> first | exact Or.inl rfl | exact Or.inr rfl
  have hi : ∀ k, (txt "invalid(fptu_error)" ++ padDec 1 k)[0]? = some 105 := fun k => rfl
  unfold errorText at h
  split_ifs at h with a1 a2 a3 a4 a5 a6 a7 a8 a9 a10 a11 a12 a13 a14 a15 a16 a17 a18 a19 a20 a21 a22 a23 a24 <;>
    first
    | omega
    | exact absurd h (by decide +kernel)
    | (have q := congrArg (·[0]?) h
       simp only [hi] at q
       exact absurd q (by decide +kernel))
    | (have q := congrArg decValue (List.append_cancel_left h)
       rw [hd, hd] at q
       exact Option.some.inj q)

example : errorText false 22 = txt "FPTU: Invalid argument (EINVAL)" ∧ errorText false 0 = txt "FPTU: Success" ∧ errorText true 0x540 = txt "FPTU: No space left in tuple (ENOSPC)" ∧
    errorText false 4096 = txt "invalid(fptu_error)4096" := by decide +kernel

/-- **C93, texts of codes (refuted).** `FPTU_ENOMEM`, which an exhausted memory gives, has the text of an invalid code. On Linux the names in parentheses for "no field" and "no space" are those of
other numbers: `ENOENT` is 2 and `ENOSPC` is 28, which have the texts of invalid codes. -/
theorem C93_text_refuted :
    (∀ windows, errorText windows (number windows (codeOf .badAlloc)) = txt "invalid(fptu_error)12") ∧
    errorText false (number false .nofield) = txt "FPTU: No such field (ENOENT)" ∧ number false .nofield ≠ 2 ∧ errorText false 2 = txt "invalid(fptu_error)2" ∧
    errorText false (number false .nospace) = txt "FPTU: No space left in tuple (ENOSPC)" ∧ number false .nospace ≠ 28 ∧ errorText false 28 = txt "invalid(fptu_error)28" := by
  refine ⟨fun w => ?_, ?_⟩
  · cases w <;> decide +kernel
  · decide +kernel

end Fptu.Props
