import Verif.Model.PureCalls
import Verif.Props.TupleDefects
/-! # C90: functions with effects that are declared to have none -/
namespace Fptu.Props
open Fptu.Gear Fptu.Rw

/-- What the program means: each statement in turn; the results the caller sees and the tuple afterwards. `none`: a removal throws or is
undefined behaviour. -/
def inOrder : RW → List Stmt → Option (List Bool × RW)
  | s, [] => some ([], s)
  | s, .present tag :: rest => (inOrder s rest).map fun r => (isPresent s tag :: r.1, r.2)
  | s, .other f :: rest => inOrder (f s) rest
  | s, .remove tag used :: rest =>
    match eraseLoose s tag with
    | .ok n s' => (inOrder s' rest).map fun r => (if used then decide (0 < n) :: r.1 else r.1, r.2)
    | _ => none

/-- What the compiler knows is true of the tuple. -/
private def Honest (s : RW) (k : Known) : Prop := ∀ a tag b, (a, tag, b) ∈ k → a = false ∧ b = isPresent s tag

private theorem Honest.nil (s : RW) : Honest s [] := fun _ _ _ h => absurd h (List.not_mem_nil)

private theorem Honest.ask {s : RW} {k : Known} (h : Honest s k) (tag : Nat) : Honest s ((false, tag, isPresent s tag) :: k) := by
  intro a t b hm
  rcases List.mem_cons.1 hm with e | hm
  · injection e with e1 e2
    injection e2 with e2 e3
    subst e1 e2 e3
    exact ⟨rfl, rfl⟩
  · exact h a t b hm

/-- **C90 (other declarations).** If `remove` were not declared pure, every execution of every program would be the one in order, although
`is_present` is declared pure. -/
theorem C90_plain {s t : RW} {prog : List Stmt} {seen : List Bool} (h : Runs false s [] prog seen t) : inOrder s prog = some (seen, t) := by
  suffices H : ∀ k, Runs false s k prog seen t → Honest s k → inOrder s prog = some (seen, t) from H [] h (Honest.nil s)
  clear h
  intro k h
  induction h with
  | done => intro _; rfl
  | ask h ih => intro hk; unfold inOrder; rw [ih (hk.ask _)]; rfl
  | askAgain hm h ih => intro hk; unfold inOrder; rw [ih hk, (hk _ _ _ hm).2]; rfl
  | remove e h ih => intro _; unfold inOrder; rw [e]; dsimp only; rw [ih (Honest.nil _)]; rfl
  | removeAgain hd => cases hd
  | leaveOut hd => cases hd
  | other h ih => intro _; unfold inOrder; exact ih (Honest.nil _)

/-- Every removal has its result used and is followed directly by a call of a function not declared pure, as when the program calls
only functions of the library that are not inline. -/
def Fenced : List Stmt → Prop
  | [] => True
  | .remove _ used :: .other _ :: rest => used = true ∧ Fenced rest
  | .remove _ _ :: _ => False
  | .present _ :: rest => Fenced rest
  | .other _ :: rest => Fenced rest

/-- **C90, partial: declared as in the code.** Every execution of a program whose removals are fenced is the one in order.

Missing: programs that call the inline `erase(token)` of static tokens and go on with other inline functions, for which it is false
(`C90_inline_refuted`). -/
theorem C90_fenced_partial {s t : RW} {prog : List Stmt} {seen : List Bool} (hf : Fenced prog) (h : Runs true s [] prog seen t) :
    inOrder s prog = some (seen, t) := by
  suffices H : ∀ n prog, prog.length ≤ n → Fenced prog → ∀ s k seen, Runs true s k prog seen t → Honest s k → inOrder s prog = some (seen, t) from
    H _ prog (Nat.le_refl _) hf s [] seen h (Honest.nil s)
  intro n
  induction n with
  | zero =>
    intro prog hn _ s k seen h _
    obtain rfl := List.length_eq_zero_iff.1 (Nat.le_zero.1 hn)
    cases h
    rfl
  | succ n ih =>
    intro prog hn hf s k seen h hk
    cases h with
    | done => rfl
    | ask h =>
      unfold inOrder
      rw [ih _ (Nat.le_of_succ_le_succ hn) hf _ _ _ h (hk.ask _)]
      rfl
    | askAgain hm h =>
      unfold inOrder
      rw [ih _ (Nat.le_of_succ_le_succ hn) hf _ _ _ h hk, (hk _ _ _ hm).2]
      rfl
    | @remove _ s' _ _ tag n' used rest seen e h =>
      match rest, hf, h, hn with
      | .other f :: rest, hf, .other h, hn =>
        unfold inOrder
        rw [e]
        dsimp only
        unfold inOrder
        rw [ih rest (by simp only [List.length_cons] at hn; omega) hf.2 _ _ _ h (Honest.nil _)]
        rfl
    | removeAgain _ hm => exact absurd (hk _ _ _ hm).1 (by decide)
    | @leaveOut _ _ _ tag rest _ _ h =>
      match rest, hf with
      | .other f :: rest, hf => exact absurd hf.1 (by decide)
    | other h => exact ih _ (Nat.le_of_succ_le_succ hn) hf _ _ _ h (Honest.nil _)

/-- The execution in order is always one of those allowed. -/
theorem C90_allowed {declared : Bool} {s t : RW} {prog : List Stmt} {seen : List Bool} (h : inOrder s prog = some (seen, t)) :
    Runs declared s [] prog seen t := by
  suffices H : ∀ k, Runs declared s k prog seen t from H []
  induction prog generalizing s seen with
  | nil =>
    intro k
    injection h with h
    injection h with h1 h2
    subst h1 h2
    exact .done
  | cons c rest ih =>
    intro k
    unfold inOrder at h
    cases c with
    | present tag =>
      dsimp only at h
      cases hr : inOrder s rest with
      | none => rw [hr] at h; cases h
      | some r =>
        rw [hr] at h
        injection h with h
        injection h with h1 h2
        subst h1 h2
        exact .ask (ih hr _)
    | other f => exact .other (ih h _)
    | remove tag used =>
      dsimp only at h
      cases he : eraseLoose s tag with
      | ub => rw [he] at h; cases h
      | exc e s' => rw [he] at h; cases h
      | ok n s' =>
        rw [he] at h
        dsimp only at h
        cases hr : inOrder s' rest with
        | none => rw [hr] at h; cases h
        | some r =>
          rw [hr] at h
          injection h with h
          injection h with h1 h2
          subst h1 h2
          exact .remove he (ih hr _)

/-- A tuple with a field, before and after its removal. -/
private theorem one_field : ∃ s s', Reachable .code noPre s ∧ eraseLoose s (nst 2) = .ok 1 s' ∧ isPresent s (nst 2) = true ∧
    isPresent s' (nst 2) = false ∧ getLoose s (nst 2) .nested = .ok (some (nstVal 5 2)) ∧ eraseLoose s' (nst 2) = .ok 0 s' := by
  obtain ⟨s, s', h1, _, _, h3, h4⟩ := good_step (eraseN 2) (fun s s' => decide (isPresent s (nst 2) = true ∧ isPresent s' (nst 2) = false ∧
    getLoose s (nst 2) .nested = .ok (some (nstVal 5 2)) ∧ (match eraseLoose s (nst 2) with | .ok n _ => n == 1 | _ => false) = true ∧
    s'.lookup (tag2gid (nst 2)) = none)) (by decide +kernel) (by decide +kernel)
  obtain ⟨p1, p2, p3, p4, p5⟩ := of_decide_eq_true h4
  have hs : step .code s (eraseN 2) = (eraseLoose s (nst 2)).bind fun _ s => .ok () s := by
    unfold eraseN step
    exact if_neg (by decide)
  rw [hs] at h3
  cases he : eraseLoose s (nst 2) with
  | ub => rw [he] at p4; cases p4
  | exc e t => rw [he] at p4; cases p4
  | ok n t =>
    rw [he] at p4 h3
    injection h3 with _ h3
    have p4 : n = 1 := by simpa using p4
    subst h3 p4
    refine ⟨s, t, h1, he, p1, p2, p3, ?_⟩
    unfold eraseLoose
    rw [if_neg (by decide), p5]

/-- **C90, refuted for the inline functions as declared.** In some reachable tuple with a field, executions allowed by the declaration are:
a removal whose result is not used leaves the field, with its value; the field is present before and after a removal which reports
success; and the field is removed with success twice. None of them is the execution in order. -/
theorem C90_inline_refuted : ∃ s t, Reachable .code noPre s ∧
    (Runs true s [] [.remove (nst 2) false] [] s ∧ getLoose s (nst 2) .nested = .ok (some (nstVal 5 2)) ∧
      inOrder s [.remove (nst 2) false] ≠ some ([], s)) ∧
    (Runs true s [] [.present (nst 2), .remove (nst 2) true, .present (nst 2)] [true, true, true] t ∧
      inOrder s [.present (nst 2), .remove (nst 2) true, .present (nst 2)] = some ([true, true, false], t)) ∧
    (Runs true s [] [.remove (nst 2) true, .remove (nst 2) true] [true, true] t ∧
      inOrder s [.remove (nst 2) true, .remove (nst 2) true] = some ([true, false], t)) := by
  obtain ⟨s, t, hr, he, p1, p2, p3, p4⟩ := one_field
  refine ⟨s, t, hr, ⟨.leaveOut rfl .done, p3, ?_⟩, ⟨?_, ?_⟩, ?_, ?_⟩
  · intro h
    unfold inOrder at h
    rw [he] at h
    injection h with h
    injection h with _ h
    have h : t = s := h
    rw [h, p1] at p2
    cases p2
  · have := Runs.ask (declared := true) (s := s) (k := []) (tag := nst 2) (seen := [true, true]) (t := t)
      (.remove (used := true) (seen := [true]) he (.askAgain (b := true) (tag := nst 2) (by rw [p1]; simp) .done))
    rwa [p1] at this
  · simp only [inOrder, he, p1, p2, Option.map_some]
    rfl
  · exact .remove (used := true) (seen := [true]) he (.removeAgain (used := true) (b := true) (seen := []) rfl (by simp) .done)
  · simp only [inOrder, he, p4, Option.map_some]
    rfl

/-- `C90_fenced_partial` and `C90_plain` apply: a question, a removal and, after a call, another question. -/
example : ∃ s t, Reachable .code noPre s ∧ Fenced [.present (nst 2), .remove (nst 2) true, .other id, .present (nst 2)] ∧
    ∀ d, Runs d s [] [.present (nst 2), .remove (nst 2) true, .other id, .present (nst 2)] [true, true, false] t := by
  obtain ⟨s, t, hr, he, p1, p2, _, _⟩ := one_field
  refine ⟨s, t, hr, ⟨rfl, trivial⟩, fun d => C90_allowed ?_⟩
  simp only [inOrder, he, p1, p2, Option.map_some, id]
  rfl

end Fptu.Props
