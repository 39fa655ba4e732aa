import Verif.Model.Owner
import Verif.Lemmas.Buffer
/-! Helper lemmas: who owns which block. -/
namespace Fptu.Owner
open Fptu.Buffer Finset

variable {α : Type} {C : Contents α}

/-- One if `o` refers to block `b`. -/
def tok (o : Option Nat) (b : Nat) : Nat := if o = some b then 1 else 0

/-- The number of variables below `n` that refer to block `b`. -/
def refs (n : Nat) (w : World α) (b : Nat) : Nat :=
  (∑ x ∈ range n, tok (w.ro x).hb b) + ∑ x ∈ range n, tok (w.rw x) b

/-- The invariant, with `e b` references to block `b` owned by unnamed handles. -/
structure Inv (n : Nat) (w : World α) (e : Nat → Nat) : Prop where
  small : ∀ b, refs n w b + e b < 2147483646
  roOut : ∀ x, n ≤ x → w.ro x = .hollow
  rwOut : ∀ x, n ≤ x → w.rw x = none
  match_ : ∀ x, w.ro x = .hollow ∨ ∃ b o, w.ro x = ⟨some ⟨b, o⟩, some b⟩
  counted : ∀ x b B, (w.ro x).hb = some b → w.buf b = some B → B.tag ≠ 0
  born : ∀ b, (∃ B, w.buf b = some B) ↔ b < w.next
  owned : ∀ b, 0 < refs n w b + e b → b < w.next
  live : ∀ b B, w.buf b = some B → B.freed = 0 → B.cnt = (refs n w b + e b : Nat) ∧ 0 < refs n w b + e b
  dead : ∀ b B, w.buf b = some B → B.freed ≠ 0 → B.freed = 1 ∧ refs n w b + e b = 0
  plain : ∀ b B, w.buf b = some B → B.tag = 0 → B.freed = 0 → B.cnt = 1

/-- Blocks other than `S` keep their contents, size and tag. -/
def Quiet (S : Option Nat) (w w' : World α) : Prop :=
  w.next ≤ w'.next ∧ ∀ b B, w.buf b = some B → S ≠ some b → ∃ B', w'.buf b = some B' ∧ B'.data = B.data ∧ B'.size = B.size ∧ B'.tag = B.tag

theorem Quiet.refl (S : Option Nat) (w : World α) : Quiet S w w := ⟨Nat.le_refl _, fun _ B h _ => ⟨B, h, rfl, rfl, rfl⟩⟩

theorem Quiet.trans {S : Option Nat} {w w' w'' : World α} (h : Quiet S w w') (h' : Quiet S w' w'') : Quiet S w w'' := by
  refine ⟨Nat.le_trans h.1 h'.1, fun b B hb hs => ?_⟩
  obtain ⟨B', e, e1, e2, e3⟩ := h.2 b B hb hs
  obtain ⟨B'', f, f1, f2, f3⟩ := h'.2 b B' e hs
  exact ⟨B'', f, f1.trans e1, f2.trans e2, f3.trans e3⟩

/-- The outcome is not undefined, and satisfies `Q` on success, `R` after an exception. -/
def Post {β : Type} (o : Out α β) (Q : World α → β → Prop) (R : World α → Prop) : Prop :=
  match o with
  | .ok w x => Q w x
  | .threw _ w => R w
  | .terminate => True
  | .ub => False

theorem Post.bind {β γ : Type} {o : Out α β} {f : World α → β → Out α γ} {Q' : World α → β → Prop} {Q : World α → γ → Prop}
    {R : World α → Prop} (h : Post o Q' R) (hf : ∀ w x, Q' w x → Post (f w x) Q R) : Post (o.bind f) Q R := by
  cases o with
  | ok w x => exact hf w x h
  | threw e w => exact h
  | terminate => trivial
  | ub => exact h

theorem Post.imp {β : Type} {o : Out α β} {Q' Q : World α → β → Prop} {R' R : World α → Prop} (h : Post o Q' R')
    (hq : ∀ w x, Q' w x → Q w x) (hr : ∀ w, R' w → R w) : Post o Q R := by
  cases o with
  | ok w x => exact hq w x h
  | threw e w => exact hr w h
  | terminate => trivial
  | ub => exact h

theorem refs_setBuf (n : Nat) (w : World α) (b : Nat) (B : Buf α) (c : Nat) : refs n (w.setBuf b B) c = refs n w c := rfl

theorem refs_setRo {n : Nat} {w : World α} {x : Nat} {h : Ro} (hx : x < n) (b : Nat) :
    refs n (w.setRo x h) b + tok (w.ro x).hb b = refs n w b + tok h.hb b := by
  have := sum_upd (fun u => tok (w.ro u).hb b) (tok h.hb b) hx
  have e : (∑ u ∈ range n, upd (fun u => tok (w.ro u).hb b) x (tok h.hb b) u) = ∑ u ∈ range n, tok (upd w.ro x h u).hb b := by
    apply sum_congr rfl
    intro u _
    unfold upd; split <;> rfl
  rw [e] at this
  show (∑ u ∈ range n, tok (upd w.ro x h u).hb b) + (∑ u ∈ range n, tok (w.rw u) b) + _ =
    (∑ u ∈ range n, tok (w.ro u).hb b) + (∑ u ∈ range n, tok (w.rw u) b) + _
  omega

theorem refs_setRw {n : Nat} {w : World α} {x : Nat} {h : Option Nat} (hx : x < n) (b : Nat) :
    refs n (w.setRw x h) b + tok (w.rw x) b = refs n w b + tok h b := by
  have := sum_upd (fun u => tok (w.rw u) b) (tok h b) hx
  have e : (∑ u ∈ range n, upd (fun u => tok (w.rw u) b) x (tok h b) u) = ∑ u ∈ range n, tok (upd w.rw x h u) b := by
    apply sum_congr rfl
    intro u _
    unfold upd; split <;> rfl
  rw [e] at this
  show (∑ u ∈ range n, tok (w.ro u).hb b) + (∑ u ∈ range n, tok (upd w.rw x h u) b) + _ = _ + (∑ u ∈ range n, tok (w.rw u) b) + _
  omega

theorem tok_self (b : Nat) : tok (some b) b = 1 := if_pos rfl
theorem tok_none (b : Nat) : tok none b = 0 := rfl
theorem tok_ne {b c : Nat} (h : b ≠ c) : tok (some b) c = 0 := if_neg (fun e => h (Option.some.inj e))
theorem tok_le (o : Option Nat) (b : Nat) : tok o b ≤ 1 := by unfold tok; split <;> omega

theorem ro_le_refs {n : Nat} {w : World α} {x : Nat} (hx : x < n) (b : Nat) : tok (w.ro x).hb b ≤ refs n w b := by
  have := le_sum (fun u => tok (w.ro u).hb b) hx
  unfold refs
  have h : tok (w.ro x).hb b ≤ ∑ u ∈ range n, tok (w.ro u).hb b := this
  omega

theorem rw_le_refs {n : Nat} {w : World α} {x : Nat} (hx : x < n) (b : Nat) : tok (w.rw x) b ≤ refs n w b := by
  have := le_sum (fun u => tok (w.rw u) b) hx
  unfold refs
  have h : tok (w.rw x) b ≤ ∑ u ∈ range n, tok (w.rw u) b := this
  omega

theorem upd_self {β : Type} (f : Nat → β) (x : Nat) (v : β) : upd f x v x = v := if_pos rfl
theorem upd_ne {β : Type} (f : Nat → β) {x y : Nat} (v : β) (h : y ≠ x) : upd f x v y = f y := if_neg h

/-- A handle to block `b` guarantees that the block is there and was not handed back. -/
theorem Inv.alive {n : Nat} {w : World α} {e : Nat → Nat} (h : Inv n w e) {b : Nat} (hp : 0 < refs n w b + e b) :
    ∃ B, w.buf b = some B ∧ B.freed = 0 ∧ B.cnt = (refs n w b + e b : Nat) := by
  obtain ⟨B, hB⟩ := (h.born b).2 (h.owned b hp)
  have hf : B.freed = 0 := by
    by_contra hf
    have := (h.dead b B hB hf).2
    omega
  exact ⟨B, hB, hf, (h.live b B hB hf).1⟩

/-- The invariant after the counter, the hand-backs or the contents of one block changed. -/
theorem Inv.setBuf {n : Nat} {w : World α} {e e' : Nat → Nat} (h : Inv n w e) {b : Nat} {B B' : Buf α} (hB : w.buf b = some B)
    (ht : B'.tag = B.tag) (he : ∀ c, c ≠ b → e' c = e c) (hs : refs n w b + e' b < 2147483646)
    (hl : B'.freed = 0 → B'.cnt = (refs n w b + e' b : Nat) ∧ 0 < refs n w b + e' b)
    (hd : B'.freed ≠ 0 → B'.freed = 1 ∧ refs n w b + e' b = 0)
    (hp : B'.tag = 0 → B'.freed = 0 → B'.cnt = 1) : Inv n (w.setBuf b B') e' where
  small c := by
    rw [refs_setBuf]
    by_cases hc : c = b
    · rw [hc]; exact hs
    · rw [he c hc]; exact h.small c
  roOut := h.roOut
  rwOut := h.rwOut
  match_ := h.match_
  counted := by
    intro x c D hx hD
    by_cases hc : c = b
    · subst hc
      rw [World.setBuf] at hD
      have hD : upd w.buf c (some B') c = some D := hD
      rw [upd_self] at hD
      rw [← Option.some.inj hD, ht]
      exact h.counted x c B hx hB
    · have hD : upd w.buf b (some B') c = some D := hD
      rw [upd_ne _ _ hc] at hD
      exact h.counted x c D hx hD
  born := by
    intro c
    have e1 : (w.setBuf b B').buf c = upd w.buf b (some B') c := rfl
    rw [e1]
    by_cases hc : c = b
    · rw [hc, upd_self]
      exact ⟨fun _ => (h.born b).1 ⟨B, hB⟩, fun _ => ⟨B', rfl⟩⟩
    · rw [upd_ne _ _ hc]; exact h.born c
  owned := by
    intro c hc
    rw [refs_setBuf] at hc
    by_cases hcb : c = b
    · rw [hcb]; exact (h.born b).1 ⟨B, hB⟩
    · rw [he c hcb] at hc; exact h.owned c hc
  live := by
    intro c D hD hf
    have hD : upd w.buf b (some B') c = some D := hD
    rw [refs_setBuf]
    by_cases hc : c = b
    · rw [hc, upd_self] at hD
      rw [hc, ← Option.some.inj hD]
      exact hl (by rw [Option.some.inj hD]; exact hf)
    · rw [upd_ne _ _ hc] at hD
      rw [he c hc]; exact h.live c D hD hf
  dead := by
    intro c D hD hf
    have hD : upd w.buf b (some B') c = some D := hD
    rw [refs_setBuf]
    by_cases hc : c = b
    · rw [hc, upd_self] at hD
      rw [hc, ← Option.some.inj hD]
      exact hd (by rw [Option.some.inj hD]; exact hf)
    · rw [upd_ne _ _ hc] at hD
      rw [he c hc]; exact h.dead c D hD hf
  plain := by
    intro c D hD ht' hf
    have hD : upd w.buf b (some B') c = some D := hD
    by_cases hc : c = b
    · rw [hc, upd_self] at hD
      rw [← Option.some.inj hD]
      exact hp (by rw [Option.some.inj hD]; exact ht') (by rw [Option.some.inj hD]; exact hf)
    · rw [upd_ne _ _ hc] at hD
      exact h.plain c D hD ht' hf

theorem quiet_setBuf (S : Option Nat) {w : World α} {b : Nat} {B B' : Buf α} (hB : w.buf b = some B) (ht : B'.tag = B.tag)
    (hs : S ≠ some b → B'.data = B.data ∧ B'.size = B.size) : Quiet S w (w.setBuf b B') := by
  refine ⟨Nat.le_refl _, fun c D hD hS => ?_⟩
  have e1 : (w.setBuf b B').buf c = upd w.buf b (some B') c := rfl
  rw [e1]
  by_cases hc : c = b
  · rw [hc, upd_self]
    rw [hc, hB] at hD
    rw [hc] at hS
    rw [← Option.some.inj hD]
    exact ⟨B', rfl, (hs hS).1, (hs hS).2, ht⟩
  · rw [upd_ne _ _ hc]
    exact ⟨D, hD, rfl, rfl, rfl⟩

/-- The handles of two worlds are the same. -/
def SameVars (w w' : World α) : Prop := w'.ro = w.ro ∧ w'.rw = w.rw

theorem addRef_post {n : Nat} {w : World α} {e e' : Nat → Nat} (h : Inv n w e) (hb : Option Nat)
    (hp : ∀ b, hb = some b → 0 < refs n w b + e b ∧ ∀ B, w.buf b = some B → B.tag ≠ 0)
    (hs : ∀ b, refs n w b + e' b < 2147483646) (he : ∀ b, e' b = e b + tok hb b) :
    Post (addRef w hb) (fun w' _ => Inv n w' e' ∧ Quiet none w w' ∧ SameVars w w') (fun _ => False) := by
  cases hb with
  | none =>
    have : e' = e := funext fun b => by rw [he b, tok_none]; rfl
    rw [this]
    exact ⟨h, Quiet.refl _ _, rfl, rfl⟩
  | some b =>
    obtain ⟨B, hB, hf, hc⟩ := h.alive (hp b rfl).1
    have hpos := (hp b rfl).1
    have heb := he b
    rw [tok_self] at heb
    have hsb := hs b
    unfold addRef
    simp only [hB]
    rw [if_neg (by rw [hf]; exact fun h => h rfl), if_neg (by rw [hc]; omega)]
    refine ⟨?_, quiet_setBuf none hB (B' := { B with cnt := wrap (B.cnt + 1) }) rfl (fun _ => ⟨rfl, rfl⟩), rfl, rfl⟩
    refine h.setBuf hB rfl ?_ hsb ?_ ?_ ?_
    · intro c hcb
      rw [he c, tok_ne (Ne.symm hcb)]; rfl
    · intro _
      refine ⟨?_, by omega⟩
      show wrap (B.cnt + 1) = _
      rw [hc, wrap_id (by omega) (by omega), heb]
      push_cast; omega
    · intro hf'; exact absurd hf hf'
    · intro ht; exact absurd ht ((hp b rfl).2 B hB)

theorem detach_post {n : Nat} {w : World α} {e e' : Nat → Nat} (h : Inv n w e) (hb : Option Nat)
    (hp : ∀ b, hb = some b → ∀ B, w.buf b = some B → B.tag ≠ 0) (he : ∀ b, e' b + tok hb b = e b) :
    Post (detach w hb) (fun w' _ => Inv n w' e' ∧ Quiet none w w' ∧ SameVars w w') (fun _ => False) := by
  cases hb with
  | none =>
    have : e' = e := funext fun b => by rw [← he b, tok_none]; rfl
    rw [this]
    exact ⟨h, Quiet.refl _ _, rfl, rfl⟩
  | some b =>
    have heb := he b
    rw [tok_self] at heb
    obtain ⟨B, hB, hf, hc⟩ := h.alive (b := b) (by omega)
    have hsb := h.small b
    have hne : ∀ c, c ≠ b → e' c = e c := fun c hcb => by
      have := he c
      rw [tok_ne (Ne.symm hcb)] at this
      exact this
    unfold detach
    simp only [hB]
    rw [if_neg (by rw [hf]; exact fun h => h rfl)]
    by_cases h1 : B.cnt = 1
    · rw [if_neg (fun hh => hh h1)]
      refine ⟨?_, quiet_setBuf none hB (B' := { B with cnt := -1, freed := B.freed + 1 }) rfl (fun _ => ⟨rfl, rfl⟩), rfl, rfl⟩
      refine h.setBuf hB rfl hne (by omega) ?_ ?_ ?_
      · intro hf'
        have hf' : B.freed + 1 = 0 := hf'
        omega
      · intro _
        refine ⟨show B.freed + 1 = 1 by omega, ?_⟩
        rw [h1] at hc
        omega
      · intro _ hf'
        have hf' : B.freed + 1 = 0 := hf'
        omega
    · rw [if_pos h1]
      have hw : wrap (B.cnt - 1) = B.cnt - 1 := wrap_id (by omega) (by omega)
      rw [if_pos (by rw [hw]; omega)]
      refine ⟨?_, quiet_setBuf none hB (B' := { B with cnt := wrap (B.cnt - 1) }) rfl (fun _ => ⟨rfl, rfl⟩), rfl, rfl⟩
      refine h.setBuf hB rfl hne (by omega) ?_ ?_ ?_
      · intro _
        refine ⟨?_, by omega⟩
        show wrap (B.cnt - 1) = _
        rw [hw]; omega
      · intro hf'; exact absurd hf hf'
      · intro ht; exact absurd ht (hp b rfl B hB)

theorem destroyRw_post {n : Nat} {w : World α} {e e' : Nat → Nat} (h : Inv n w e) (p : Option Nat)
    (he : ∀ b, e' b + tok p b = e b) :
    Post (destroyRw w p) (fun w' _ => Inv n w' e' ∧ Quiet none w w' ∧ SameVars w w') (fun _ => False) := by
  cases p with
  | none =>
    have : e' = e := funext fun b => by rw [← he b, tok_none]; rfl
    rw [this]
    exact ⟨h, Quiet.refl _ _, rfl, rfl⟩
  | some b =>
    have heb := he b
    rw [tok_self] at heb
    obtain ⟨B, hB, hf, hc⟩ := h.alive (b := b) (by omega)
    unfold destroyRw
    simp only [hB]
    by_cases ht : B.tag = 0
    · rw [if_neg (fun hh => hh ht), if_neg (by rw [hf]; exact fun h => h rfl)]
      refine ⟨?_, quiet_setBuf none hB (B' := { B with freed := B.freed + 1 }) rfl (fun _ => ⟨rfl, rfl⟩), rfl, rfl⟩
      have h1 := h.plain b B hB ht hf
      refine h.setBuf hB rfl ?_ ?_ ?_ ?_ ?_
      · intro c hcb
        have := he c
        rw [tok_ne (Ne.symm hcb)] at this
        exact this
      · have := h.small b; omega
      · intro hf'
        have hf' : B.freed + 1 = 0 := hf'
        omega
      · intro _
        refine ⟨show B.freed + 1 = 1 by omega, ?_⟩
        rw [h1] at hc
        omega
      · intro _ hf'
        have hf' : B.freed + 1 = 0 := hf'
        omega
    · rw [if_pos ht]
      refine detach_post h (some b) ?_ he
      intro c hc' D hD
      rw [← Option.some.inj hc', hB] at hD
      rw [← Option.some.inj hD]
      exact ht

theorem Inv.borrow {n : Nat} {w : World α} {e e' : Nat → Nat} (h : Inv n w e) (size tag : Nat) (a : α)
    (he : ∀ b, e' b = e b + tok (some w.next) b) :
    Inv n { w with buf := upd w.buf w.next (some ⟨1, 0, size, tag, a⟩), next := w.next + 1 } e' ∧
    Quiet none w { w with buf := upd w.buf w.next (some ⟨1, 0, size, tag, a⟩), next := w.next + 1 } := by
  have hn : w.buf w.next = none := by
    by_contra hh
    cases hb : w.buf w.next with
    | none => exact hh hb
    | some B => exact absurd ((h.born w.next).1 ⟨B, hb⟩) (by omega)
  have h0 : refs n w w.next + e w.next = 0 := by
    by_contra hh
    exact absurd (h.owned w.next (by omega)) (by omega)
  have hz : refs n w w.next + e' w.next = 1 := by
    have := he w.next
    rw [tok_self] at this
    omega
  have hne : ∀ c, c ≠ w.next → e' c = e c := fun c hc => by
    rw [he c, tok_ne (Ne.symm hc)]; rfl
  refine ⟨⟨?_, h.roOut, h.rwOut, h.match_, ?_, ?_, ?_, ?_, ?_, ?_⟩, ?_⟩
  · intro c
    show refs n w c + e' c < _
    by_cases hc : c = w.next
    · rw [hc]; omega
    · rw [hne c hc]; exact h.small c
  · intro x c D hx hD
    have hD : upd w.buf w.next (some ⟨1, 0, size, tag, a⟩) c = some D := hD
    by_cases hc : c = w.next
    · exfalso
      have hlt : x < n := by
        by_contra hh
        have := h.roOut x (by omega)
        have hx : (w.ro x).hb = some c := hx
        rw [this] at hx
        cases hx
      have := ro_le_refs (w := w) hlt c
      have hx : (w.ro x).hb = some c := hx
      rw [hx, tok_self, hc] at this
      omega
    · rw [upd_ne _ _ hc] at hD
      exact h.counted x c D hx hD
  · intro c
    show (∃ B, upd w.buf w.next (some ⟨1, 0, size, tag, a⟩) c = some B) ↔ c < w.next + 1
    by_cases hc : c = w.next
    · rw [hc, upd_self]
      exact ⟨fun _ => by omega, fun _ => ⟨_, rfl⟩⟩
    · rw [upd_ne _ _ hc]
      rw [h.born c]
      omega
  · intro c hc
    have hc : 0 < refs n w c + e' c := hc
    show c < w.next + 1
    by_cases hcn : c = w.next
    · omega
    · rw [hne c hcn] at hc
      have := h.owned c hc
      omega
  · intro c D hD hf
    have hD : upd w.buf w.next (some ⟨1, 0, size, tag, a⟩) c = some D := hD
    show D.cnt = (refs n w c + e' c : Nat) ∧ 0 < refs n w c + e' c
    by_cases hc : c = w.next
    · rw [hc, upd_self] at hD
      rw [← Option.some.inj hD, hc, hz]
      exact ⟨rfl, by omega⟩
    · rw [upd_ne _ _ hc] at hD
      rw [hne c hc]
      exact h.live c D hD hf
  · intro c D hD hf
    have hD : upd w.buf w.next (some ⟨1, 0, size, tag, a⟩) c = some D := hD
    show D.freed = 1 ∧ refs n w c + e' c = 0
    by_cases hc : c = w.next
    · rw [hc, upd_self] at hD
      rw [← Option.some.inj hD] at hf
      exact absurd rfl hf
    · rw [upd_ne _ _ hc] at hD
      rw [hne c hc]
      exact h.dead c D hD hf
  · intro c D hD ht hf
    have hD : upd w.buf w.next (some ⟨1, 0, size, tag, a⟩) c = some D := hD
    by_cases hc : c = w.next
    · rw [hc, upd_self] at hD
      rw [← Option.some.inj hD]
    · rw [upd_ne _ _ hc] at hD
      exact h.plain c D hD ht hf
  · refine ⟨Nat.le_succ _, fun c D hD _ => ?_⟩
    refine ⟨D, ?_, rfl, rfl, rfl⟩
    show upd w.buf w.next _ c = _
    rw [upd_ne]
    · exact hD
    · intro hc
      rw [hc, hn] at hD
      cases hD

/-- A new block: one reference, owned by nobody else. -/
theorem make_post {n : Nat} {w : World α} {e : Nat → Nat} (h : Inv n w e) (tag : Nat) (new : New α) :
    Post (make w tag new)
      (fun w' b => b = w.next ∧ (∃ B, w'.buf b = some B ∧ B.tag = tag ∧ B.freed = 0) ∧ Inv n w' (fun c => e c + tok (some b) c) ∧
        Quiet none w w' ∧ SameVars w w')
      (fun w' => Inv n w' e ∧ Quiet none w w' ∧ SameVars w w') := by
  cases new with
  | refused => exact ⟨h, Quiet.refl _ _, rfl, rfl⟩
  | built size data =>
    obtain ⟨hi, hq⟩ := h.borrow size tag data (e' := fun c => e c + tok (some w.next) c) (fun _ => rfl)
    exact ⟨rfl, ⟨_, upd_self _ _ _, rfl, rfl⟩, hi, hq, rfl, rfl⟩
  | broken size junk =>
    obtain ⟨hi, hq⟩ := h.borrow size tag junk (e' := fun c => e c + tok (some w.next) c) (fun _ => rfl)
    refine Post.bind (Post.imp (destroyRw_post hi (some w.next) (e' := e) (fun _ => rfl)) (fun _ _ h => h)
      (R := fun w' => Inv n w' e ∧ Quiet none w w' ∧ SameVars w w') (fun _ h => h.elim)) ?_
    rintro w' _ ⟨hi', hq', hv⟩
    exact ⟨hi', hq.trans hq', hv.1, hv.2⟩

theorem Inv.setRo {n : Nat} {w : World α} {e e' : Nat → Nat} (h : Inv n w e) {x : Nat} (hx : x < n) (r : Ro)
    (hm : r = .hollow ∨ ∃ b o, r = ⟨some ⟨b, o⟩, some b⟩) (hc : ∀ b B, r.hb = some b → w.buf b = some B → B.tag ≠ 0)
    (he : ∀ b, e' b + tok r.hb b = e b + tok (w.ro x).hb b) : Inv n (w.setRo x r) e' := by
  have hr : ∀ b, refs n (w.setRo x r) b + e' b = refs n w b + e b := by
    intro b
    have h1 := refs_setRo (w := w) (h := r) hx b
    have h2 := he b
    omega
  refine ⟨fun b => by rw [hr b]; exact h.small b, ?_, h.rwOut, ?_, ?_, h.born, fun b => by rw [hr b]; exact h.owned b,
    fun b B => by rw [hr b]; exact h.live b B, fun b B => by rw [hr b]; exact h.dead b B, h.plain⟩
  · intro y hy
    show upd w.ro x r y = _
    rw [upd_ne _ _ (by omega)]
    exact h.roOut y hy
  · intro y
    show upd w.ro x r y = _ ∨ _
    by_cases hyx : y = x
    · rw [hyx]
      show upd w.ro x r x = _ ∨ ∃ b o, upd w.ro x r x = _
      rw [upd_self]; exact hm
    · show upd w.ro x r y = _ ∨ ∃ b o, upd w.ro x r y = _
      rw [upd_ne _ _ hyx]; exact h.match_ y
  · intro y b B hy hB
    have hy : (upd w.ro x r y).hb = some b := hy
    by_cases hyx : y = x
    · rw [hyx, upd_self] at hy
      exact hc b B hy hB
    · rw [upd_ne _ _ hyx] at hy
      exact h.counted y b B hy hB

theorem Inv.setRw {n : Nat} {w : World α} {e e' : Nat → Nat} (h : Inv n w e) {x : Nat} (hx : x < n) (p : Option Nat)
    (he : ∀ b, e' b + tok p b = e b + tok (w.rw x) b) : Inv n (w.setRw x p) e' := by
  have hr : ∀ b, refs n (w.setRw x p) b + e' b = refs n w b + e b := by
    intro b
    have h1 := refs_setRw (w := w) (h := p) hx b
    have h2 := he b
    omega
  refine ⟨fun b => by rw [hr b]; exact h.small b, h.roOut, ?_, h.match_, h.counted, h.born, fun b => by rw [hr b]; exact h.owned b,
    fun b B => by rw [hr b]; exact h.live b B, fun b B => by rw [hr b]; exact h.dead b B, h.plain⟩
  intro y hy
  show upd w.rw x p y = _
  rw [upd_ne _ _ (by omega)]
  exact h.rwOut y hy

theorem quiet_setRo (S : Option Nat) (w : World α) (x : Nat) (r : Ro) : Quiet S w (w.setRo x r) :=
  ⟨Nat.le_refl _, fun _ B h _ => ⟨B, h, rfl, rfl, rfl⟩⟩
theorem quiet_setRw (S : Option Nat) (w : World α) (x : Nat) (p : Option Nat) : Quiet S w (w.setRw x p) :=
  ⟨Nat.le_refl _, fun _ B h _ => ⟨B, h, rfl, rfl, rfl⟩⟩

theorem Quiet.weaken {S : Option Nat} {w w' : World α} (h : Quiet none w w') : Quiet S w w' :=
  ⟨h.1, fun b B hB _ => h.2 b B hB (fun e => by cases e)⟩

theorem sum_le_card (f : Nat → Nat) (h : ∀ x, f x ≤ 1) (n : Nat) : (∑ x ∈ range n, f x) ≤ n := by
  induction n with
  | zero => exact Nat.le_refl _
  | succ k ih =>
    rw [sum_range_succ]
    have := h k
    omega

theorem refs_le (n : Nat) (w : World α) (b : Nat) : refs n w b ≤ 2 * n := by
  have h1 := sum_le_card (fun x => tok (w.ro x).hb b) (fun x => tok_le _ _) n
  have h2 := sum_le_card (fun x => tok (w.rw x) b) (fun x => tok_le _ _) n
  show (∑ x ∈ range n, tok (w.ro x).hb b) + (∑ x ∈ range n, tok (w.rw x) b) ≤ 2 * n
  have h1 : (∑ x ∈ range n, tok (w.ro x).hb b) ≤ n := h1
  have h2 : (∑ x ∈ range n, tok (w.rw x) b) ≤ n := h2
  omega

/-- No unnamed handles. -/
def none' : Nat → Nat := fun _ => 0

/-- The block exists and was not handed back. -/
def Alive (w : World α) (b : Nat) : Prop := ∃ B, w.buf b = some B ∧ B.freed = 0

/-- Both members are null, or the tuple lies in the buffer. -/
def Fits (h : Ro) : Prop := h = .hollow ∨ ∃ b o, h = ⟨some ⟨b, o⟩, some b⟩

theorem check_post {w : World α} {h : Ro} (hp : ∀ p, h.pimpl = some p → Alive w p.block) (hb : ∀ b, h.hb = some b → Alive w b) :
    Post (check C w h) (fun w' _ => w' = w ∧ Fits h) (fun w' => w' = w) := by
  obtain ⟨pi, bo⟩ := h
  unfold check
  cases pi with
  | none =>
    cases bo with
    | none => exact ⟨rfl, Or.inl rfl⟩
    | some b => exact rfl
  | some p =>
    cases bo with
    | none => exact rfl
    | some b =>
      obtain ⟨P, hP, fP⟩ := hp p rfl
      obtain ⟨B, hB, fB⟩ := hb b rfl
      simp only [hP, hB]
      rw [if_neg (by omega)]
      by_cases hi : p.block = b ∧ p.off + C.sizeAt P.data p.off ≤ B.size
      · rw [if_pos hi]
        refine ⟨rfl, Or.inr ⟨b, p.off, ?_⟩⟩
        rw [← hi.1]
      · rw [if_neg hi]
        exact rfl

/-- The check succeeds again as long as contents, size and hand-backs of the block are the same. -/
theorem check_again {w w' : World α} {h : Ro} {u : Unit} {v : World α} (hc : check C w h = .ok v u) (hb : w'.buf = w.buf) :
    check C w' h = .ok w' () := by
  obtain ⟨pi, bo⟩ := h
  unfold check at hc ⊢
  cases pi with
  | none =>
    cases bo with
    | none => rfl
    | some b => cases hc
  | some p =>
    cases bo with
    | none => cases hc
    | some b =>
      simp only [hb] at hc ⊢
      cases hP : w.buf p.block with
      | none => rw [hP] at hc; cases hc
      | some P =>
        cases hB : w.buf b with
        | none => rw [hP, hB] at hc; cases hc
        | some B =>
          rw [hP, hB] at hc
          simp only at hc ⊢
          by_cases hf : P.freed ≠ 0 ∨ B.freed ≠ 0
          · rw [if_pos hf] at hc; cases hc
          · rw [if_neg hf] at hc ⊢
            by_cases hi : p.block = b ∧ p.off + C.sizeAt P.data p.off ≤ B.size
            · rw [if_pos hi]
            · rw [if_neg hi] at hc; cases hc

section
variable {n : Nat} {w : World α} {e : Nat → Nat}

theorem Inv.ro_alive (h : Inv n w e) {x b : Nat} (hb : (w.ro x).hb = some b) : x < n ∧ 0 < refs n w b + e b ∧ Alive w b := by
  have hx : x < n := by
    by_contra hh
    rw [h.roOut x (by omega)] at hb
    cases hb
  have h1 := ro_le_refs (w := w) hx b
  rw [hb, tok_self] at h1
  obtain ⟨B, hB, hf, _⟩ := h.alive (b := b) (by omega)
  exact ⟨hx, by omega, B, hB, hf⟩

theorem Inv.rw_alive (h : Inv n w e) {x b : Nat} (hb : w.rw x = some b) : x < n ∧ 0 < refs n w b + e b ∧ Alive w b := by
  have hx : x < n := by
    by_contra hh
    rw [h.rwOut x (by omega)] at hb
    cases hb
  have h1 := rw_le_refs (w := w) hx b
  rw [hb, tok_self] at h1
  obtain ⟨B, hB, hf, _⟩ := h.alive (b := b) (by omega)
  exact ⟨hx, by omega, B, hB, hf⟩

theorem Inv.check_var (h : Inv n w e) (y : Nat) :
    Post (check C w (w.ro y)) (fun w' _ => w' = w ∧ Fits (w.ro y)) (fun w' => w' = w) := by
  refine check_post ?_ ?_
  · intro p hp
    rcases h.match_ y with e1 | ⟨b, o, e1⟩
    · rw [e1] at hp; cases hp
    · rw [e1] at hp
      have := Option.some.inj hp
      rw [← this]
      exact (h.ro_alive (x := y) (b := b) (by rw [e1])).2.2
  · intro b hb
    exact (h.ro_alive hb).2.2

theorem Fits.block {h : Ro} (hf : Fits h) {b : Nat} (hb : h.hb = some b) : ∃ o, h.pimpl = some ⟨b, o⟩ := by
  rcases hf with e1 | ⟨c, o, e1⟩
  · rw [e1] at hb; cases hb
  · rw [e1] at hb ⊢
    rw [Option.some.inj hb]
    exact ⟨o, rfl⟩

/-- What every operation on read-only handles that adds a reference relies on. -/
theorem roCtor_post (h : Inv n w none') (hn : 2 * n + 1 < 2147483646) {r : Ro} (hp : ∀ p, r.pimpl = some p → Alive w p.block)
    (hb : ∀ b, r.hb = some b → 0 < refs n w b ∧ ∀ B, w.buf b = some B → B.tag ≠ 0) :
    Post (roCtor C w r) (fun w' r' => r' = r ∧ Fits r ∧ Inv n w' (tok r.hb) ∧ Quiet none w w' ∧ SameVars w w')
      (fun w' => w' = w) := by
  refine Post.bind (check_post hp (fun b hb' => ?_)) ?_
  · obtain ⟨B, hB, hf, _⟩ := h.alive (b := b) (by have := (hb b hb').1; omega)
    exact ⟨B, hB, hf⟩
  · rintro w' _ ⟨rfl, hfit⟩
    refine Post.bind (Post.imp (addRef_post h r.hb (e' := tok r.hb) ?_ ?_ ?_) (fun _ _ h => h) (fun _ h => h.elim)) ?_
    · intro b hb'
      exact ⟨by have := (hb b hb').1; omega, (hb b hb').2⟩
    · intro b
      have h1 := refs_le n w' b
      have h2 := tok_le r.hb b
      omega
    · intro b
      exact (Nat.zero_add _).symm
    · rintro w'' _ ⟨hi, hq, hv⟩
      exact ⟨rfl, hfit, hi, hq, hv⟩

theorem Inv.decl (h : Inv n w e) {x : Nat} (hx : x < n) (h0 : w.ro x = .hollow) {r : Ro} (hf : Fits r) (he : ∀ b, e b = tok r.hb b)
    (hc : ∀ b B, r.hb = some b → w.buf b = some B → B.tag ≠ 0) : Inv n (w.setRo x r) none' := by
  refine h.setRo hx r hf hc ?_
  intro b
  rw [h0, he b]
  show 0 + tok r.hb b = tok r.hb b + tok none b
  rw [tok_none]; omega

theorem Inv.declRw (h : Inv n w e) {x : Nat} (hx : x < n) (h0 : w.rw x = none) {b : Nat} (he : ∀ c, e c = tok (some b) c) :
    Inv n (w.setRw x (some b)) none' := by
  refine h.setRw hx (some b) ?_
  intro c
  rw [h0, he c, tok_none]
  show 0 + _ = _
  omega

theorem roPurge_post (h : Inv n w e) {x : Nat} (hx : x < n) :
    Post (roPurge w x) (fun w' _ => Inv n w' e ∧ Quiet none w w' ∧ w'.ro = upd w.ro x .hollow ∧ w'.rw = w.rw) (fun _ => False) := by
  -- the reference of the variable is handed over to `detach`
  have h1 : Inv n (w.setRo x .hollow) (fun b => e b + tok (w.ro x).hb b) := by
    refine h.setRo hx .hollow (Or.inl rfl) (fun b B hb => by cases hb) ?_
    intro b
    show _ + tok none b = _
    rw [tok_none]; omega
  have h2 := detach_post h1 (w.ro x).hb (e' := e) ?_ (fun _ => rfl)
  · unfold roPurge
    cases hb : (w.ro x).hb with
    | none =>
      rw [hb] at h2
      exact ⟨h2.1, quiet_setRo _ _ _ _, rfl, rfl⟩
    | some b =>
      rw [hb] at h2
      obtain ⟨_, _, B, hB, hf⟩ := h.ro_alive hb
      unfold detach at h2 ⊢
      have hB' : (w.setRo x .hollow).buf b = some B := hB
      simp only [hB] 
      simp only [hB'] at h2
      rw [if_neg (by rw [hf]; exact fun h => h rfl)] at h2 ⊢
      by_cases hc : B.cnt = 1
      · rw [if_neg (fun h => h hc)] at h2 ⊢
        exact ⟨h2.1, ⟨h2.2.1.1, h2.2.1.2⟩, rfl, rfl⟩
      · rw [if_pos hc] at h2 ⊢
        by_cases hw : wrap (B.cnt - 1) > 0
        · rw [if_pos hw] at h2 ⊢
          exact ⟨h2.1, ⟨h2.2.1.1, h2.2.1.2⟩, rfl, rfl⟩
        · rw [if_neg hw] at h2 ⊢
          exact ⟨h2.1, ⟨h2.2.1.1, h2.2.1.2⟩, rfl, rfl⟩
  · intro b hb B hB
    exact h.counted x b B hb hB

theorem rwPurge_post (h : Inv n w e) {x : Nat} (hx : x < n) :
    Post (rwPurge w x) (fun w' _ => Inv n w' e ∧ Quiet none w w' ∧ w'.rw = upd w.rw x none ∧ w'.ro = w.ro) (fun _ => False) := by
  have h1 : Inv n (w.setRw x none) (fun b => e b + tok (w.rw x) b) := by
    refine h.setRw hx none ?_
    intro b
    rw [tok_none]; omega
  have h2 := destroyRw_post h1 (w.rw x) (e' := e) (fun _ => rfl)
  unfold rwPurge
  cases hb : w.rw x with
  | none =>
    rw [hb] at h2
    exact ⟨h2.1, quiet_setRw _ _ _ _, rfl, rfl⟩
  | some b =>
    rw [hb] at h2
    obtain ⟨_, _, B, hB, hf⟩ := h.rw_alive hb
    have hB' : (w.setRw x none).buf b = some B := hB
    unfold destroyRw at h2 ⊢
    simp only [hB]
    simp only [hB'] at h2
    by_cases ht : B.tag = 0
    · rw [if_neg (fun h => h ht), if_neg (by rw [hf]; exact fun h => h rfl)] at h2 ⊢
      exact ⟨h2.1, ⟨h2.2.1.1, h2.2.1.2⟩, rfl, rfl⟩
    · rw [if_pos ht] at h2 ⊢
      unfold detach at h2 ⊢
      simp only [hB]
      simp only [hB'] at h2
      rw [if_neg (by rw [hf]; exact fun h => h rfl)] at h2 ⊢
      by_cases hc : B.cnt = 1
      · rw [if_neg (fun h => h hc)] at h2 ⊢
        exact ⟨h2.1, ⟨h2.2.1.1, h2.2.1.2⟩, rfl, rfl⟩
      · rw [if_pos hc] at h2 ⊢
        by_cases hw : wrap (B.cnt - 1) > 0
        · rw [if_pos hw] at h2 ⊢
          exact ⟨h2.1, ⟨h2.2.1.1, h2.2.1.2⟩, rfl, rfl⟩
        · rw [if_neg hw] at h2 ⊢
          exact ⟨h2.1, ⟨h2.2.1.1, h2.2.1.2⟩, rfl, rfl⟩
end

/-! ### The operations -/
section
variable {n : Nat} {w : World α}

theorem Quiet.counted {w w' : World α} (h : Quiet none w w') {b : Nat} (hc : ∀ B, w.buf b = some B → B.tag ≠ 0)
    (hb : ∃ B, w.buf b = some B) : ∀ B, w'.buf b = some B → B.tag ≠ 0 := by
  obtain ⟨B, hB⟩ := hb
  obtain ⟨B', hB', _, _, ht⟩ := h.2 b B hB (fun e => by cases e)
  intro D hD
  rw [hB'] at hD
  rw [← Option.some.inj hD, ht]
  exact hc B hB

/-- A new read-only variable: what it refers to, what the other variables refer to. -/
structure NewRo (w w' : World α) (x : Nat) (r : Ro) : Prop where
  ro : w'.ro = upd w.ro x r
  rw : w'.rw = w.rw
  from_ : ∀ b, r.hb = some b → b = w.next ∨ ∃ y, (w.ro y).hb = some b

theorem declRo_ctor (h : Inv n w none') (hn : 2 * n + 1 < 2147483646) {x : Nat} (hx : x < n) (h0 : w.ro x = .hollow) {r : Ro}
    (hp : ∀ p, r.pimpl = some p → Alive w p.block)
    (hb : ∀ b, r.hb = some b → 0 < refs n w b ∧ ∀ B, w.buf b = some B → B.tag ≠ 0) :
    Post (declRo x (roCtor C w r)) (fun w' _ => Inv n w' none' ∧ Quiet none w w' ∧ Fits r ∧ w'.ro = upd w.ro x r ∧ w'.rw = w.rw)
      (fun w' => w' = w) := by
  refine Post.bind (roCtor_post h hn hp hb) ?_
  rintro w' _ ⟨rfl, hf, hi, hq, hv⟩
  refine ⟨?_, hq.trans (quiet_setRo _ _ _ _), hf, ?_, hv.2⟩
  · refine hi.decl hx (by rw [hv.1]; exact h0) hf (fun _ => rfl) ?_
    intro b B hb'
    obtain ⟨D, hD, _⟩ := h.alive (b := b) (by have := (hb b hb').1; omega)
    exact hq.counted (hb b hb').2 ⟨D, hD⟩ B
  · show upd w'.ro x _ = _
    rw [hv.1]

theorem Inv.ro_ptr (h : Inv n w none') {y : Nat} : (∀ p, (w.ro y).pimpl = some p → Alive w p.block) ∧
    (∀ b, (w.ro y).hb = some b → 0 < refs n w b ∧ ∀ B, w.buf b = some B → B.tag ≠ 0) := by
  constructor
  · intro p hp
    rcases h.match_ y with e1 | ⟨b, o, e1⟩
    · rw [e1] at hp; cases hp
    · rw [e1] at hp
      have := Option.some.inj hp
      rw [← this]
      exact (h.ro_alive (x := y) (b := b) (by rw [e1])).2.2
  · intro b hb
    exact ⟨(h.ro_alive hb).2.1, fun B hB => h.counted y b B hb hB⟩

theorem roAssign_post (h : Inv n w none') (hn : 2 * n + 1 < 2147483646) {x y : Nat} (hx : x < n) :
    Post (roAssign C w x y) (fun w' _ => Inv n w' none' ∧ Quiet none w w' ∧ w'.ro = upd w.ro x (w.ro y) ∧ w'.rw = w.rw)
      (fun w' => w' = w) := by
  refine Post.bind (h.check_var y) ?_
  rintro w' _ ⟨rfl, hf⟩
  by_cases hne : (w'.ro x).hb = (w'.ro y).hb
  · rw [if_neg (fun hh => hh hne)]
    have e1 : ({ w'.ro x with pimpl := (w'.ro y).pimpl } : Ro) = w'.ro y := by
      show (⟨(w'.ro y).pimpl, (w'.ro x).hb⟩ : Ro) = w'.ro y
      rw [hne]
    rw [e1]
    refine ⟨h.setRo hx _ hf (fun b B hb hB => h.counted y b B hb hB) (fun b => by rw [hne]), quiet_setRo _ _ _ _, rfl, rfl⟩
  · rw [if_pos hne]
    have hxy : y ≠ x := fun hh => hne (by rw [hh])
    refine Post.bind (Post.imp (roPurge_post h hx) (fun _ _ h => h) (fun _ h => h.elim)) ?_
    rintro v _ ⟨hi, hq, hro, hrw⟩
    have hy : v.ro y = w'.ro y := by rw [hro, upd_ne _ _ hxy]
    have hvx : v.ro x = .hollow := by rw [hro, upd_self]
    refine Post.bind (Post.imp (addRef_post hi (v.ro y).hb (e' := tok (v.ro y).hb) ?_ ?_ ?_) (fun _ _ h => h) (fun _ h => h.elim)) ?_
    · intro b hb
      exact ⟨(hi.ro_alive hb).2.1, fun B hB => hi.counted y b B hb hB⟩
    · intro b
      have h1 := refs_le n v b
      have h2 := tok_le (v.ro y).hb b
      omega
    · intro b
      exact (Nat.zero_add _).symm
    · rintro u _ ⟨hu, hqu, hvu⟩
      have huy : u.ro y = w'.ro y := by rw [hvu.1]; exact hy
      have hux : u.ro x = .hollow := by rw [hvu.1]; exact hvx
      have e1 : ((u.setRo x { u.ro x with hb := (u.ro y).hb }).setRo x
          { (u.setRo x { u.ro x with hb := (u.ro y).hb }).ro x with
            pimpl := ((u.setRo x { u.ro x with hb := (u.ro y).hb }).ro y).pimpl }) = u.setRo x (w'.ro y) := by
        have a1 : (u.setRo x { u.ro x with hb := (u.ro y).hb }).ro x = { u.ro x with hb := (u.ro y).hb } := upd_self _ _ _
        have a2 : (u.setRo x { u.ro x with hb := (u.ro y).hb }).ro y = u.ro y := upd_ne _ _ hxy
        rw [a1, a2, huy]
        show { u with ro := upd (upd u.ro x _) x _ } = { u with ro := upd u.ro x _ }
        congr 1
        funext z
        by_cases hz : z = x
        · rw [hz, upd_self, upd_self]
        · rw [upd_ne _ _ hz, upd_ne _ _ hz, upd_ne _ _ hz]
      show Post (Out.ok _ ()) _ _
      rw [e1]
      refine ⟨?_, hq.trans (hqu.trans (quiet_setRo _ _ _ _)), ?_, ?_⟩
      · refine hu.decl hx hux hf (fun b => by rw [hy]) ?_
        intro b B hb hB
        rw [← huy] at hb
        exact hu.counted y b B hb hB
      · show upd u.ro x _ = _
        rw [hvu.1, hro]
        funext z
        by_cases hz : z = x
        · rw [hz, upd_self, upd_self]
        · rw [upd_ne _ _ hz, upd_ne _ _ hz, upd_ne _ _ hz]
      · show u.rw = _
        rw [hvu.2, hrw]

theorem roMove_post (h : Inv n w none') {x y : Nat} (hx : x < n) (hy : y < n) :
    Post (roMove C w x y)
      (fun w' _ => Inv n w' none' ∧ Quiet none w w' ∧ w'.ro = upd (upd w.ro x (w.ro y)) y .hollow ∧ w'.rw = w.rw)
      (fun w' => w' = w) := by
  refine Post.bind (h.check_var y) ?_
  rintro w' _ ⟨rfl, hf⟩
  refine Post.bind (Post.imp (roPurge_post h hx) (fun _ _ h => h) (fun _ h => h.elim)) ?_
  rintro v _ ⟨hi, hq, hro, hrw⟩
  have hvx : v.ro x = .hollow := by rw [hro, upd_self]
  have h1 : Inv n (v.setRo y .hollow) (fun b => tok (v.ro y).hb b) := by
    refine hi.setRo hy .hollow (Or.inl rfl) (fun b B hb => by cases hb) (fun b => ?_)
    show _ + tok none b = 0 + _
    rw [tok_none]; omega
  have hfy : Fits (v.ro y) := hi.match_ y
  have h2 : Inv n ((v.setRo y .hollow).setRo x (v.ro y)) none' := by
    refine h1.decl hx ?_ hfy (fun _ => rfl) (fun b B hb hB => hi.counted y b B hb hB)
    show upd v.ro y _ x = _
    by_cases hxy : x = y
    · rw [hxy, upd_self]
    · rw [upd_ne _ _ hxy]; exact hvx
  have e1 : (v.setRo x (v.ro y)).setRo y .hollow = (v.setRo y .hollow).setRo x (if x = y then .hollow else v.ro y) := by
    show { v with ro := upd (upd v.ro x _) y _ } = { v with ro := upd (upd v.ro y _) x _ }
    congr 1
    funext z
    by_cases hz : z = x
    · rw [hz, upd_self]
      by_cases hxy : x = y
      · rw [if_pos hxy, hxy, upd_self]
      · rw [if_neg hxy, upd_ne _ _ hxy, upd_self]
    · rw [upd_ne (upd v.ro y _) _ hz]
      by_cases hzy : z = y
      · rw [hzy, upd_self, upd_self]
      · rw [upd_ne _ _ hzy, upd_ne _ _ hz, upd_ne _ _ hzy]
  show Post (Out.ok _ ()) _ _
  refine ⟨?_, hq.trans ((quiet_setRo _ _ _ _).trans (quiet_setRo _ _ _ _)), ?_, hrw⟩
  · rw [e1]
    by_cases hxy : x = y
    · rw [if_pos hxy]
      have : v.ro y = .hollow := by rw [← hxy]; exact hvx
      rw [this] at h2
      exact h2
    · rw [if_neg hxy]; exact h2
  · show upd (upd v.ro x (v.ro y)) y _ = _
    funext z
    by_cases hzy : z = y
    · rw [hzy, upd_self, upd_self]
    · rw [upd_ne _ _ hzy, upd_ne _ _ hzy]
      by_cases hz : z = x
      · rw [hz, upd_self, upd_self, hro, upd_ne]
        rw [← hz]; exact fun hh => hzy hh.symm
      · rw [upd_ne _ _ hz, upd_ne _ _ hz, hro, upd_ne _ _ hz]

theorem roMoveCtor_post (h : Inv n w none') {x y : Nat} (hx : x < n) (hy : y < n) (h0 : w.ro x = .hollow) :
    Post (declRo x (roMoveCtor C w y))
      (fun w' _ => Inv n w' none' ∧ Quiet none w w' ∧ w'.ro = upd (upd w.ro y .hollow) x (w.ro y) ∧ w'.rw = w.rw)
      (fun w' => w' = w) := by
  unfold declRo
  have hc := h.check_var (C := C) y
  unfold roMoveCtor
  cases hk : check C w (w.ro y) with
  | threw e v => rw [hk] at hc; exact hc
  | ub => rw [hk] at hc; exact hc
  | terminate => trivial
  | ok v u =>
    rw [hk] at hc
    obtain ⟨rfl, hf⟩ := hc
    refine ⟨?_, (quiet_setRo _ _ _ _).trans (quiet_setRo _ _ _ _), rfl, rfl⟩
    have h1 : Inv n (v.setRo y .hollow) (fun b => tok (v.ro y).hb b) := by
      refine h.setRo hy .hollow (Or.inl rfl) (fun b B hb => by cases hb) (fun b => ?_)
      show _ + tok none b = 0 + _
      rw [tok_none]; omega
    refine h1.decl hx ?_ hf (fun _ => rfl) (fun b B hb hB => h.counted y b B hb hB)
    show upd v.ro y _ x = _
    by_cases hxy : x = y
    · rw [hxy, upd_self]
    · rw [upd_ne _ _ hxy]; exact h0

end

end Fptu.Owner
