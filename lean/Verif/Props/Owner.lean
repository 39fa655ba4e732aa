import Verif.Lemmas.OwnerStep
/-! # C77: the handles of a program own their buffers -/
namespace Fptu.Props
open Fptu.Owner Finset
open Fptu.Buffer (upd wrap tagTest flagReadonly)

variable {α : Type}

/-- What a program has to obey: a declaration introduces a variable that holds nothing, a tuple is only asked for fields or
changed through a handle that is not hollow, a weak handle points into a block that was not handed back. All variables are among
the first `n`. -/
def Legal (n : Nat) (w : World α) : Cmd α → Prop
  | .rwNew x _ _ => x < n ∧ w.rw x = none
  | .rwMoveCtor x y => x < n ∧ y < n ∧ w.rw x = none
  | .rwMove x y => x < n ∧ y < n
  | .rwSwap x y => x < n ∧ y < n
  | .rwPurge x => x < n
  | .rwOfRo x y _ => x < n ∧ y < n ∧ w.rw x = none
  | .rwManagedOfRo x y _ => x < n ∧ y < n ∧ w.rw x = none
  | .rwAssignRo x y _ => x < n ∧ y < n
  | .write x _ => w.rw x ≠ none
  | .grow x _ => w.rw x ≠ none
  | .roCopy x y => x < n ∧ y < n ∧ w.ro x = .hollow
  | .roMoveCtor x y => x < n ∧ y < n ∧ w.ro x = .hollow
  | .roOfRw x y => x < n ∧ w.ro x = .hollow ∧ w.rw y ≠ none
  | .roAssign x y => x < n ∧ y < n
  | .roMove x y => x < n ∧ y < n
  | .roAssignRw x y => x < n ∧ w.rw y ≠ none
  | .roSwap x y => x < n ∧ y < n
  | .roPurge x => x < n
  | .nestedRo x y _ => x < n ∧ w.ro x = .hollow ∧ w.ro y ≠ .hollow
  | .nestedRw x y _ => x < n ∧ w.ro x = .hollow ∧ w.rw y ≠ none
  | .adopt x p y => x < n ∧ y < n ∧ w.ro x = .hollow ∧ ∀ q, p = some q → ∃ B, w.buf q.block = some B ∧ B.freed = 0
  | .roClone x y _ _ _ _ => x < n ∧ y < n ∧ w.ro x = .hollow

/-- Worlds that arise when a program using commands `P` only is executed from its start, catching exceptions. -/
inductive Arises (C : Contents α) (n : Nat) (P : Cmd α → Prop) : World α → Prop
  | start : Arises C n P .empty
  | done {w w' : World α} {c : Cmd α} {u : Unit} (h : Arises C n P w) (hl : Legal n w c) (hp : P c)
      (hs : step C w c = .ok w' u) : Arises C n P w'
  | caught {w w' : World α} {c : Cmd α} {e : Err} (h : Arises C n P w) (hl : Legal n w c) (hp : P c)
      (hs : step C w c = .threw e w') : Arises C n P w'

/-- Fewer variables than the counter can count. -/
def Few (n : Nat) : Prop := 2 * n + 1 < 2147483646

/-- Any command. -/
def anyCmd (_ : Cmd α) : Prop := True

/-- Not `get_nested_managed` of a modifiable tuple. -/
def calm : Cmd α → Prop
  | .nestedRw .. => False
  | _ => True

/-- The number of variables of the program that refer to block `b`. -/
def owners (n : Nat) (w : World α) (b : Nat) : Nat :=
  ((range n).filter fun x => (w.ro x).hb = some b).card + ((range n).filter fun x => w.rw x = some b).card

theorem refs_owners (n : Nat) (w : World α) (b : Nat) : refs n w b = owners n w b := by
  unfold refs owners tok
  rw [card_filter, card_filter]

/-- A modifiable tuple shares its block with no other handle. -/
def Alone (w : World α) : Prop :=
  (∀ x y b, w.rw x = some b → w.rw y = some b → x = y) ∧ ∀ x y b, w.rw x = some b → (w.ro y).hb ≠ some b

/-- The block whose contents a command may change. -/
def touched (w : World α) : Cmd α → Option Nat
  | .write x _ | .grow x _ => w.rw x
  | .roOfRw _ y | .roAssignRw _ y => w.rw y
  | _ => none

theorem alone_ro {w w' : World α} (h : Alone w) (hw : w'.rw = w.rw) (hr : ∀ z b, (w'.ro z).hb = some b → (∃ y, (w.ro y).hb = some b) ∨
    ∀ x, w.rw x ≠ some b) : Alone w' := by
  refine ⟨by rw [hw]; exact h.1, fun x y b hx hy => ?_⟩
  rw [hw] at hx
  rcases hr y b hy with ⟨z, hz⟩ | hn
  · exact h.2 x z b hx hz
  · exact hn x hx

theorem hb_upd {f : Nat → Ro} {x z b : Nat} {r : Ro} (h : (upd f x r z).hb = some b) : r.hb = some b ∨ (f z).hb = some b := by
  by_cases hz : z = x
  · rw [hz, upd_self] at h; exact Or.inl h
  · rw [upd_ne _ _ hz] at h; exact Or.inr h

theorem rw_lt {n : Nat} {w : World α} (h : Inv n w none') (x : Nat) : w.rw x ≠ some w.next := by
  intro hx
  have := h.rw_alive hx
  have := h.owned w.next (by omega)
  omega

/-- A modifiable tuple in a block of its own. -/
theorem alone_rw {n : Nat} {w w' : World α} {x y b : Nat} (hi : Inv n w none') (h : Alone w) (hb : FromRo w n y b)
    (hw : w'.rw = upd w.rw x (some b)) (hr : w'.ro = upd w.ro y .hollow) : Alone w' := by
  have hfree : ∀ z, w.rw z ≠ some b := by
    intro z hz
    rcases hb with rfl | ⟨hyb, _⟩
    · exact rw_lt hi z hz
    · exact h.2 z y b hz hyb
  have hro : ∀ z, (w'.ro z).hb ≠ some b := by
    intro z hz
    rw [hr] at hz
    by_cases hzy : z = y
    · rw [hzy, upd_self] at hz; cases hz
    · rw [upd_ne _ _ hzy] at hz
      rcases hb with rfl | ⟨hyb, hone⟩
      · have := hi.owned _ (hi.ro_alive hz).2.1
        omega
      · have hyn := (hi.ro_alive hyb).1
        have hzn := (hi.ro_alive hz).1
        -- two different variables refer to a block with one reference
        have h2 : 2 ≤ ∑ u ∈ range n, tok (w.ro u).hb b := by
          rw [← add_sum_erase (range n) (fun u => tok (w.ro u).hb b) (mem_range.2 hyn)]
          have : z ∈ (range n).erase y := mem_erase.2 ⟨hzy, mem_range.2 hzn⟩
          rw [← add_sum_erase _ (fun u => tok (w.ro u).hb b) this]
          simp only [hyb, hz, tok_self]
          omega
        unfold refs at hone
        omega
  refine ⟨fun p q c hp hq => ?_, fun p q c hp hq => ?_⟩
  · rw [hw] at hp hq
    by_cases hpx : p = x
    · by_cases hqx : q = x
      · rw [hpx, hqx]
      · rw [hpx, upd_self] at hp
        rw [upd_ne _ _ hqx, ← Option.some.inj hp] at hq
        exact absurd hq (hfree q)
    · rw [upd_ne _ _ hpx] at hp
      by_cases hqx : q = x
      · rw [hqx, upd_self] at hq
        rw [← Option.some.inj hq] at hp
        exact absurd hp (hfree p)
      · rw [upd_ne _ _ hqx] at hq
        exact h.1 p q c hp hq
  · rw [hw] at hp
    by_cases hpx : p = x
    · rw [hpx, upd_self] at hp
      rw [← Option.some.inj hp] at hq
      exact hro q hq
    · rw [upd_ne _ _ hpx] at hp
      rw [hr] at hq
      rcases hb_upd hq with hh | hh
      · cases hh
      · exact h.2 p q c hp hh

/-- What every command guarantees on success. -/
structure Good (n : Nat) (w w' : World α) (c : Cmd α) : Prop where
  inv : Inv n w' none'
  quiet : Quiet (touched w c) w w'
  alone : calm c → Alone w → Alone w'

/-- What every command guarantees when it throws. -/
structure Failed (n : Nat) (w w' : World α) (c : Cmd α) : Prop where
  inv : Inv n w' none'
  quiet : Quiet (touched w c) w w'
  same : SameVars w w'

theorem failed_same {n : Nat} {w w' : World α} {c : Cmd α} (h : Inv n w none') (e : w' = w) : Failed n w w' c := by
  subst e
  exact ⟨h, Quiet.refl _ _, rfl, rfl⟩

theorem upd_upd_ne {β : Type} {f : Nat → β} {x y z : Nat} {u v : β} (hx : z ≠ x) (hy : z ≠ y) : upd (upd f x u) y v z = f z := by
  rw [upd_ne _ _ hy, upd_ne _ _ hx]

/-- Ro variables take over references of ro variables. -/
theorem good_ro {n : Nat} {w w' : World α} {c : Cmd α} (hi : Inv n w' none') (hq : Quiet none w w') (hw : w'.rw = w.rw)
    (hr : ∀ z b, (w'.ro z).hb = some b → (∃ y, (w.ro y).hb = some b) ∨ ∀ x, w.rw x ≠ some b) : Good n w w' c :=
  ⟨hi, hq.weaken, fun _ ha => alone_ro ha hw hr⟩

/-- Rw variables take over references of rw variables. -/
theorem alone_perm {w w' : World α} (h : Alone w) (hr : w'.ro = w.ro) (f : Nat → Nat)
    (hf : ∀ z b, w'.rw z = some b → w.rw (f z) = some b) (hinj : ∀ p q b, w'.rw p = some b → w'.rw q = some b → f p = f q → p = q) :
    Alone w' := by
  refine ⟨fun p q b hp hq => hinj p q b hp hq (h.1 _ _ b (hf p b hp) (hf q b hq)), fun p q b hp hq => ?_⟩
  rw [hr] at hq
  exact h.2 _ q b (hf p b hp) hq

theorem alone_toRo {w w' : World α} {x y b : Nat} {o : Ptr} (ha : Alone w) (hb : w.rw y = some b)
    (hro : w'.ro = upd w.ro x ⟨some o, some b⟩) (hrw : w'.rw = upd w.rw y none) : Alone w' := by
  have hsub : ∀ z d, w'.rw z = some d → z ≠ y ∧ w.rw z = some d := by
    intro z d hz
    rw [hrw] at hz
    by_cases hzy : z = y
    · rw [hzy, upd_self] at hz; cases hz
    · rw [upd_ne _ _ hzy] at hz; exact ⟨hzy, hz⟩
  refine ⟨fun p q d hp hq => ha.1 p q d (hsub p d hp).2 (hsub q d hq).2, fun p q d hp hq => ?_⟩
  obtain ⟨hpy, hp⟩ := hsub p d hp
  rw [hro] at hq
  rcases hb_upd hq with hh | hh
  · rw [← Option.some.inj hh] at hp
    exact hpy (ha.1 p y b hp hb)
  · exact ha.2 p q d hp hh

theorem step_post {C : Contents α} {n : Nat} (hn : Few n) {w : World α} (h : Inv n w none') {c : Cmd α} (hl : Legal n w c) :
    Post (step C w c) (fun w' _ => Good n w w' c) (fun w' => Failed n w w' c) := by
  cases c with
  | rwNew x tag new =>
    show Post (declRw x (make w tag new)) _ _
    unfold declRw
    refine Post.bind (Post.imp (make_post h tag new) (fun _ _ h => h) ?_) ?_
    · rintro v ⟨h1, h2, h3⟩
      exact ⟨h1, h2, h3⟩
    · rintro v b ⟨rfl, _, hi, hq, hv⟩
      have hx : v.rw x = none := by rw [hv.2]; exact hl.2
      refine ⟨hi.declRw hl.1 hx (fun _ => Nat.zero_add _), hq.trans (quiet_setRw _ _ _ _), fun _ ha => ?_⟩
      refine alone_rw (y := n) (x := x) h ha (Or.inl rfl) ?_ ?_
      · show upd v.rw x _ = _
        rw [hv.2]
      · show v.ro = _
        rw [hv.1]
        funext z
        by_cases hz : z = n
        · rw [hz, upd_self]; exact h.roOut n (Nat.le_refl _)
        · rw [upd_ne _ _ hz]
  | rwMoveCtor x y =>
    refine ⟨rwMoveCtor_inv h hl.1 hl.2.1 hl.2.2, (quiet_setRw _ _ _ _).trans (quiet_setRw _ _ _ _), fun _ ha => ?_⟩
    have e1 : ((rwMoveCtor w y).1.setRw x (rwMoveCtor w y).2).rw = upd (upd w.rw y none) x (w.rw y) := rfl
    refine alone_perm ha rfl (fun z => if z = x then y else z) ?_ ?_
    · intro z b hz
      rw [e1] at hz
      by_cases hzx : z = x
      · rw [hzx, upd_self] at hz
        rw [if_pos hzx]; exact hz
      · rw [upd_ne _ _ hzx] at hz
        rw [if_neg hzx]
        by_cases hzy : z = y
        · rw [hzy, upd_self] at hz; cases hz
        · rw [upd_ne _ _ hzy] at hz; exact hz
    · intro p q b hp hq hpq
      rw [e1] at hp hq
      by_cases hpx : p = x
      · by_cases hqx : q = x
        · rw [hpx, hqx]
        · rw [if_pos hpx, if_neg hqx] at hpq
          rw [upd_ne _ _ hqx, ← hpq, upd_self] at hq
          cases hq
      · by_cases hqx : q = x
        · rw [if_neg hpx, if_pos hqx] at hpq
          rw [upd_ne _ _ hpx, hpq, upd_self] at hp
          cases hp
        · rw [if_neg hpx, if_neg hqx] at hpq
          exact hpq
  | rwMove x y =>
    refine Post.imp (rwMove_post h hl.1 hl.2) ?_ (fun _ h => False.elim h)
    rintro v _ ⟨hi, hq, hro, hrw⟩
    refine ⟨hi, hq, fun _ ha => ?_⟩
    by_cases hne : w.rw x = w.rw y
    · rw [if_neg (fun hh => hh hne)] at hrw
      exact ⟨by rw [hrw]; exact ha.1, by rw [hrw, hro]; exact ha.2⟩
    · rw [if_pos hne] at hrw
      refine alone_perm ha hro (fun z => if z = x then y else z) ?_ ?_
      · intro z b hz
        rw [hrw] at hz
        by_cases hzy : z = y
        · rw [hzy, upd_self] at hz; cases hz
        · rw [upd_ne _ _ hzy] at hz
          by_cases hzx : z = x
          · rw [hzx, upd_self] at hz
            rw [if_pos hzx]; exact hz
          · rw [upd_ne _ _ hzx] at hz
            rw [if_neg hzx]; exact hz
      · intro p q b hp hq hpq
        rw [hrw] at hp hq
        have hpy : p ≠ y := fun hh => by rw [hh, upd_self] at hp; cases hp
        have hqy : q ≠ y := fun hh => by rw [hh, upd_self] at hq; cases hq
        by_cases hpx : p = x
        · by_cases hqx : q = x
          · rw [hpx, hqx]
          · rw [if_pos hpx, if_neg hqx] at hpq
            exact absurd hpq.symm hqy
        · by_cases hqx : q = x
          · rw [if_neg hpx, if_pos hqx] at hpq
            exact absurd hpq hpy
          · rw [if_neg hpx, if_neg hqx] at hpq
            exact hpq
  | rwSwap x y =>
    refine ⟨rwSwap_inv h hl.1 hl.2, (quiet_setRw _ _ _ _).trans (quiet_setRw _ _ _ _), fun _ ha => ?_⟩
    have e1 : (rwSwap w x y).rw = upd (upd w.rw x (w.rw y)) y (w.rw x) := rfl
    have e2 : ∀ z, (rwSwap w x y).rw z = w.rw (if z = y then x else if z = x then y else z) := by
      intro z
      rw [e1]
      by_cases hzy : z = y
      · rw [hzy, upd_self, if_pos rfl]
      · rw [upd_ne _ _ hzy, if_neg hzy]
        by_cases hzx : z = x
        · rw [hzx, upd_self, if_pos rfl]
        · rw [upd_ne _ _ hzx, if_neg hzx]
    refine alone_perm ha rfl (fun z => if z = y then x else if z = x then y else z) ?_ ?_
    · intro z b hz
      rw [e2 z] at hz; exact hz
    · intro p q b hp hq hpq
      by_cases hpy : p = y
      · by_cases hqy : q = y
        · rw [hpy, hqy]
        · rw [if_pos hpy, if_neg hqy] at hpq
          by_cases hqx : q = x
          · rw [if_pos hqx] at hpq; rw [hpy, hqx]; exact hpq.symm
          · rw [if_neg hqx] at hpq; exact absurd hpq.symm hqx
      · rw [if_neg hpy] at hpq
        by_cases hqy : q = y
        · rw [if_pos hqy] at hpq
          by_cases hpx : p = x
          · rw [if_pos hpx] at hpq; rw [hpx, hqy]; exact hpq.symm
          · rw [if_neg hpx] at hpq; exact absurd hpq hpx
        · rw [if_neg hqy] at hpq
          by_cases hpx : p = x
          · by_cases hqx : q = x
            · rw [hpx, hqx]
            · rw [if_pos hpx, if_neg hqx] at hpq; exact absurd hpq.symm hqy
          · rw [if_neg hpx] at hpq
            by_cases hqx : q = x
            · rw [if_pos hqx] at hpq; exact absurd hpq hpy
            · rw [if_neg hqx] at hpq; exact hpq
  | rwPurge x =>
    refine Post.imp (rwPurge_post h hl) ?_ (fun _ h => False.elim h)
    rintro v _ ⟨hi, hq, hrw, hro⟩
    refine ⟨hi, hq, fun _ ha => alone_perm ha hro id ?_ (fun _ _ _ _ _ hh => hh)⟩
    intro z b hz
    rw [hrw] at hz
    by_cases hzx : z = x
    · rw [hzx, upd_self] at hz; cases hz
    · rw [upd_ne _ _ hzx] at hz; exact hz
  | rwOfRo x y new =>
    refine Post.imp (declRw_ofRo h hl.1 hl.2.1 hl.2.2 new) ?_ (fun v hv => ⟨hv.1, hv.2.1, hv.2.2⟩)
    rintro v _ ⟨hi, hq, ⟨b, hb, hrw⟩, hro⟩
    exact ⟨hi, hq, fun _ ha => alone_rw h ha hb hrw hro⟩
  | rwManagedOfRo x y new =>
    have := declRw_ofRo (C := C) h hl.1 hl.2.1 hl.2.2 new
    show Post (declRw x (rwManagedOfRo C w y new)) _ _
    unfold rwManagedOfRo
    cases hk : rwOfRo C w y new with
    | threw e v => trivial
    | terminate => trivial
    | ub => rw [hk] at this; exact this
    | ok v b =>
      rw [hk] at this
      obtain ⟨hi, hq, ⟨b, hb, hrw⟩, hro⟩ := this
      exact ⟨hi, hq, fun _ ha => alone_rw h ha hb hrw hro⟩
  | rwAssignRo x y new =>
    refine Post.imp (rwAssignRo_post h hl.1 hl.2 new) ?_ (fun v hv => ⟨hv.1, hv.2.1, hv.2.2⟩)
    rintro v _ ⟨hi, hq, ⟨b, hb, hrw⟩, hro⟩
    exact ⟨hi, hq, fun _ ha => alone_rw h ha hb hrw hro⟩
  | write x f =>
    cases hb : w.rw x with
    | none => exact absurd hb hl
    | some b =>
      refine Post.imp (write_post h hb f) ?_ (fun _ h => False.elim h)
      rintro v _ ⟨hi, hq, hv⟩
      refine ⟨hi, ?_, fun _ ha => ⟨by rw [hv.2]; exact ha.1, by rw [hv.1, hv.2]; exact ha.2⟩⟩
      show Quiet (w.rw x) w v
      rw [hb]; exact hq
  | grow x new =>
    cases hb : w.rw x with
    | none => exact absurd hb hl
    | some b =>
      have e1 : touched w (.grow x new) = some b := hb
      refine Post.imp (grow_post h hb new) ?_ (fun v hv => ⟨hv.1, by rw [e1]; exact hv.2.1, hv.2.2⟩)
      rintro v _ ⟨hi, hq, hro, d, hd, hrw⟩
      refine ⟨hi, by rw [e1]; exact hq, fun _ ha => ?_⟩
      rcases hd with rfl | rfl
      · have : v.rw = w.rw := by
          rw [hrw]
          funext z
          by_cases hz : z = x
          · rw [hz, upd_self, hb]
          · rw [upd_ne _ _ hz]
        exact ⟨by rw [this]; exact ha.1, by rw [this, hro]; exact ha.2⟩
      · refine alone_rw (y := n) (x := x) h ha (Or.inl rfl) hrw ?_
        rw [hro]
        funext z
        by_cases hz : z = n
        · rw [hz, upd_self]; exact h.roOut n (Nat.le_refl _)
        · rw [upd_ne _ _ hz]
  | roCopy x y =>
    refine Post.imp (declRo_ctor h hn hl.1 hl.2.2 h.ro_ptr.1 h.ro_ptr.2) ?_ (fun v hv => failed_same h hv)
    rintro v _ ⟨hi, hq, _, hro, hrw⟩
    refine good_ro hi hq hrw (fun z b hz => Or.inl ?_)
    rw [hro] at hz
    rcases hb_upd hz with hh | hh
    · exact ⟨y, hh⟩
    · exact ⟨z, hh⟩
  | roMoveCtor x y =>
    refine Post.imp (roMoveCtor_post h hl.1 hl.2.1 hl.2.2) ?_ (fun v hv => failed_same h hv)
    rintro v _ ⟨hi, hq, hro, hrw⟩
    refine good_ro hi hq hrw (fun z b hz => Or.inl ?_)
    rw [hro] at hz
    rcases hb_upd hz with hh | hh
    · exact ⟨y, hh⟩
    · rcases hb_upd hh with hh | hh
      · cases hh
      · exact ⟨z, hh⟩
  | roOfRw x y =>
    cases hb : w.rw y with
    | none => exact absurd hb hl.2.2
    | some b =>
      have e1 : touched w (.roOfRw x y) = some b := hb
      refine Post.imp (declRo_ofRw h hl.1 hl.2.1 hb) ?_ (fun v hv => ⟨hv.1, by rw [e1]; exact hv.2.1, hv.2.2⟩)
      rintro v _ ⟨hi, hq, ⟨B, hB, hro⟩, hrw⟩
      exact ⟨hi, by rw [e1]; exact hq, fun _ ha => alone_toRo ha hb hro hrw⟩
  | roAssign x y =>
    refine Post.imp (roAssign_post h hn hl.1) ?_ (fun v hv => failed_same h hv)
    rintro v _ ⟨hi, hq, hro, hrw⟩
    refine good_ro hi hq hrw (fun z b hz => Or.inl ?_)
    rw [hro] at hz
    rcases hb_upd hz with hh | hh
    · exact ⟨y, hh⟩
    · exact ⟨z, hh⟩
  | roMove x y =>
    refine Post.imp (roMove_post h hl.1 hl.2) ?_ (fun v hv => failed_same h hv)
    rintro v _ ⟨hi, hq, hro, hrw⟩
    refine good_ro hi hq hrw (fun z b hz => Or.inl ?_)
    rw [hro] at hz
    rcases hb_upd hz with hh | hh
    · cases hh
    · rcases hb_upd hh with hh | hh
      · exact ⟨y, hh⟩
      · exact ⟨z, hh⟩
  | roAssignRw x y =>
    cases hb : w.rw y with
    | none => exact absurd hb hl.2
    | some b =>
      have e1 : touched w (.roAssignRw x y) = some b := hb
      refine Post.imp (roAssignRw_post h hl.1 hb) ?_ (fun v hv => ⟨hv.1, by rw [e1]; exact hv.2.1, hv.2.2⟩)
      rintro v _ ⟨hi, hq, ⟨B, hB, hro⟩, hrw⟩
      exact ⟨hi, by rw [e1]; exact hq, fun _ ha => alone_toRo ha hb hro hrw⟩
  | roSwap x y =>
    refine good_ro (roSwap_inv h hl.1 hl.2) ((quiet_setRo _ _ _ _).trans (quiet_setRo _ _ _ _)) rfl (fun z b hz => Or.inl ?_)
    have hz : (upd (upd w.ro x (w.ro y)) y (w.ro x) z).hb = some b := hz
    rcases hb_upd hz with hh | hh
    · exact ⟨x, hh⟩
    · rcases hb_upd hh with hh | hh
      · exact ⟨y, hh⟩
      · exact ⟨z, hh⟩
  | roPurge x =>
    refine Post.imp (roPurge_post h hl) ?_ (fun _ h => False.elim h)
    rintro v _ ⟨hi, hq, hro, hrw⟩
    refine good_ro hi hq hrw (fun z b hz => Or.inl ?_)
    rw [hro] at hz
    rcases hb_upd hz with hh | hh
    · cases hh
    · exact ⟨z, hh⟩
  | nestedRo x y find =>
    refine Post.imp (nestedRo_post h hn hl.1 hl.2.1 hl.2.2 find) ?_ (fun v hv => failed_same h hv)
    rintro v _ ⟨hi, hq, ⟨r, hro, hrb⟩, hrw⟩
    refine good_ro hi hq hrw (fun z b hz => Or.inl ?_)
    rw [hro] at hz
    rcases hb_upd hz with hh | hh
    · exact ⟨y, by rw [← hrb]; exact hh⟩
    · exact ⟨z, hh⟩
  | nestedRw x y find =>
    cases hb : w.rw y with
    | none => exact absurd hb hl.2.2
    | some b =>
      refine Post.imp (nestedRw_post h hn hl.1 hl.2.1 hb find) ?_ (fun v hv => failed_same h hv)
      rintro v _ ⟨hi, hq, _, _⟩
      exact ⟨hi, hq, fun hc => False.elim hc⟩
  | adopt x p y =>
    refine Post.imp (adopt_post h hn hl.1 hl.2.2.1 hl.2.2.2) ?_ (fun v hv => failed_same h hv)
    rintro v _ ⟨hi, hq, ⟨r, hro, hrb⟩, hrw⟩
    refine good_ro hi hq hrw (fun z b hz => Or.inl ?_)
    rw [hro] at hz
    rcases hb_upd hz with hh | hh
    · rcases hrb with hrb | hrb
      · exact ⟨y, by rw [← hrb]; exact hh⟩
      · rw [hrb] at hh; cases hh
    · exact ⟨z, hh⟩
  | roClone x y given same tag new =>
    refine Post.imp (roClone_post h hn hl.1 hl.2.2 given same tag new) ?_ (fun v hv => ⟨hv.1, hv.2.1, hv.2.2⟩)
    rintro v _ ⟨hi, hq, ⟨r, hro, hrb⟩, hrw⟩
    refine good_ro hi hq hrw (fun z b hz => ?_)
    rw [hro] at hz
    rcases hb_upd hz with hh | hh
    · rcases hrb with rfl | rfl | ⟨o, rfl⟩
      · exact Or.inl ⟨y, hh⟩
      · cases hh
      · refine Or.inr (fun q hq => ?_)
        rw [← Option.some.inj hh] at hq
        exact rw_lt h q hq
    · exact Or.inl ⟨z, hh⟩

theorem inv_empty (n : Nat) : Inv n (World.empty : World α) none' := by
  have h0 : ∀ b, refs n (World.empty : World α) b = 0 := by
    intro b
    unfold refs
    have : ∀ x, tok ((World.empty : World α).ro x).hb b = 0 := fun _ => rfl
    have h2 : ∀ x, tok ((World.empty : World α).rw x) b = 0 := fun _ => rfl
    simp only [this, h2, sum_const_zero, Nat.add_zero]
  exact ⟨fun b => (by rw [h0]; show (0 + 0 : Nat) < _; omega), fun _ _ => rfl, fun _ _ => rfl, fun _ => Or.inl rfl, fun x b B h => (by cases h),
    fun b => ⟨fun ⟨B, h⟩ => (by cases h), fun h => absurd h (Nat.not_lt_zero b)⟩,
    fun b h => (by rw [h0] at h; exact absurd h (Nat.not_lt_zero 0)), fun b B h => (by cases h), fun b B h => (by cases h), fun b B h => (by cases h)⟩

theorem Arises.inv {C : Contents α} {n : Nat} (hn : Few n) {P : Cmd α → Prop} {w : World α} (h : Arises C n P w) : Inv n w none' := by
  induction h with
  | start => exact inv_empty n
  | done h hl hp hs ih =>
    have := step_post hn ih (C := C) hl
    rw [hs] at this
    exact this.inv
  | caught h hl hp hs ih =>
    have := step_post hn ih (C := C) hl
    rw [hs] at this
    exact this.inv

theorem Arises.alone {C : Contents α} {n : Nat} (hn : Few n) {w : World α} (h : Arises C n calm w) : Alone w := by
  induction h with
  | start => exact ⟨fun _ _ _ h => (by cases h), fun _ _ _ h => (by cases h)⟩
  | done h hl hp hs ih =>
    have := step_post hn (h.inv hn) (C := C) hl
    rw [hs] at this
    exact this.alone hp ih
  | caught h hl hp hs ih =>
    have := step_post hn (h.inv hn) (C := C) hl
    rw [hs] at this
    exact ⟨by rw [this.same.2]; exact ih.1, by rw [this.same.1, this.same.2]; exact ih.2⟩

/-! ## Every block is kept as long as somebody needs it, and no longer -/

/-- Whatever a program does with its handles: the counter of a block that was not handed back is the number of handles that refer
to it; a block is handed back when, and only when, no handle refers to it any more, and once; a handle that is not hollow points
into a block that was not handed back. -/
theorem C77_counts {C : Contents α} {n : Nat} (hn : Few n) {w : World α} (h : Arises C n anyCmd w) :
    (∀ b B, w.buf b = some B → B.freed = 0 → B.cnt = owners n w b) ∧
    (∀ b B, w.buf b = some B → (B.freed = 0 ↔ 0 < owners n w b) ∧ B.freed ≤ 1) ∧
    (∀ x b, w.rw x = some b → ∃ B, w.buf b = some B ∧ B.freed = 0) ∧
    (∀ x, w.ro x = .hollow ∨ ∃ b o B, w.ro x = ⟨some ⟨b, o⟩, some b⟩ ∧ w.buf b = some B ∧ B.freed = 0) := by
  have hi := h.inv hn
  refine ⟨fun b B hb hf => ?_, fun b B hb => ?_, fun x b hx => (hi.rw_alive hx).2.2, fun x => ?_⟩
  · rw [(hi.live b B hb hf).1, refs_owners]; rfl
  · have hl := hi.live b B hb
    have hd := hi.dead b B hb
    rw [refs_owners] at hl hd
    unfold none' at hl hd
    by_cases hf : B.freed = 0
    · exact ⟨⟨fun _ => (hl hf).2, fun _ => hf⟩, by omega⟩
    · have := hd hf
      exact ⟨⟨fun hh => absurd hh hf, fun hh => by omega⟩, by omega⟩
  · rcases hi.match_ x with e | ⟨b, o, e⟩
    · exact Or.inl e
    · obtain ⟨B, hB, hf⟩ := (hi.ro_alive (x := x) (b := b) (by rw [e])).2.2
      exact Or.inr ⟨b, o, B, e, hB, hf⟩

/-- No command of such a program touches memory that was handed back or violates an assertion. -/
theorem C77_no_ub {C : Contents α} {n : Nat} (hn : Few n) {w : World α} (h : Arises C n anyCmd w) {c : Cmd α} (hl : Legal n w c) :
    step C w c ≠ .ub := by
  intro hs
  have := step_post hn (h.inv hn) (C := C) hl
  rw [hs] at this
  exact this

/-- When every variable is destroyed, everything borrowed was handed back. -/
theorem C77_no_leak {C : Contents α} {n : Nat} (hn : Few n) {w : World α} (h : Arises C n anyCmd w)
    (hro : ∀ x, w.ro x = .hollow) (hrw : ∀ x, w.rw x = none) {b : Nat} {B : Buf α} (hb : w.buf b = some B) : B.freed = 1 := by
  have h0 : owners n w b = 0 := by
    unfold owners
    have e1 : (range n).filter (fun x => (w.ro x).hb = some b) = ∅ := filter_eq_empty_iff.2 fun x _ hh => by rw [hro x] at hh; cases hh
    have e2 : (range n).filter (fun x => w.rw x = some b) = ∅ := filter_eq_empty_iff.2 fun x _ hh => by rw [hrw x] at hh; cases hh
    rw [e1, e2]; rfl
  have := (C77_counts hn h).2.1 b B hb
  by_cases hf : B.freed = 0
  · have := this.1.1 hf; omega
  · omega

/-- A command that throws leaves all handles as they were; the blocks in use stay in use with the same counters, contents (those
of the tuple the command was to modify apart) and sizes; a block borrowed meanwhile was handed back. -/
theorem C77_failed {C : Contents α} {n : Nat} (hn : Few n) {w w' : World α} (h : Arises C n anyCmd w) {c : Cmd α} {e : Err}
    (hl : Legal n w c) (hs : step C w c = .threw e w') :
    w'.ro = w.ro ∧ w'.rw = w.rw ∧
    (∀ b B, w.buf b = some B → ∃ B', w'.buf b = some B' ∧ B'.freed = B.freed ∧ (B.freed = 0 → B'.cnt = B.cnt) ∧
      (touched w c ≠ some b → B'.data = B.data ∧ B'.size = B.size ∧ B'.tag = B.tag)) ∧
    ∀ b B', w.buf b = none → w'.buf b = some B' → B'.freed = 1 := by
  have hi := h.inv hn
  have hp := step_post hn hi (C := C) hl
  rw [hs] at hp
  have hi' := hp.inv
  have hr : ∀ b, refs n w' b = refs n w b := fun b => by unfold refs; rw [hp.same.1, hp.same.2]
  refine ⟨hp.same.1, hp.same.2, fun b B hb => ?_, fun b B' hb hb' => ?_⟩
  · obtain ⟨B', hB'⟩ := (hi'.born b).2 (Nat.lt_of_lt_of_le ((hi.born b).1 ⟨B, hb⟩) hp.quiet.1)
    have hl := hi.live b B hb
    have hd := hi.dead b B hb
    have hl' := hi'.live b B' hB'
    have hd' := hi'.dead b B' hB'
    rw [hr] at hl' hd'
    unfold none' at hl hd hl' hd'
    refine ⟨B', hB', ?_, fun hf => ?_, fun ht => ?_⟩
    · by_cases hf : B.freed = 0
      · by_cases hf' : B'.freed = 0
        · rw [hf, hf']
        · have := hl hf; have := hd' hf'; omega
      · by_cases hf' : B'.freed = 0
        · have := hd hf; have := hl' hf'; omega
        · have := hd hf; have := hd' hf'; omega
    · have hf' : B'.freed = 0 := by
        by_contra hh
        have := hl hf; have := hd' hh; omega
      rw [(hl' hf').1, (hl hf).1]
    · obtain ⟨B'', hB'', hh⟩ := hp.quiet.2 b B hb ht
      rw [hB'] at hB''
      rw [Option.some.inj hB'']; exact hh
  · by_contra hh
    have hl' := hi'.live b B' hb'
    have hd' := hi'.dead b B' hb'
    have hf : B'.freed = 0 := by
      by_contra hf
      exact hh (hd' hf).1
    have := (hl' hf).2
    rw [hr] at this
    obtain ⟨B, hB⟩ := (hi.born b).2 (hi.owned b this)
    rw [hb] at hB; cases hB

/-! ## What a managed read-only handle shows -/

/-- In programs that never ask a modifiable tuple for a managed handle to a nested one, a modifiable tuple is alone in its
block. -/
theorem C77_exclusive_partial {C : Contents α} {n : Nat} (hn : Few n) {w : World α} (h : Arises C n calm w) {x b : Nat}
    (hx : w.rw x = some b) : (∀ y, y ≠ x → w.rw y ≠ some b) ∧ (∀ y, (w.ro y).hb ≠ some b) ∧ owners n w b = 1 := by
  have ha := h.alone hn
  have hr : ∀ y, (w.ro y).hb ≠ some b := fun y => ha.2 x y b hx
  refine ⟨fun y hne hy => hne (ha.1 y x b hy hx), hr, ?_⟩
  unfold owners
  have e1 : (range n).filter (fun y => (w.ro y).hb = some b) = ∅ := filter_eq_empty_iff.2 fun y _ => hr y
  have e2 : (range n).filter (fun y => w.rw y = some b) = {x} := by
    ext y
    rw [mem_filter, mem_singleton, mem_range]
    constructor
    · rintro ⟨_, hy⟩; exact ha.1 y x b hy hx
    · rintro rfl; exact ⟨((h.inv hn).rw_alive hx).1, hx⟩
  rw [e1, e2]; rfl

/-- A piece of a program during which `Z` holds. -/
inductive During (C : Contents α) (n : Nat) (P : Cmd α → Prop) (Z : World α → Prop) : World α → World α → Prop
  | nil {w : World α} : During C n P Z w w
  | done {w v w' : World α} {c : Cmd α} {u : Unit} (hz : Z w) (hl : Legal n w c) (hp : P c) (hs : step C w c = .ok v u)
      (h : During C n P Z v w') : During C n P Z w w'
  | caught {w v w' : World α} {c : Cmd α} {e : Err} (hz : Z w) (hl : Legal n w c) (hp : P c) (hs : step C w c = .threw e v)
      (h : During C n P Z v w') : During C n P Z w w'

theorem touched_not {w : World α} (ha : Alone w) {c : Cmd α} {z b : Nat} (hz : (w.ro z).hb = some b) : touched w c ≠ some b := by
  intro ht
  cases c <;> first | cases ht | exact ha.2 _ z b ht hz

/-- What a managed read-only handle shows stays as it is for as long as some handle to it is kept, whatever else the program does
meanwhile with other handles to the same buffer or with modifiable tuples. Missing: programs that ask a modifiable tuple for a
managed handle to a nested one, see `C77_nested_refuted`. -/
theorem C77_readers_partial {C : Contents α} {n : Nat} (hn : Few n) {w w' : World α} (h : Arises C n calm w) {b : Nat} {B : Buf α}
    (hb : w.buf b = some B) (hd : During C n calm (fun v => ∃ z, (v.ro z).hb = some b) w w') :
    ∃ B', w'.buf b = some B' ∧ B'.data = B.data ∧ B'.size = B.size := by
  induction hd generalizing B with
  | nil => exact ⟨B, hb, rfl, rfl⟩
  | done hz hl hp hs _ ih =>
    obtain ⟨z, hz⟩ := hz
    have hpost := step_post hn (h.inv hn) (C := C) hl
    rw [hs] at hpost
    obtain ⟨B1, e1, e2, e3, _⟩ := hpost.quiet.2 b B hb (touched_not (h.alone hn) hz)
    obtain ⟨B', f1, f2, f3⟩ := ih (h.done hl hp hs) e1
    exact ⟨B', f1, f2.trans e2, f3.trans e3⟩
  | caught hz hl hp hs _ ih =>
    obtain ⟨z, hz⟩ := hz
    have hpost := step_post hn (h.inv hn) (C := C) hl
    rw [hs] at hpost
    obtain ⟨B1, e1, e2, e3, _⟩ := hpost.quiet.2 b B hb (touched_not (h.alone hn) hz)
    obtain ⟨B', f1, f2, f3⟩ := ih (h.caught hl hp hs) e1
    exact ⟨B', f1, f2.trans e2, f3.trans e3⟩

/-! ## What assignments, moves and conversions do -/

/-- Copying makes both variables show the same and changes nothing else, also when a variable is assigned to itself. -/
theorem C77_copy {C : Contents α} {n : Nat} (hn : Few n) {w w' : World α} (h : Arises C n anyCmd w) {x y : Nat} {u : Unit}
    (hl : Legal n w (.roAssign x y)) (hs : step C w (.roAssign x y) = .ok w' u) :
    w'.ro x = w.ro y ∧ (∀ z, z ≠ x → w'.ro z = w.ro z) ∧ w'.rw = w.rw := by
  have := roAssign_post (C := C) (y := y) (h.inv hn) hn hl.1
  have hs : roAssign C w x y = .ok w' u := hs
  rw [hs] at this
  obtain ⟨_, _, hro, hrw⟩ := this
  exact ⟨by rw [hro, upd_self], fun z hz => by rw [hro, upd_ne _ _ hz], hrw⟩

/-- Moving between two read-only variables: the target shows what the source showed, the source is hollow, nothing else changes. -/
theorem C77_move_partial {C : Contents α} {n : Nat} (hn : Few n) {w w' : World α} (h : Arises C n anyCmd w) {x y : Nat} {u : Unit}
    (hxy : x ≠ y) (hl : Legal n w (.roMove x y)) (hs : step C w (.roMove x y) = .ok w' u) :
    w'.ro x = w.ro y ∧ w'.ro y = .hollow ∧ (∀ z, z ≠ x → z ≠ y → w'.ro z = w.ro z) ∧ w'.rw = w.rw := by
  have := roMove_post (C := C) (h.inv hn) hl.1 hl.2
  have hs : roMove C w x y = .ok w' u := hs
  rw [hs] at this
  obtain ⟨_, _, hro, hrw⟩ := this
  exact ⟨by rw [hro, upd_ne _ _ hxy, upd_self], by rw [hro, upd_self], fun z h1 h2 => by rw [hro, upd_ne _ _ h2, upd_ne _ _ h1], hrw⟩

/-- A read-only variable moved to itself becomes hollow, and the tuple is gone if no other handle refers to it. -/
theorem C77_self_move {C : Contents α} {n : Nat} (hn : Few n) {w w' : World α} (h : Arises C n anyCmd w) {x b : Nat} {u : Unit}
    (hb : (w.ro x).hb = some b) (hl : Legal n w (.roMove x x)) (hs : step C w (.roMove x x) = .ok w' u) :
    w'.ro x = .hollow ∧ (owners n w b = 1 → ∃ B, w'.buf b = some B ∧ B.freed = 1) := by
  have hp := roMove_post (C := C) (h.inv hn) hl.1 hl.2
  have hs : roMove C w x x = .ok w' u := hs
  rw [hs] at hp
  obtain ⟨hi, hq, hro, hrw⟩ := hp
  have e1 : w'.ro x = .hollow := by rw [hro, upd_self]
  refine ⟨e1, fun h1 => ?_⟩
  obtain ⟨B, hB, _⟩ := ((h.inv hn).ro_alive hb).2.2
  obtain ⟨B', hB', _⟩ := hq.2 b B hB (fun hh => by cases hh)
  refine ⟨B', hB', ?_⟩
  have e2 : w'.ro = upd w.ro x .hollow := by
    rw [hro]
    funext z
    by_cases hz : z = x
    · rw [hz, upd_self, upd_self]
    · rw [upd_ne _ _ hz, upd_ne _ _ hz, upd_ne _ _ hz]
  have hr := refs_setRo (w := w) (h := .hollow) hl.1 b
  have e3 : refs n (w.setRo x .hollow) b = refs n w' b := by
    unfold refs World.setRo
    rw [e2, hrw]
  rw [hb, tok_self, e3, refs_owners n w, h1] at hr
  have hr : refs n w' b + 1 = 1 + 0 := hr
  by_contra hh
  by_cases hf : B'.freed = 0
  · have := (hi.live b B' hB' hf).2
    have h0 : none' b = 0 := rfl
    omega
  · exact hh (hi.dead b B' hB' hf).1

/-- Moving between two modifiable variables; moving one to itself changes nothing. -/
theorem C77_rw_move {C : Contents α} {n : Nat} (hn : Few n) {w w' : World α} (h : Arises C n calm w) {x y : Nat} {u : Unit}
    (hl : Legal n w (.rwMove x y)) (hs : step C w (.rwMove x y) = .ok w' u) :
    w'.rw x = w.rw y ∧ (x ≠ y → w'.rw y = none) ∧ (∀ z, z ≠ x → z ≠ y → w'.rw z = w.rw z) ∧ w'.ro = w.ro := by
  have hp := rwMove_post (h.inv hn) hl.1 hl.2
  have hs : rwMove w x y = .ok w' u := hs
  rw [hs] at hp
  obtain ⟨_, _, hro, hrw⟩ := hp
  by_cases he : w.rw x = w.rw y
  · rw [if_neg (fun hh => hh he)] at hrw
    refine ⟨by rw [hrw]; exact he, fun hxy => ?_, fun z _ _ => by rw [hrw], hro⟩
    rw [hrw]
    cases hy : w.rw y with
    | none => rfl
    | some b => exact absurd ((h.alone hn).1 x y b (he.trans hy) hy) hxy
  · rw [if_pos he] at hrw
    have hxy : x ≠ y := fun hh => he (by rw [hh])
    exact ⟨by rw [hrw, upd_ne _ _ hxy, upd_self], fun _ => by rw [hrw, upd_self],
      fun z h1 h2 => by rw [hrw, upd_ne _ _ h2, upd_ne _ _ h1], hro⟩

/-- Turning a read-only handle into a modifiable tuple: the new tuple shares its block with no other handle; the source becomes
hollow; no block that was there changes its contents. -/
theorem C77_to_rw {C : Contents α} {n : Nat} (hn : Few n) {w w' : World α} (h : Arises C n calm w) {x y : Nat} {new : New α} {u : Unit}
    (hl : Legal n w (.rwOfRo x y new)) (hs : step C w (.rwOfRo x y new) = .ok w' u) :
    (∃ b, w'.rw x = some b ∧ owners n w' b = 1 ∧ (w.ro y).hb.isSome = true ∧ (b ≠ w.next → (w.ro y).hb = some b)) ∧ w'.ro y = .hollow ∧
    ∀ b B, w.buf b = some B → ∃ B', w'.buf b = some B' ∧ B'.data = B.data := by
  have hd := h.done hl trivial hs
  have hp := declRw_ofRo (C := C) (h.inv hn) hl.1 hl.2.1 hl.2.2 new
  have hs' : declRw x (rwOfRo C w y new) = .ok w' u := hs
  rw [hs'] at hp
  obtain ⟨_, hq, ⟨b, hb, hrw⟩, hro⟩ := hp
  have hx : w'.rw x = some b := by rw [hrw, upd_self]
  refine ⟨⟨b, hx, (C77_exclusive_partial hn hd hx).2.2, ?_, fun hne => ?_⟩, by rw [hro, upd_self], fun c B hB => ?_⟩
  · rcases (h.inv hn).match_ y with e | ⟨c, o, e⟩
    · unfold rwOfRo at hs'
      rw [e] at hs'
      cases hs'
    · rw [e]; rfl
  · rcases hb with hb | hb
    · exact absurd hb hne
    · exact hb.1
  · obtain ⟨B', e, e1, _⟩ := hq.2 c B hB (fun hh => by cases hh)
    exact ⟨B', e, e1⟩

/-- If nobody else refers to the tuple, it lies in a modifiable form and the block is not of the read-only kind, the conversion
copies nothing: not a byte of memory changes. -/
theorem C77_in_place {C : Contents α} {n : Nat} (hn : Few n) {w : World α} (h : Arises C n anyCmd w) {x y b : Nat} {B : Buf α}
    (hb : w.buf b = some B) (hy : w.ro y = ⟨some ⟨b, C.place B.data⟩, some b⟩) (h1 : owners n w b = 1)
    (ht : tagTest B.tag flagReadonly = false) (new : New α) :
    step C w (.rwOfRo x y new) = .ok { w with ro := upd w.ro y .hollow, rw := upd w.rw x (some b) } () := by
  have hf : B.freed = 0 := by
    have := (C77_counts hn h).2.1 b B hb
    exact this.1.2 (by omega)
  have hc : B.cnt = 1 := by rw [(C77_counts hn h).1 b B hb hf, h1]; rfl
  show declRw x (rwOfRo C w y new) = _
  have ha : alterable B = true := by unfold alterable; rw [hc, ht]; rfl
  have hk : peekBasis C w (w.ro y) = some b := by
    unfold peekBasis
    simp only [hy, hb, if_true]
  unfold rwOfRo
  have hbb : (w.ro y).hb.bind w.buf = some B := by rw [hy]; exact hb
  rw [hbb]
  have hpi : (w.ro y).pimpl = some ⟨b, C.place B.data⟩ := by rw [hy]
  rw [hpi]
  simp only [ha, hk, if_true]
  rw [if_neg (by rw [hf]; exact fun hh => hh rfl)]
  rfl

/-! ## Where the code falls short -/

/-- A hollow handle cannot be turned into a modifiable tuple: `tuple_rw_fixed` reports that, `tuple_rw_managed` ends the whole
program, because the constructor is declared `noexcept`. -/
theorem C77_hollow_refuted (C : Contents α) (w : World α) (x y : Nat) (new : New α) (hy : w.ro y = .hollow) :
    step C w (.rwOfRo x y new) = .threw .hollow w ∧ step C w (.rwManagedOfRo x y new) = .terminate := by
  have : rwOfRo C w y new = .threw .hollow w := by
    unfold rwOfRo
    rw [hy]; rfl
  constructor
  · show declRw x (rwOfRo C w y new) = _
    rw [this]; rfl
  · show declRw x (rwManagedOfRo C w y new) = _
    unfold rwManagedOfRo
    rw [this]; rfl

/-- Asking for a managed handle to a nested tuple that is absent, where the lookup itself answers "no tuple": an exception says
that a buffer was provided without a tuple. -/
theorem C77_absent_refuted {C : Contents α} {n : Nat} (hn : Few n) {w : World α} (h : Arises C n anyCmd w) {x y b : Nat} {B : Buf α}
    (hb : w.buf b = some B) :
    (∀ find o, w.ro y = ⟨some ⟨b, o⟩, some b⟩ → find B.data o = .ok none → step C w (.nestedRo x y find) = .threw .noTuple w) ∧
    (∀ find, w.rw y = some b → B.tag ≠ 0 → find B.data = .ok none → step C w (.nestedRw x y find) = .threw .noTuple w) := by
  constructor
  · intro find o hy hfind
    obtain ⟨B', hB', hf⟩ := ((h.inv hn).ro_alive (x := y) (b := b) (by rw [hy])).2.2
    rw [hb] at hB'
    rw [← Option.some.inj hB'] at hf
    show declRo x (nestedRo C w y find) = _
    unfold nestedRo
    simp only [hy, hb, hfind]
    rw [if_neg (by rw [hf]; exact fun hh => hh rfl)]
    rfl
  · intro find hy ht hfind
    obtain ⟨B', hB', hf⟩ := ((h.inv hn).rw_alive hy).2.2
    rw [hb] at hB'
    rw [← Option.some.inj hB'] at hf
    show declRo x (nestedRw C w y find) = _
    unfold nestedRw
    simp only [hy, hb, hfind]
    rw [if_neg (by rw [hf]; exact fun hh => hh rfl)]
    unfold bufferOf
    simp only [hb]
    rw [if_pos ht]
    rfl

/-- A tuple built in plain memory cannot become a managed read-only one: the exception asks for a managed buffer, the tuple stays
with its variable. -/
theorem C77_plain {C : Contents α} {n : Nat} (hn : Few n) {w : World α} (h : Arises C n anyCmd w) {x y b : Nat} {B : Buf α}
    (hb : w.buf b = some B) (hy : w.rw y = some b) (ht : B.tag = 0) :
    ∃ w', step C w (.roOfRw x y) = .threw .bufferRequired w' ∧ w'.rw = w.rw ∧ w'.ro = w.ro := by
  obtain ⟨B', hB', hf⟩ := ((h.inv hn).rw_alive hy).2.2
  rw [hb] at hB'
  rw [← Option.some.inj hB'] at hf
  refine ⟨w.setBuf b { B with data := C.stamp B.data }, ?_, rfl, rfl⟩
  show declRo x (roOfRw C w y) = _
  unfold roOfRw
  simp only [hy, hb]
  rw [if_neg (by rw [hf]; exact fun hh => hh rfl)]
  have : bufferOf (w.setBuf b { B with data := C.stamp B.data }) b = none := by
    unfold bufferOf World.setBuf
    simp only [upd_self]
    rw [if_neg (fun hh => hh ht)]
  rw [this]
  rfl

/-! ## Programs that can be executed -/

/-- `Legal` as a test. -/
def legalB (n : Nat) (w : World α) : Cmd α → Bool
  | .rwNew x _ _ => decide (x < n) && decide (w.rw x = none)
  | .rwMoveCtor x y => decide (x < n) && decide (y < n) && decide (w.rw x = none)
  | .rwMove x y => decide (x < n) && decide (y < n)
  | .rwSwap x y => decide (x < n) && decide (y < n)
  | .rwPurge x => decide (x < n)
  | .rwOfRo x y _ => decide (x < n) && decide (y < n) && decide (w.rw x = none)
  | .rwManagedOfRo x y _ => decide (x < n) && decide (y < n) && decide (w.rw x = none)
  | .rwAssignRo x y _ => decide (x < n) && decide (y < n)
  | .write x _ => decide (w.rw x ≠ none)
  | .grow x _ => decide (w.rw x ≠ none)
  | .roCopy x y => decide (x < n) && decide (y < n) && decide (w.ro x = .hollow)
  | .roMoveCtor x y => decide (x < n) && decide (y < n) && decide (w.ro x = .hollow)
  | .roOfRw x y => decide (x < n) && decide (w.ro x = .hollow) && decide (w.rw y ≠ none)
  | .roAssign x y => decide (x < n) && decide (y < n)
  | .roMove x y => decide (x < n) && decide (y < n)
  | .roAssignRw x y => decide (x < n) && decide (w.rw y ≠ none)
  | .roSwap x y => decide (x < n) && decide (y < n)
  | .roPurge x => decide (x < n)
  | .nestedRo x y _ => decide (x < n) && decide (w.ro x = .hollow) && decide (w.ro y ≠ .hollow)
  | .nestedRw x y _ => decide (x < n) && decide (w.ro x = .hollow) && decide (w.rw y ≠ none)
  | .adopt _ _ _ => false
  | .roClone x y _ _ _ _ => decide (x < n) && decide (y < n) && decide (w.ro x = .hollow)

theorem legal_of {n : Nat} {w : World α} {c : Cmd α} (h : legalB n w c = true) : Legal n w c := by
  cases c <;> simp only [legalB, Bool.and_eq_true, decide_eq_true_eq, and_assoc] at h <;> first | exact h | cases h

/-- A program, exceptions caught; `none`: not a legal program, or the end of the process. -/
def exec (C : Contents α) (n : Nat) : World α → List (Cmd α) → Option (World α)
  | w, [] => some w
  | w, c :: cs =>
    if legalB n w c then
      match Owner.step C w c with
      | .ok w' _ => exec C n w' cs
      | .threw _ w' => exec C n w' cs
      | _ => none
    else none

theorem exec_arises {C : Contents α} {n : Nat} {P : Cmd α → Prop} {cs : List (Cmd α)} {w w' : World α} (h : Arises C n P w)
    (hp : ∀ c ∈ cs, P c) (he : exec C n w cs = some w') : Arises C n P w' := by
  induction cs generalizing w with
  | nil => rw [← Option.some.inj he]; exact h
  | cons c cs ih =>
    unfold exec at he
    by_cases hb : legalB n w c = true
    · rw [if_pos hb] at he
      have hc := hp c (List.mem_cons_self ..)
      have ht : ∀ c ∈ cs, P c := fun d hd => hp d (List.mem_cons_of_mem _ hd)
      cases hs : Owner.step C w c with
      | ok v u => rw [hs] at he; exact ih (h.done (legal_of hb) hc hs) ht he
      | threw e v => rw [hs] at he; exact ih (h.caught (legal_of hb) hc hs) ht he
      | terminate => rw [hs] at he; cases he
      | ub => rw [hs] at he; cases he
    · rw [if_neg hb] at he; cases he

theorem exec_decide {C : Contents α} {n : Nat} {w : World α} {cs : List (Cmd α)} (p : World α → Bool)
    (h : (match exec C n w cs with | some t => p t | none => false) = true) : ∃ t, exec C n w cs = some t ∧ p t = true := by
  cases hr : exec C n w cs with
  | none => rw [hr] at h; cases h
  | some t => rw [hr] at h; exact ⟨t, rfl, h⟩

end Fptu.Props
