import Verif.Lemmas.Owner
/-! Helper lemmas: the operations of programs and the ownership of blocks, continued. -/
namespace Fptu.Owner
open Fptu.Buffer Finset

variable {α : Type} {C : Contents α} {n : Nat} {w : World α}

theorem Inv.bufferOf (_h : Inv n w none') {b c : Nat} {B : Buf α} (hB : w.buf b = some B) (hc : bufferOf w b = some c) :
    c = b ∧ B.tag ≠ 0 := by
  unfold Owner.bufferOf at hc
  simp only [hB] at hc
  by_cases ht : B.tag = 0
  · rw [if_neg (fun h => h ht)] at hc; cases hc
  · rw [if_pos ht] at hc
    exact ⟨(Option.some.inj hc).symm, ht⟩

theorem check_threw {w v : World α} {r : Ro} {e : Err} (h : check C w r = .threw e v) : v = w := by
  obtain ⟨pi, bo⟩ := r
  unfold check at h
  cases pi with
  | none =>
    cases bo with
    | none => cases h
    | some b => cases h; rfl
  | some p =>
    cases bo with
    | none => cases h; rfl
    | some b =>
      simp only at h
      split at h
      · split_ifs at h
        cases h; rfl
      · cases h

/-- What the constructor from a modifiable tuple leaves behind. -/
theorem roOfRw_post (h : Inv n w none') {y b : Nat} (hy : w.rw y = some b) :
    Post (roOfRw C w y)
      (fun w' r => (∃ B, w.buf b = some B ∧ r = ⟨some ⟨b, C.place B.data⟩, some b⟩) ∧ Inv n w' (tok (some b)) ∧
        Quiet (some b) w w' ∧ w'.ro = w.ro ∧ w'.rw = upd w.rw y none ∧ check C w' r = .ok w' () ∧
        ∀ B, w'.buf b = some B → B.tag ≠ 0)
      (fun w' => Inv n w' none' ∧ Quiet (some b) w w' ∧ SameVars w w') := by
  obtain ⟨hyn, hpos, B, hB, hf⟩ := h.rw_alive hy
  unfold roOfRw
  simp only [hy, hB]
  rw [if_neg (by rw [hf]; exact fun h => h rfl)]
  have hl := h.live b B hB hf
  have h1 : Inv n (w.setBuf b { B with data := C.stamp B.data }) none' := by
    refine h.setBuf hB rfl (fun _ _ => rfl) (h.small b) (fun _ => hl) (fun hf' => absurd hf hf') ?_
    intro ht _
    exact h.plain b B hB ht hf
  have hq : Quiet (some b) w (w.setBuf b { B with data := C.stamp B.data }) :=
    quiet_setBuf (some b) hB (B' := { B with data := C.stamp B.data }) rfl (fun hh => absurd rfl hh)
  have hB1 : (w.setBuf b { B with data := C.stamp B.data }).buf b = some { B with data := C.stamp B.data } := upd_self _ _ _
  cases hbo : bufferOf (w.setBuf b { B with data := C.stamp B.data }) b with
  | none => exact ⟨h1, hq, rfl, rfl⟩
  | some c =>
    obtain ⟨rfl, ht⟩ := h1.bufferOf hB1 hbo
    unfold Out.bind
    cases hk : check C (w.setBuf c { B with data := C.stamp B.data }) ⟨some ⟨c, C.place B.data⟩, some c⟩ with
    | threw e v =>
      rw [check_threw hk]
      exact ⟨h1, hq, rfl, rfl⟩
    | ub =>
      exfalso
      have := check_post (C := C) (w := w.setBuf c { B with data := C.stamp B.data })
        (h := ⟨some ⟨c, C.place B.data⟩, some c⟩)
        (fun p hp => by rw [← Option.some.inj hp]; exact ⟨_, hB1, hf⟩) (fun d hd => by rw [← Option.some.inj hd]; exact ⟨_, hB1, hf⟩)
      rw [hk] at this
      exact this
    | terminate => trivial
    | ok v u =>
      have hv : v = w.setBuf c { B with data := C.stamp B.data } := by
        have := check_post (C := C) (w := w.setBuf c { B with data := C.stamp B.data })
          (h := ⟨some ⟨c, C.place B.data⟩, some c⟩)
          (fun p hp => by rw [← Option.some.inj hp]; exact ⟨_, hB1, hf⟩)
          (fun d hd => by rw [← Option.some.inj hd]; exact ⟨_, hB1, hf⟩)
        rw [hk] at this
        exact this.1
      subst hv
      refine ⟨⟨B, rfl, rfl⟩, ?_, hq.trans (quiet_setRw _ _ _ _), rfl, rfl, check_again hk rfl, ?_⟩
      · refine h1.setRw hyn none (fun d => ?_)
        rw [tok_none]
        show _ = 0 + tok (w.rw y) d
        rw [hy]; omega
      · intro D hD
        have hD : (w.setBuf c { B with data := C.stamp B.data }).buf c = some D := hD
        rw [hB1] at hD
        rw [← Option.some.inj hD]
        exact ht

theorem declRo_ofRw (h : Inv n w none') {x y b : Nat} (hx : x < n) (h0 : w.ro x = .hollow) (hy : w.rw y = some b) :
    Post (declRo x (roOfRw C w y))
      (fun w' _ => Inv n w' none' ∧ Quiet (some b) w w' ∧ (∃ B, w.buf b = some B ∧
        w'.ro = upd w.ro x ⟨some ⟨b, C.place B.data⟩, some b⟩) ∧ w'.rw = upd w.rw y none)
      (fun w' => Inv n w' none' ∧ Quiet (some b) w w' ∧ SameVars w w') := by
  refine Post.bind (roOfRw_post h hy) ?_
  rintro v _ ⟨⟨B, hB, rfl⟩, hi, hq, hro, hrw, _, hc⟩
  refine ⟨?_, hq.trans (quiet_setRo _ _ _ _), ⟨B, hB, ?_⟩, hrw⟩
  · refine hi.decl hx (by rw [hro]; exact h0) (Or.inr ⟨b, _, rfl⟩) (fun _ => rfl) ?_
    intro c D hcb hD
    rw [← Option.some.inj hcb] at hD
    exact hc D hD
  · show upd v.ro x _ = _
    rw [hro]

theorem roAssignRw_post (h : Inv n w none') {x y b : Nat} (hx : x < n) (hy : w.rw y = some b) :
    Post (roAssignRw C w x y)
      (fun w' _ => Inv n w' none' ∧ Quiet (some b) w w' ∧ (∃ B, w.buf b = some B ∧
        w'.ro = upd w.ro x ⟨some ⟨b, C.place B.data⟩, some b⟩) ∧ w'.rw = upd w.rw y none)
      (fun w' => Inv n w' none' ∧ Quiet (some b) w w' ∧ SameVars w w') := by
  refine Post.bind (roOfRw_post h hy) ?_
  rintro v _ ⟨⟨B, hB, rfl⟩, hi, hq, hro, hrw, hk, hc⟩
  unfold roMoveTemp
  rw [hk]
  show Post ((roPurge v x).bind _) _ _
  refine Post.bind (Post.imp (roPurge_post hi hx) (fun _ _ h => h) (fun _ h => False.elim h)) ?_
  rintro u _ ⟨hu, hqu, huo, huw⟩
  obtain ⟨D, hD, _⟩ := hi.alive (b := b) (by rw [tok_self]; omega)
  refine ⟨?_, hq.trans (hqu.weaken.trans (quiet_setRo _ _ _ _)), ⟨B, hB, ?_⟩, huw.trans hrw⟩
  · refine hu.decl hx (by rw [huo, upd_self]) (Or.inr ⟨b, _, rfl⟩) (fun _ => rfl) ?_
    intro c E hcb hE
    rw [← Option.some.inj hcb] at hE
    exact hqu.counted hc ⟨D, hD⟩ E hE
  · show upd u.ro x _ = _
    rw [huo, hro]
    funext z
    by_cases hz : z = x
    · rw [hz, upd_self, upd_self]
    · rw [upd_ne _ _ hz, upd_ne _ _ hz, upd_ne _ _ hz]

theorem nestedRo_post (h : Inv n w none') (hn : 2 * n + 1 < 2147483646) {x y : Nat} (hx : x < n) (h0 : w.ro x = .hollow)
    (hy : w.ro y ≠ .hollow) (find : α → Nat → Except Err (Option Nat)) :
    Post (declRo x (nestedRo C w y find))
      (fun w' _ => Inv n w' none' ∧ Quiet none w w' ∧ (∃ r, w'.ro = upd w.ro x r ∧ r.hb = (w.ro y).hb) ∧ w'.rw = w.rw)
      (fun w' => w' = w) := by
  rcases h.match_ y with e1 | ⟨b, o, e1⟩
  · exact absurd e1 hy
  obtain ⟨_, hpos, B, hB, hf⟩ := h.ro_alive (x := y) (b := b) (by rw [e1])
  unfold nestedRo
  simp only [e1, hB]
  rw [if_neg (by rw [hf]; exact fun h => h rfl)]
  cases find B.data o with
  | error e => exact rfl
  | ok r =>
    refine Post.imp (declRo_ctor h hn hx h0 ?_ ?_) ?_ (fun _ h => h)
    · intro p hp
      cases r with
      | none => cases hp
      | some k =>
        rw [← Option.some.inj hp]
        exact ⟨B, hB, hf⟩
    · intro c hc
      rw [← Option.some.inj hc]
      exact ⟨hpos, fun D hD => h.counted y b D (by rw [e1]) hD⟩
    · rintro w' _ ⟨hi, hq, _, hro, hrw⟩
      exact ⟨hi, hq, ⟨_, hro, rfl⟩, hrw⟩

theorem nestedRw_post (h : Inv n w none') (hn : 2 * n + 1 < 2147483646) {x y b : Nat} (hx : x < n) (h0 : w.ro x = .hollow)
    (hy : w.rw y = some b) (find : α → Except Err (Option Nat)) :
    Post (declRo x (nestedRw C w y find))
      (fun w' _ => Inv n w' none' ∧ Quiet none w w' ∧ (∃ r, w'.ro = upd w.ro x r ∧ (r.hb = some b ∨ r.hb = none)) ∧ w'.rw = w.rw)
      (fun w' => w' = w) := by
  obtain ⟨_, hpos, B, hB, hf⟩ := h.rw_alive hy
  unfold nestedRw
  simp only [hy, hB]
  rw [if_neg (by rw [hf]; exact fun h => h rfl)]
  cases find B.data with
  | error e => exact rfl
  | ok r =>
    refine Post.imp (declRo_ctor h hn hx h0 ?_ ?_) ?_ (fun _ h => h)
    · intro p hp
      cases r with
      | none => cases hp
      | some k =>
        rw [← Option.some.inj hp]
        exact ⟨B, hB, hf⟩
    · intro c hc
      obtain ⟨rfl, ht⟩ := h.bufferOf hB hc
      refine ⟨hpos, fun D hD => ?_⟩
      rw [hB] at hD
      rw [← Option.some.inj hD]; exact ht
    · rintro w' _ ⟨hi, hq, _, hro, hrw⟩
      refine ⟨hi, hq, ⟨_, hro, ?_⟩, hrw⟩
      show bufferOf w b = some b ∨ bufferOf w b = none
      cases hbo : bufferOf w b with
      | none => exact Or.inr rfl
      | some c => exact Or.inl (by rw [(h.bufferOf hB hbo).1])

theorem adopt_post (h : Inv n w none') (hn : 2 * n + 1 < 2147483646) {x y : Nat} (hx : x < n) (h0 : w.ro x = .hollow)
    {p : Option Ptr} (hp : ∀ q, p = some q → Alive w q.block) :
    Post (declRo x (adopt C w p y))
      (fun w' _ => Inv n w' none' ∧ Quiet none w w' ∧ (∃ r, w'.ro = upd w.ro x r ∧ (r.hb = (w.ro y).hb ∨ r.hb = none)) ∧ w'.rw = w.rw)
      (fun w' => w' = w) := by
  unfold adopt
  refine Post.imp (declRo_ctor h hn hx h0 hp ?_) ?_ (fun _ h => h)
  · intro c hc
    cases p with
    | none => cases hc
    | some q => exact h.ro_ptr.2 c hc
  · rintro w' _ ⟨hi, hq, _, hro, hrw⟩
    refine ⟨hi, hq, ⟨_, hro, ?_⟩, hrw⟩
    cases p with
    | none => exact Or.inr rfl
    | some q => exact Or.inl rfl

theorem roClone_post (h : Inv n w none') (hn : 2 * n + 1 < 2147483646) {x y : Nat} (hx : x < n) (h0 : w.ro x = .hollow)
    (given same : Bool) (tag : Nat) (new : New α) :
    Post (declRo x (roClone C w y given same tag new))
      (fun w' _ => Inv n w' none' ∧ Quiet none w w' ∧
        (∃ r, w'.ro = upd w.ro x r ∧ (r = w.ro y ∨ r = .hollow ∨ ∃ o, r = ⟨some ⟨w.next, o⟩, some w.next⟩)) ∧ w'.rw = w.rw)
      (fun w' => Inv n w' none' ∧ Quiet none w w' ∧ SameVars w w') := by
  unfold roClone
  rcases h.match_ y with e1 | ⟨b, o, e1⟩
  · simp only [e1, Ro.hollow]
    cases given with
    | true => exact ⟨h, Quiet.refl _ _, rfl, rfl⟩
    | false =>
      refine ⟨?_, quiet_setRo _ _ _ _, ⟨_, rfl, Or.inr (Or.inl rfl)⟩, rfl⟩
      refine h.setRo hx .hollow (Or.inl rfl) (fun b B hb => by cases hb) (fun b => by rw [h0])
  · obtain ⟨_, hpos, B, hB, hf⟩ := h.ro_alive (x := y) (b := b) (by rw [e1])
    have hbb : (w.ro y).hb.bind w.buf = some B := by rw [e1]; exact hB
    rw [hbb]
    simp only [e1]
    rw [if_neg (by rw [hf]; exact fun h => h rfl)]
    by_cases hs : B.tag = tag ∧ (given = false ∨ same = true)
    · rw [if_pos hs]
      have hp := (h.ro_ptr (y := y)).1
      have hb := (h.ro_ptr (y := y)).2
      rw [e1] at hp hb
      refine Post.imp (declRo_ctor h hn hx h0 hp hb) ?_ ?_
      · rintro w' _ ⟨hi, hq, _, hro, hrw⟩
        exact ⟨hi, hq, ⟨_, hro, Or.inl rfl⟩, hrw⟩
      · rintro w' rfl
        exact ⟨h, Quiet.refl _ _, rfl, rfl⟩
    · rw [if_neg hs]
      unfold declRo
      refine Post.bind (Q' := fun w' r => Inv n w' (tok r.hb) ∧ Quiet none w w' ∧ SameVars w w' ∧
        (∃ o, r = ⟨some ⟨w.next, o⟩, some w.next⟩) ∧ ∀ B, w'.buf w.next = some B → B.tag ≠ 0) ?_ ?_
      · refine Post.bind (make_post h tag new) ?_
        rintro v c ⟨rfl, ⟨N, hN, hNt, hNf⟩, hi, hq, hv⟩
        simp only [hN]
        have hl := hi.live _ N hN hNf
        have h1 : Inv n (v.setBuf w.next { N with data := C.stamp N.data }) (fun c => none' c + tok (some w.next) c) :=
          hi.setBuf hN rfl (fun _ _ => rfl) (hi.small _) (fun _ => hl) (fun hf' => absurd hNf hf')
            (fun ht _ => hi.plain _ N hN ht hNf)
        have hN1 : (v.setBuf w.next { N with data := C.stamp N.data }).buf w.next = some { N with data := C.stamp N.data } :=
          upd_self _ _ _
        have hq1 : Quiet none w (v.setBuf w.next { N with data := C.stamp N.data }) := by
          refine ⟨hq.1, fun d D hD hd => ?_⟩
          obtain ⟨D', hD', x1, x2, x3⟩ := hq.2 d D hD hd
          refine ⟨D', ?_, x1, x2, x3⟩
          show upd v.buf w.next _ d = _
          rw [upd_ne]
          · exact hD'
          · intro hh
            have := (h.born d).1 ⟨D, hD⟩
            omega
        generalize hr : (⟨some ⟨w.next, C.place N.data⟩, bufferOf (v.setBuf w.next { N with data := C.stamp N.data }) w.next⟩ : Ro) = r
        have hk := check_post (C := C) (w := v.setBuf w.next { N with data := C.stamp N.data }) (h := r)
          (fun p hp => by
            rw [← hr] at hp
            rw [← Option.some.inj hp]
            exact ⟨_, hN1, hNf⟩)
          (fun d hd => by
            rw [← hr] at hd
            have hd : bufferOf (v.setBuf w.next { N with data := C.stamp N.data }) w.next = some d := hd
            unfold bufferOf at hd
            simp only [hN1] at hd
            by_cases ht : N.tag = 0
            · rw [if_neg (fun h => h ht)] at hd; cases hd
            · rw [if_pos ht] at hd
              rw [← Option.some.inj hd]
              exact ⟨_, hN1, hNf⟩)
        cases hck : check C (v.setBuf w.next { N with data := C.stamp N.data }) r with
        | ub => rw [hck] at hk; exact hk.elim
        | terminate => trivial
        | threw e u =>
          rw [hck] at hk
          have hk : u = _ := hk
          subst hk
          refine Post.bind (Post.imp (destroyRw_post h1 (some w.next) (e' := none') (fun _ => rfl)) (fun _ _ h => h)
            (fun _ h => False.elim h)) ?_
          rintro u _ ⟨hu, hqu, huv⟩
          exact ⟨hu, hq1.trans hqu, huv.1.trans hv.1, huv.2.trans hv.2⟩
        | ok u _ =>
          rw [hck] at hk
          obtain ⟨hu, hfit⟩ := hk
          subst hu
          -- the check succeeded, so the block is counted
          have hrb : r.hb = some w.next := by
            rcases hfit with e2 | ⟨c, o', e2⟩
            · rw [← hr] at e2
              cases e2
            · have h3 := hr.trans e2
              have h4 : (some (⟨w.next, C.place N.data⟩ : Ptr)) = some ⟨c, o'⟩ := congrArg Ro.pimpl h3
              have h5 : w.next = c := congrArg Ptr.block (Option.some.inj h4)
              rw [e2, h5]
          have hr2 : r = ⟨some ⟨w.next, C.place N.data⟩, some w.next⟩ := by
            rw [← hrb, ← hr]
          refine ⟨?_, hq1, hv, ⟨_, hr2⟩, ?_⟩
          · rw [hrb]
            have : (fun c => none' c + tok (some w.next) c) = tok (some w.next) := funext fun c => Nat.zero_add _
            rw [this] at h1
            exact h1
          · intro D hD
            rw [hN1] at hD
            rw [← Option.some.inj hD]
            intro ht
            have ht : N.tag = 0 := ht
            rw [← hr] at hrb
            have hrb : bufferOf (v.setBuf w.next { N with data := C.stamp N.data }) w.next = some w.next := hrb
            unfold bufferOf at hrb
            simp only [hN1] at hrb
            rw [if_neg (fun h => h ht)] at hrb
            cases hrb
      · rintro v r ⟨hi, hq, hv, ⟨o', hr⟩, hc⟩
        refine ⟨?_, hq.trans (quiet_setRo _ _ _ _), ⟨r, ?_, Or.inr (Or.inr ⟨o', hr⟩)⟩, hv.2⟩
        · refine hi.decl hx (by rw [hv.1]; exact h0) (Or.inr ⟨_, _, hr⟩) (fun _ => rfl) ?_
          intro c D hcb hD
          rw [hr] at hcb
          rw [← Option.some.inj hcb] at hD
          exact hc D hD
        · show upd v.ro x _ = _
          rw [hv.1]

/-- Where the block of a tuple made from a read-only handle comes from. -/
def FromRo (w : World α) (n y b : Nat) : Prop := b = w.next ∨ ((w.ro y).hb = some b ∧ refs n w b = 1)

theorem rwOfRo_post (h : Inv n w none') {y : Nat} (hy : y < n) (new : New α) :
    Post (rwOfRo C w y new)
      (fun w' b => FromRo w n y b ∧ Inv n w' (tok (some b)) ∧ Quiet none w w' ∧ w'.ro = upd w.ro y .hollow ∧ w'.rw = w.rw)
      (fun w' => Inv n w' none' ∧ Quiet none w w' ∧ SameVars w w') := by
  unfold rwOfRo
  rcases h.match_ y with e1 | ⟨b, o, e1⟩
  · simp only [e1, Ro.hollow]
    exact ⟨h, Quiet.refl _ _, rfl, rfl⟩
  · obtain ⟨_, hpos, B, hB, hf⟩ := h.ro_alive (x := y) (b := b) (by rw [e1])
    have hbb : (w.ro y).hb.bind w.buf = some B := by rw [e1]; exact hB
    have hl := h.live b B hB hf
    rw [hbb]
    simp only [e1]
    rw [if_neg (by rw [hf]; exact fun h => h rfl)]
    cases hk : (if alterable B = true then peekBasis C w ⟨some ⟨b, o⟩, some b⟩ else none) with
    | some c =>
      by_cases ha : alterable B = true
      · rw [if_pos ha] at hk
        have hcb : c = b := by
          unfold peekBasis at hk
          simp only [hB] at hk
          by_cases hh : (⟨b, o⟩ : Ptr) = ⟨b, C.place B.data⟩
          · rw [if_pos hh] at hk; exact (Option.some.inj hk).symm
          · rw [if_neg hh] at hk; cases hk
        subst hcb
        have hone : refs n w c = 1 := by
          unfold alterable at ha
          rw [Bool.and_eq_true] at ha
          have := of_decide_eq_true ha.1
          have hl1 := hl.1
          rw [this] at hl1
          have : none' c = 0 := rfl
          omega
        refine ⟨Or.inr ⟨by rw [e1], hone⟩, ?_, quiet_setRo _ _ _ _, rfl, rfl⟩
        refine h.setRo hy .hollow (Or.inl rfl) (fun b B hb => by cases hb) (fun d => ?_)
        rw [e1]
        show tok (some c) d + tok none d = 0 + tok (some c) d
        rw [tok_none]; omega
      · rw [if_neg ha] at hk; cases hk
    | none =>
      refine Post.bind (make_post h B.tag new) ?_
      rintro v c ⟨rfl, _, hi, hq, hv⟩
      refine Post.bind (Post.imp (roPurge_post hi hy) (fun _ _ h => h) (fun _ h => False.elim h)) ?_
      rintro u _ ⟨hu, hqu, huo, huw⟩
      refine ⟨Or.inl rfl, ?_, hq.trans hqu, ?_, huw.trans hv.2⟩
      · have : (fun c => none' c + tok (some w.next) c) = tok (some w.next) := funext fun c => Nat.zero_add _
        rw [this] at hu
        exact hu
      · rw [huo, hv.1]

theorem declRw_ofRo (h : Inv n w none') {x y : Nat} (hx : x < n) (hy : y < n) (h0 : w.rw x = none) (new : New α) :
    Post (declRw x (rwOfRo C w y new))
      (fun w' _ => Inv n w' none' ∧ Quiet none w w' ∧ (∃ b, FromRo w n y b ∧ w'.rw = upd w.rw x (some b)) ∧
        w'.ro = upd w.ro y .hollow)
      (fun w' => Inv n w' none' ∧ Quiet none w w' ∧ SameVars w w') := by
  refine Post.bind (rwOfRo_post h hy new) ?_
  rintro v b ⟨hb, hi, hq, hro, hrw⟩
  refine ⟨hi.declRw hx (by rw [hrw]; exact h0) (fun _ => rfl), hq.trans (quiet_setRw _ _ _ _), ⟨b, hb, ?_⟩, hro⟩
  show upd v.rw x _ = _
  rw [hrw]

theorem rwAssignRo_post (h : Inv n w none') {x y : Nat} (hx : x < n) (hy : y < n) (new : New α) :
    Post (rwAssignRo C w x y new)
      (fun w' _ => Inv n w' none' ∧ Quiet none w w' ∧ (∃ b, FromRo w n y b ∧ w'.rw = upd w.rw x (some b)) ∧
        w'.ro = upd w.ro y .hollow)
      (fun w' => Inv n w' none' ∧ Quiet none w w' ∧ SameVars w w') := by
  refine Post.bind (rwOfRo_post h hy new) ?_
  rintro v b ⟨hb, hi, hq, hro, hrw⟩
  have hne : v.rw x ≠ some b := by
    rw [hrw]
    intro hxb
    have h1 := rw_le_refs (w := w) hx b
    rw [hxb, tok_self] at h1
    rcases hb with rfl | ⟨hyb, hone⟩
    · have := h.owned w.next (by omega)
      omega
    · have h2 : tok (w.ro y).hb b + tok (w.rw x) b ≤ refs n w b := by
        have a1 := le_sum (fun u => tok (w.ro u).hb b) hy
        have a2 := le_sum (fun u => tok (w.rw u) b) hx
        have a1 : tok (w.ro y).hb b ≤ ∑ u ∈ range n, tok (w.ro u).hb b := a1
        have a2 : tok (w.rw x) b ≤ ∑ u ∈ range n, tok (w.rw u) b := a2
        unfold refs
        omega
      rw [hyb, hxb, tok_self] at h2
      omega
  rw [if_pos hne]
  refine Post.bind (Post.imp (rwPurge_post hi hx) (fun _ _ h => h) (fun _ h => False.elim h)) ?_
  rintro u _ ⟨hu, hqu, huw, huo⟩
  refine ⟨hu.declRw hx (by rw [huw, upd_self]) (fun _ => rfl), hq.trans (hqu.trans (quiet_setRw _ _ _ _)), ⟨b, hb, ?_⟩,
    huo.trans hro⟩
  show upd u.rw x _ = _
  rw [huw, hrw]
  funext z
  by_cases hz : z = x
  · rw [hz, upd_self, upd_self]
  · rw [upd_ne _ _ hz, upd_ne _ _ hz, upd_ne _ _ hz]

theorem rwMove_post (h : Inv n w none') {x y : Nat} (hx : x < n) (hy : y < n) :
    Post (rwMove w x y)
      (fun w' _ => Inv n w' none' ∧ Quiet none w w' ∧ w'.ro = w.ro ∧
        w'.rw = if w.rw x ≠ w.rw y then upd (upd w.rw x (w.rw y)) y none else w.rw)
      (fun _ => False) := by
  unfold rwMove
  by_cases hne : w.rw x = w.rw y
  · rw [if_neg (fun hh => hh hne)]
    refine ⟨h, Quiet.refl _ _, rfl, ?_⟩
    rw [if_neg (fun hh => hh hne)]
  · rw [if_pos hne]
    have hxy : y ≠ x := fun hh => hne (by rw [hh])
    refine Post.bind (rwPurge_post h hx) ?_
    rintro v _ ⟨hi, hq, hrw, hro⟩
    have hvx : v.rw x = none := by rw [hrw, upd_self]
    have hvy : v.rw y = w.rw y := by rw [hrw, upd_ne _ _ hxy]
    have h1 : Inv n (v.setRw y none) (tok (v.rw y)) := hi.setRw hy none (fun b => by
      rw [tok_none]
      show _ = 0 + _
      omega)
    have h2 : Inv n ((v.setRw y none).setRw x (v.rw y)) none' := h1.setRw hx _ (fun b => by
      have : (v.setRw y none).rw x = none := by
        show upd v.rw y none x = none
        rw [upd_ne _ _ (Ne.symm hxy)]; exact hvx
      rw [this, tok_none]
      show 0 + _ = _
      omega)
    have e1 : (v.setRw x (v.rw y)).setRw y none = (v.setRw y none).setRw x (v.rw y) := by
      show { v with rw := upd (upd v.rw x _) y _ } = { v with rw := upd (upd v.rw y _) x _ }
      congr 1
      funext z
      by_cases hz : z = x
      · rw [hz, upd_self, upd_ne _ _ (Ne.symm hxy), upd_self]
      · rw [upd_ne (upd v.rw y _) _ hz]
        by_cases hzy : z = y
        · rw [hzy, upd_self, upd_self]
        · rw [upd_ne _ _ hzy, upd_ne _ _ hz, upd_ne _ _ hzy]
    show Post (Out.ok _ ()) _ _
    refine ⟨by rw [e1]; exact h2, hq.trans ((quiet_setRw _ _ _ _).trans (quiet_setRw _ _ _ _)), hro, ?_⟩
    rw [if_pos hne]
    show upd (upd v.rw x (v.rw y)) y none = _
    rw [hvy, hrw]
    funext z
    by_cases hzy : z = y
    · rw [hzy, upd_self, upd_self]
    · rw [upd_ne _ _ hzy, upd_ne _ _ hzy]
      by_cases hz : z = x
      · rw [hz, upd_self, upd_self]
      · rw [upd_ne _ _ hz, upd_ne _ _ hz, upd_ne _ _ hz]

theorem rwMoveCtor_inv (h : Inv n w none') {x y : Nat} (hx : x < n) (hy : y < n) (h0 : w.rw x = none) :
    Inv n ((rwMoveCtor w y).1.setRw x (rwMoveCtor w y).2) none' := by
  have h1 : Inv n (w.setRw y none) (tok (w.rw y)) := h.setRw hy none (fun b => by
    rw [tok_none]
    show _ = 0 + _
    omega)
  refine h1.setRw hx _ (fun b => ?_)
  have : (w.setRw y none).rw x = none := by
    show upd w.rw y none x = none
    by_cases hxy : x = y
    · rw [hxy, upd_self]
    · rw [upd_ne _ _ hxy]; exact h0
  show _ = _ + tok ((w.setRw y none).rw x) b
  rw [this, tok_none]
  show 0 + _ = _
  exact Nat.zero_add _

theorem rwSwap_inv (h : Inv n w none') {x y : Nat} (hx : x < n) (hy : y < n) : Inv n (rwSwap w x y) none' := by
  have h1 : Inv n (w.setRw y none) (tok (w.rw y)) := h.setRw hy none (fun b => by
    rw [tok_none]
    show _ = 0 + _
    omega)
  by_cases hxy : x = y
  · have : rwSwap w x y = w := by
      unfold rwSwap
      rw [hxy]
      show { w with rw := upd (upd w.rw y _) y _ } = w
      have : upd (upd w.rw y (w.rw y)) y (w.rw y) = w.rw := by
        funext z
        by_cases hz : z = y
        · rw [hz, upd_self]
        · rw [upd_ne _ _ hz, upd_ne _ _ hz]
      rw [this]
    rw [this]; exact h
  · have h2 : Inv n ((w.setRw y none).setRw x (w.rw y)) (tok (w.rw x)) := h1.setRw hx _ (fun b => by
      have : (w.setRw y none).rw x = w.rw x := upd_ne _ _ hxy
      rw [this]; omega)
    have h3 := h2.setRw hy (w.rw x) (e' := none') (fun b => by
      have : ((w.setRw y none).setRw x (w.rw y)).rw y = none := by
        show upd (upd w.rw y none) x _ y = none
        rw [upd_ne _ _ (Ne.symm hxy), upd_self]
      rw [this, tok_none]
      show 0 + _ = _
      omega)
    have e1 : rwSwap w x y = ((w.setRw y none).setRw x (w.rw y)).setRw y (w.rw x) := by
      unfold rwSwap
      show { w with rw := upd (upd w.rw x _) y _ } = { w with rw := upd (upd (upd w.rw y _) x _) y _ }
      congr 1
      funext z
      by_cases hzy : z = y
      · rw [hzy, upd_self, upd_self]
      · rw [upd_ne _ _ hzy, upd_ne _ _ hzy]
        by_cases hz : z = x
        · rw [hz, upd_self, upd_self]
        · rw [upd_ne _ _ hz, upd_ne _ _ hz, upd_ne _ _ hzy]
    rw [e1]; exact h3

theorem roSwap_inv (h : Inv n w none') {x y : Nat} (hx : x < n) (hy : y < n) : Inv n (roSwap w x y) none' := by
  have h1 : Inv n (w.setRo y .hollow) (tok (w.ro y).hb) := h.setRo hy .hollow (Or.inl rfl) (fun b B hb => by cases hb) (fun b => by
    show _ + tok none b = 0 + _
    rw [tok_none]; omega)
  by_cases hxy : x = y
  · have : roSwap w x y = w := by
      unfold roSwap
      rw [hxy]
      show { w with ro := upd (upd w.ro y _) y _ } = w
      have : upd (upd w.ro y (w.ro y)) y (w.ro y) = w.ro := by
        funext z
        by_cases hz : z = y
        · rw [hz, upd_self]
        · rw [upd_ne _ _ hz, upd_ne _ _ hz]
      rw [this]
    rw [this]; exact h
  · have h2 : Inv n ((w.setRo y .hollow).setRo x (w.ro y)) (tok (w.ro x).hb) :=
      h1.setRo hx _ (h.match_ y) (fun b B hb hB => h.counted y b B hb hB) (fun b => by
        have : (w.setRo y .hollow).ro x = w.ro x := upd_ne _ _ hxy
        rw [this]; omega)
    have h3 := h2.setRo hy (w.ro x) (e' := none') (h.match_ x) (fun b B hb hB => h.counted x b B hb hB) (fun b => by
      have : ((w.setRo y .hollow).setRo x (w.ro y)).ro y = .hollow := by
        show upd (upd w.ro y .hollow) x _ y = _
        rw [upd_ne _ _ (Ne.symm hxy), upd_self]
      rw [this]
      show 0 + _ = _ + tok none b
      rw [tok_none]; omega)
    have e1 : roSwap w x y = ((w.setRo y .hollow).setRo x (w.ro y)).setRo y (w.ro x) := by
      unfold roSwap
      show { w with ro := upd (upd w.ro x _) y _ } = { w with ro := upd (upd (upd w.ro y _) x _) y _ }
      congr 1
      funext z
      by_cases hzy : z = y
      · rw [hzy, upd_self, upd_self]
      · rw [upd_ne _ _ hzy, upd_ne _ _ hzy]
        by_cases hz : z = x
        · rw [hz, upd_self, upd_self]
        · rw [upd_ne _ _ hz, upd_ne _ _ hz, upd_ne _ _ hzy]
    rw [e1]; exact h3

theorem write_post (h : Inv n w none') {x b : Nat} (hx : w.rw x = some b) (f : α → α) :
    Post (write w x f) (fun w' _ => Inv n w' none' ∧ Quiet (some b) w w' ∧ SameVars w w') (fun _ => False) := by
  obtain ⟨_, hpos, B, hB, hf⟩ := h.rw_alive hx
  unfold write
  simp only [hx, hB]
  rw [if_neg (by rw [hf]; exact fun h => h rfl)]
  refine ⟨?_, quiet_setBuf (some b) hB (B' := { B with data := f B.data }) rfl (fun hh => absurd rfl hh), rfl, rfl⟩
  refine h.setBuf hB rfl (fun _ _ => rfl) (h.small b) (fun _ => h.live b B hB hf) (fun hf' => absurd hf hf') ?_
  intro ht _
  exact h.plain b B hB ht hf

theorem grow_post (h : Inv n w none') {x b : Nat} (hx : w.rw x = some b) (new : New α) :
    Post (grow w x new)
      (fun w' _ => Inv n w' none' ∧ Quiet (some b) w w' ∧ w'.ro = w.ro ∧
        ∃ c, (c = b ∨ c = w.next) ∧ w'.rw = upd w.rw x (some c))
      (fun w' => Inv n w' none' ∧ Quiet (some b) w w' ∧ SameVars w w') := by
  obtain ⟨hxn, hpos, B, hB, hf⟩ := h.rw_alive hx
  unfold grow
  simp only [hx, hB]
  rw [if_neg (by rw [hf]; exact fun h => h rfl)]
  by_cases ht : B.tag = 0
  · rw [if_pos ht]
    cases new with
    | refused => exact ⟨h, Quiet.refl _ _, rfl, rfl⟩
    | broken s j => exact ⟨h, Quiet.refl _ _, rfl, rfl⟩
    | built size data =>
      refine ⟨?_, quiet_setBuf (some b) hB (B' := { B with size := size, data := data }) rfl (fun hh => absurd rfl hh), rfl, b,
        Or.inl rfl, ?_⟩
      · refine h.setBuf hB rfl (fun _ _ => rfl) (h.small b) (fun _ => h.live b B hB hf) (fun hf' => absurd hf hf') ?_
        intro ht' _
        exact h.plain b B hB ht' hf
      · show w.rw = _
        funext z
        by_cases hz : z = x
        · rw [hz, upd_self, hx]
        · rw [upd_ne _ _ hz]
  · rw [if_neg ht]
    refine Post.bind (Post.imp (make_post h B.tag new) (fun _ _ h => h) ?_) ?_
    · rintro v ⟨h1, h2, h3⟩
      exact ⟨h1, h2.weaken, h3⟩
    rintro v c ⟨rfl, _, hi, hq, hv⟩
    have hvx : v.rw x = some b := by rw [hv.2]; exact hx
    have h1 : Inv n (v.setRw x (some w.next)) (tok (some b)) := hi.setRw hxn _ (fun d => by
      rw [hvx]
      show _ = (0 + _) + _
      omega)
    refine Post.imp (detach_post h1 (some b) (e' := none') ?_ (fun d => Nat.zero_add _)) ?_ (fun _ h => False.elim h)
    · intro d hd D hD
      rw [← Option.some.inj hd] at hD
      have hD : v.buf b = some D := hD
      refine hq.counted ?_ ⟨B, hB⟩ D hD
      intro E hE
      rw [hB] at hE
      rw [← Option.some.inj hE]; exact ht
    · rintro u _ ⟨hu, hqu, huv⟩
      refine ⟨hu, hq.weaken.trans ((quiet_setRw _ _ _ _).trans hqu.weaken), huv.1.trans hv.1, w.next, Or.inr rfl, ?_⟩
      rw [huv.2]
      show upd v.rw x _ = _
      rw [hv.2]

end Fptu.Owner
