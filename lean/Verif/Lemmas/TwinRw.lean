import Verif.Lemmas.Twin
import Verif.Lemmas.WriteDet
import Verif.Lemmas.TupleHist
/-!
# Two runs of an operation of a tuple on memories that agree on the used part
-/
namespace Fptu.Gear
variable {K : Ctx} {D : Nat → Prop} {s s' : RW} {α β : Type}

theorem Sim.bindE {P : α → RW → (Nat → Prop) → Prop} {Q : β → RW → (Nat → Prop) → Prop} {o o' : Out α} {f f' : α → RW → Out β}
    (h : Sim K D P o o')
    (hf : ∀ a t t' D', o = .ok a t → (∀ u, D u → D' u) → Twin K D' t t' → P a t D' → Sim K D' Q (f a t) (f' a t')) :
    Sim K D Q (o.bind f) (o'.bind f') := by
  cases o <;> cases o' <;> first | exact h.elim | skip
  · obtain ⟨e, D', h1, h2, h3⟩ := h
    subst e
    exact Sim.mono h1 (hf _ _ _ _ rfl h1 h2 h3) (fun _ _ _ h => h)
  · exact h
  · exact h

/-- The second run ends with what is known about the end of the first one. -/
theorem Sim.withEq {P Q : α → RW → (Nat → Prop) → Prop} {o o' : Out α} (h : Sim K D P o o')
    (hpq : ∀ a t D', o = .ok a t → t.tail ≤ K.lim → P a t D' → Q a t D') : Sim K D Q o o' := by
  cases o <;> cases o' <;> first | exact h.elim | skip
  · obtain ⟨e, D', h1, h2, h3⟩ := h
    exact ⟨e, D', h1, h2, hpq _ _ _ rfl h2.tl h3⟩
  · exact h
  · exact h

end Fptu.Gear

namespace Fptu.Rw
open Fptu.Gear
variable {K : Ctx} {D : Nat → Prop} {s s' : RW} {σ : Sch} {F : Fix}

theorem Twin.write (h : Twin K D s s') {g : Genus} {v : Val} {n : Nat} (hf : v.fits g) (hn : needs g v n) (h0 : 0 < n) {p : Nat}
    (hp : p + n ≤ K.lim) : Twin K (fun u => D u ∨ (p ≤ u ∧ u < p + n)) (RW.withMem s (v.write s.mem p)) (RW.withMem s' (v.write s'.mem p)) where
  same := by obtain ⟨m', rfl⟩ := h.ex; rfl
  pivot := h.pivot
  pre := h.pre
  lim := h.lim
  hp := h.hp
  pl := h.pl
  tl := h.tl
  eq := by
    intro u hu
    show v.write s'.mem p u = v.write s.mem p u
    by_cases c : p ≤ u ∧ u < p + n
    · exact write_det hf hn h0 _ _ p c.1 c.2
    · rw [(write_spec hf hn h0 s.mem p).1 u (by omega), (write_spec hf hn h0 s'.mem p).1 u (by omega)]
      exact h.eq u (hu.resolve_right c)
  out := by
    intro u hu
    show v.write s.mem p u = _ ∧ v.write s'.mem p u = _
    rw [(write_spec hf hn h0 s.mem p).1 u (by omega), (write_spec hf hn h0 s'.mem p).1 u (by omega)]
    exact h.out u (fun hd => hu (Or.inl hd))
  bd := by
    intro u hu
    rcases hu with hu | hu
    · exact h.bd u hu
    · omega

theorem Cov.write {p n : Nat} (hc : Cov (fun u => p ≤ u ∧ u < p + n) D s) (m : Memory) :
    Cov none' (fun u => D u ∨ (p ≤ u ∧ u < p + n)) (RW.withMem s m) := fun u h1 h2 => Or.inl (hc u h1 h2)

theorem Cov.any {X : Nat → Prop} (hc : Cov none' D s) : Cov X D s := hc.weaken (fun _ h => h.elim)

theorem write_sim {α : Type} (h : Twin K D s s') {g : Genus} {v : Val} {n : Nat} (hf : v.fits g) (hn : needs g v n) (h0 : 0 < n) {p : Nat} {r : α}
    (hp : p + n ≤ K.lim) (hc : Cov (fun u => p ≤ u ∧ u < p + n) D s) :
    Sim K D (fun _ t D' => Cov none' D' t) (.ok r (RW.withMem s (v.write s.mem p))) (.ok r (RW.withMem s' (v.write s'.mem p))) :=
  .ok (fun _ h => Or.inl h) (Twin.write h hf hn h0 hp) (Cov.write hc _)

theorem Twin.bytes (h : Twin K D s s') {k : Nat} {bs : List Nat} (hk : ∀ u, k / 4 ≤ u → u < (k + bs.length + 3) / 4 → D u) :
    Twin K D (RW.withMem s (s.mem.writeBytes k bs)) (RW.withMem s' (s'.mem.writeBytes k bs)) where
  same := by obtain ⟨m', rfl⟩ := h.ex; rfl
  pivot := h.pivot
  pre := h.pre
  lim := h.lim
  hp := h.hp
  pl := h.pl
  tl := h.tl
  eq := fun u hu => Memory.writeBytes_congr bs (h.eq u hu)
  out := by
    intro u hu
    have : u < k / 4 ∨ (k + bs.length + 3) / 4 ≤ u := by
      by_contra c
      exact hu (hk u (by omega) (by omega))
    show s.mem.writeBytes k bs u = _ ∧ s'.mem.writeBytes k bs u = _
    rw [Memory.writeBytes_cell _ _ _ _ this, Memory.writeBytes_cell _ _ _ _ this]
    exact h.out u hu
  bd := h.bd

/-- What a single modification keeps: the used part stays known. -/
abbrev Good {α : Type} : α → RW → (Nat → Prop) → Prop := fun _ t D' => Cov none' D' t

theorem releaseDataF_twin (h : Twin K D s s') (hc : Cov none' D s) {chunk n : Nat} :
    Sim K D Good (releaseDataF F s chunk n) (releaseDataF F s' chunk n) := by
  have key := releaseData_twin h hc (chunk := chunk) (n := n)
  unfold releaseDataF
  cases h1 : releaseData s chunk n <;> cases h2 : releaseData s' chunk n <;> rw [h1, h2] at key <;> first | exact key.elim | skip
  · exact key
  · obtain ⟨e, k⟩ := key
    subst e
    cases F.rel with
    | true => exact .exc h hc
    | false => exact ⟨rfl, k⟩
  · exact key

/-- The fixed-size argument of a setter. -/
theorem fits_fixed {g : Genus} {v : Val} (hf : v.fits g) (hfx : g.isFixed = true) : (∃ x, v = .inline x ∧ g.looseUnits = 0) ∨ ((∃ cs, v = .units cs) ∧ 0 < g.looseUnits) := by
  cases v with
  | inline x => exact Or.inl ⟨x, rfl, (fits_inline hf).2.2.1⟩
  | units cs => exact Or.inr ⟨⟨cs, rfl⟩, (fits_units hf).2.2.2.1⟩
  | text v =>
    simp only [Val.fits, Bool.and_eq_true, decide_eq_true_eq] at hf
    rw [hf.1] at hfx; cases hfx
  | varbin v =>
    simp only [Val.fits, Bool.and_eq_true, decide_eq_true_eq] at hf
    rw [hf.1] at hfx; cases hfx
  | property v id =>
    simp only [Val.fits, Bool.and_eq_true, decide_eq_true_eq] at hf
    rw [hf.1.1] at hfx; cases hfx
  | nested v =>
    cases v <;> simp only [Val.fits, Bool.and_eq_true, decide_eq_true_eq] at hf
    · rw [hf] at hfx; cases hfx
    · rw [hf.1.1] at hfx; cases hfx

/-- An entry with the space for its value. -/
def Space (K : Ctx) (n : Nat) (a : Nat) (t : RW) (D : Nat → Prop) : Prop :=
  D a ∧ Cov (fun u => t.start a ≤ u ∧ u < t.start a + n) D t ∧ (0 < n → t.start a + n ≤ K.lim)

theorem allocLoose_space (hw : WF σ s) (h : Twin K D s s') (hc : Cov none' D s) {g : Genus} {v : Val} {tag n : Nat} (hb : Benign F s g v)
    (hg : tag2genus tag = g) (hf : v.fits g) (hn : needs g v n) :
    Sim K D (Space K n) (allocLooseWith F.loose s tag n) (allocLooseWith F.loose s' tag n) := by
  have hlim := h.lim
  have hll := hw.inv.ll
  have hbt := hw.inv.bt
  have hbase : s.base = s.pivot + s.pre := rfl
  refine Sim.withEq (allocLoose_twin h hc F.loose (by omega) (by omega)) ?_
  rintro a t D' e ht ⟨k1, k2⟩
  have key := allocLoose_wf hw hb hg hf hn
  rw [e] at key
  obtain ⟨post, _⟩ := key
  refine ⟨k1, k2, fun h0 => ?_⟩
  have ol : t.owner a := Or.inl post.live
  have hin := post.inv.inside (ol.head_le post.inv.hp) ol.lt_base (by rw [ol.clen, upd_same]; exact h0)
  rw [ol.clen, upd_same] at hin
  omega

/-- Storing a fixed-size value in the space of an entry. -/
def putFixed (g : Genus) (a : Nat) (s : RW) (v : Val) : RW :=
  match v with
  | .inline x => s.setLo a (inlineStore g x)
  | v => RW.withMem s (v.write s.mem (s.start a))

theorem fixed_sim (h : Twin K D s s') {g : Genus} {v : Val} {a : Nat} {β : Type} {r : β} (hf : v.fits g) (hfx : g.isFixed = true)
    (hs : Space K g.looseUnits a s D) :
    Sim K D Good (.ok r (putFixed g a s v)) (.ok r (putFixed g a s' v)) := by
  obtain ⟨s1, s2, s3⟩ := hs
  rcases fits_fixed hf hfx with ⟨x, rfl, h0⟩ | ⟨⟨cs, rfl⟩, h0⟩
  · refine .ok (fun _ h => h) (h.setLo s1 _) ?_
    have : Cov none' D s := s2.weaken (fun u hu => by omega)
    exact this
  · show Sim K D Good (.ok r (RW.withMem s ((Val.units cs).write s.mem (s.start a)))) (.ok r (RW.withMem s' ((Val.units cs).write s'.mem (s'.start a))))
    rw [h.start s1]
    exact write_sim h hf (by unfold needs; rw [hfx, if_pos rfl]) h0 (s3 h0) s2

theorem payload_space (hw : WF σ s) (h : Twin K D s s') (hc : Cov none' D s) {a : Nat} (ho : s.owner a) (ha : D a) :
    Space K (lenOf σ s a) a s D := by
  refine ⟨ha, (Cov.any hc), fun h0 => ?_⟩
  have := hw.payload_ge ho h0
  have := h.tl
  omega

theorem assignLooseFixed_twin (hw : WF σ s) (h : Twin K D s s') (hc : Cov none' D s) {g : Genus} {v : Val} {tag : Nat} (hb : Benign F s g v)
    (hf : v.fits g) (hfx : g.isFixed = true) :
    Sim K D Good (assignLooseFixed F s tag (s.lookup (tag2gid tag)) g v) (assignLooseFixed F s' tag (s'.lookup (tag2gid tag)) g v) := by
  unfold assignLooseFixed
  by_cases hg : tag2genus tag ≠ g
  · rw [if_pos hg, if_pos hg]; exact .exc h hc
  · rw [if_neg hg, if_neg hg]
    have hg : tag2genus tag = g := by_contra hg
    have hword : tag % 65536 / 2048 ≠ 31 := tag_not_hole (by rw [hg]; exact fits_not_hole hf)
    obtain ⟨l1, l2⟩ := lookup_twin h hc (tag2gid tag)
    rw [l1]
    refine Sim.bind (P := fun (r : Option Nat) t D' => match r with | none => Cov none' D' t | some a => Space K g.looseUnits a t D') ?_ ?_
    · cases hl : s.lookup (tag2gid tag) with
      | none =>
        simp only
        by_cases c : ¬ isDiscernible tag ∧ v.isEmpty g
        · rw [if_pos c, if_pos c]; exact .ok (fun _ h => h) h hc
        · rw [if_neg c, if_neg c]
          refine (allocLoose_space hw h hc hb hg hf (by unfold needs; rw [hfx, if_pos rfl])).bind fun a t t' D' hm ht k => ?_
          exact .ok (fun _ h => h) ht k
      | some a =>
        obtain ⟨a1, a2⟩ := l2 a hl
        rw [gid_eq] at hl
        obtain ⟨⟨hla, hwd⟩, _⟩ := (lookup_some hword).1 hl
        have hcg := word_genus hg hwd
        have hlen : lenOf σ s a = g.looseUnits := by
          rw [lenOf_index hla.2.1, hcg]; unfold fieldUnits; rw [hfx, if_pos rfl]
        simp only
        rw [h.eq a a2, h.piv]
        by_cases c1 : a ≥ s.pivot ∨ cellGenus (s.mem a) ≠ g
        · rw [if_pos c1, if_pos c1]; exact .exc h hc
        · rw [if_neg c1, if_neg c1]
          by_cases c : ¬ isDiscernible tag ∧ v.isEmpty g
          · rw [if_pos c, if_pos c]
            refine (releaseLoose_twin h hc ⟨a1, a2⟩).bind fun _ t t' D' hm ht k => ?_
            exact .ok (fun _ h => h) ht k
          · rw [if_neg c, if_neg c]
            refine .ok (fun _ h => h) h ?_
            show Space K g.looseUnits a s D
            rw [← hlen]
            exact payload_space hw h hc (Or.inl hla) a2
    · intro r t t' D' hm ht k
      cases r with
      | none => exact .ok (fun _ h => h) ht k
      | some a => exact fixed_sim ht hf hfx k

theorem mem_len {g : Genus} {a : Nat} (hw : WF σ s) (h : Twin K D s s') (hc : Cov none' D s) (hfx : g.isFixed = false) (ha : FieldAt σ s a g)
    (c0 : (s.mem a).lo ≠ 0) : lenOf σ s a = brutto g s.mem (s.start a) ∧ 0 < lenOf σ s a ∧ brutto g s'.mem (s.start a) = brutto g s.mem (s.start a) := by
  have hlen : lenOf σ s a = brutto g s.mem (s.start a) := by
    rw [ha.len]; unfold fieldUnits
    rw [hfx, if_neg (by decide), if_neg c0]
  have hpos : 0 < lenOf σ s a := hw.pos a g ⟨hfx, ha⟩ c0
  refine ⟨hlen, hpos, brutto_congr g ?_⟩
  have := hw.payload_ge ha.owner hpos
  have hp := hw.inv.hp
  have hbase : s.base = s.pivot + s.pre := rfl
  exact h.eq _ (hc.data (by omega) (by omega))

theorem assignStretchyAt_twin (hw : WF σ s) (h : Twin K D s s') (hc : Cov none' D s) {g : Genus} {v : Val} {tag a : Nat}
    (hf : v.fits g) (hfx : g.isFixed = false) (ha : tag2genus tag = g → FieldAt σ s a g)
    (hlp : tag2genus tag = g → if isLoose tag then s.live a else s.pivot ≤ a) :
    Sim K D Good (assignStretchy F s tag (some a) g v) (assignStretchy F s' tag (some a) g v) := by
  unfold assignStretchy
  by_cases hg : tag2genus tag ≠ g
  · rw [if_pos hg, if_pos hg]; exact .exc h hc
  rw [if_neg hg, if_neg hg]
  have hg : tag2genus tag = g := by_contra hg
  have ha := ha hg
  have hlp := hlp hg
  cases hn : neededUnits tag g v with
  | error e => exact .exc h hc
  | ok n =>
    obtain ⟨hn0, hn1⟩ := needed_drop hf hfx hn
    have ho := ha.owner
    have hlt := ho.lt_base
    have hbt := hw.inv.bt
    have hhead := ho.head_le hw.inv.hp
    have hD : D a := hc.data hhead (by omega)
    show Sim K D Good (if isLoose tag ∧ (a ≥ s.pivot ∨ cellGenus (s.mem a) ≠ g) then _ else _ : Out _)
      (if isLoose tag ∧ (a ≥ s'.pivot ∨ cellGenus (s'.mem a) ≠ g) then _ else _ : Out _)
    rw [h.piv, h.eq a hD]
    by_cases c : isLoose tag ∧ (a ≥ s.pivot ∨ cellGenus (s.mem a) ≠ g)
    · rw [if_pos c, if_pos c]; exact .exc h hc
    rw [if_neg c, if_neg c]
    by_cases c0 : (s.mem a).lo ≠ 0
    · rw [if_pos c0, if_pos c0]
      obtain ⟨hlen, hpos, hbr⟩ := mem_len hw h hc hfx ha c0
      show Sim K D Good (if n ≠ brutto g s.mem (s.start a) then _ else _ : Out _) (if n ≠ brutto g s'.mem (s'.start a) then _ else _ : Out _)
      rw [h.start hD, hbr, ← hlen]
      by_cases c1 : n ≠ lenOf σ s a
      · rw [if_pos c1, if_pos c1]
        by_cases c2 : n = 0
        · rw [if_pos c2, if_pos c2]
          by_cases c3 : isLoose tag
          · rw [if_pos c3, if_pos c3]
            rw [if_pos c3] at hlp
            refine (releaseLoose_twin h hc ⟨h.pivot ▸ hlp.2.1, hD⟩).bind fun _ t t' D' hm ht k => ?_
            exact .ok (fun _ h => h) ht k
          · rw [if_neg c3, if_neg c3]
            refine (releaseDataF_twin h hc).bind fun _ t t' D' hm ht k => ?_
            exact .ok (fun _ h => h) (ht.setLo (hm a hD) 0) k
        · rw [if_neg c2, if_neg c2]
          obtain ⟨hneeds, h16⟩ := hn1 c2
          have key := reallocData_spec hw.inv hw.canon F.swap ho hpos (needed := n) (by omega) h16 (fun hh => c1 hh.symm)
          refine (reallocData_twin h hc F.swap hD).bindE fun p t t' D' e hm ht k => ?_
          rw [e] at key
          have post := key.1
          have ol := post.owner
          have hin := post.inv.inside (ol.head_le post.inv.hp) ol.lt_base (by rw [ol.clen, upd_same]; omega)
          rw [ol.clen, upd_same, post.start] at hin
          have := ht.tl
          exact write_sim ht hf hneeds (by omega) (by omega) k
      · rw [if_neg c1, if_neg c1]
        have c1 : n = lenOf σ s a := by omega
        obtain ⟨hneeds, h16⟩ := hn1 (by omega)
        have := hw.payload_ge ho hpos
        have := h.tl
        exact write_sim h hf hneeds (by omega) (by omega) (Cov.any hc)
    · rw [if_neg c0, if_neg c0]
      by_cases c2 : n = 0
      · rw [if_pos c2, if_pos c2]; exact .ok (fun _ h => h) h hc
      · rw [if_neg c2, if_neg c2]
        obtain ⟨hneeds, h16⟩ := hn1 c2
        have hlen : lenOf σ s a = 0 := by
          rw [ha.len]; unfold fieldUnits
          rw [hfx, if_neg (by decide), if_pos (by omega)]
        have key := attach_spec (n := n) hw ho hlen (by omega)
        refine (allocData_twin h hc).bindE fun p t t' D' e hm ht k => ?_
        rw [e] at key
        have post := key.1
        have ol := post.owner
        have hin := post.inv.inside (ol.head_le post.inv.hp) ol.lt_base (by rw [ol.clen, upd_same]; omega)
        rw [ol.clen, upd_same, post.start] at hin
        have htl : (t.setPayload a p).tail = t.tail := rfl
        have := ht.tl
        have t1 := ht.setPayload (hm a hD) p
        exact write_sim t1 hf hneeds (by omega) (by omega) (fun u h1 h2 => k u h1 h2)

theorem assignStretchy_twin (hw : WF σ s) (h : Twin K D s s') (hc : Cov none' D s) {g : Genus} {v : Val} {tag : Nat} (hb : Benign F s g v)
    (hf : v.fits g) (hfx : g.isFixed = false) (hl : isLoose tag = true) :
    Sim K D Good (assignStretchy F s tag (s.lookup (tag2gid tag)) g v) (assignStretchy F s' tag (s'.lookup (tag2gid tag)) g v) := by
  obtain ⟨l1, l2⟩ := lookup_twin h hc (tag2gid tag)
  rw [l1]
  cases hlk : s.lookup (tag2gid tag) with
  | none =>
    unfold assignStretchy
    by_cases hg : tag2genus tag ≠ g
    · rw [if_pos hg, if_pos hg]; exact .exc h hc
    rw [if_neg hg, if_neg hg]
    have hg : tag2genus tag = g := by_contra hg
    cases hn : neededUnits tag g v with
    | error e => exact .exc h hc
    | ok n =>
      obtain ⟨hn0, hn1⟩ := needed_drop hf hfx hn
      show Sim K D Good (if n = 0 then _ else _ : Out _) (if n = 0 then _ else _ : Out _)
      by_cases c : n = 0
      · rw [if_pos c, if_pos c]; exact .ok (fun _ h => h) h hc
      · rw [if_neg c, if_neg c]
        obtain ⟨hneeds, h16⟩ := hn1 c
        refine (allocLoose_space hw h hc hb hg hf hneeds).bind fun a t t' D' hm ht k => ?_
        obtain ⟨k1, k2, k3⟩ := k
        rw [ht.start k1]
        exact write_sim ht hf hneeds (by omega) (k3 (by omega)) k2
  | some a =>
    have e : tag2genus tag = g → s.live a ∧ cellGenus (s.mem a) = g := by
      intro hg
      have hword : tag % 65536 / 2048 ≠ 31 := tag_not_hole (by rw [hg]; exact fits_not_hole hf)
      rw [gid_eq] at hlk
      obtain ⟨⟨hla, hwd⟩, _⟩ := (lookup_some hword).1 hlk
      exact ⟨hla, word_genus hg hwd⟩
    exact assignStretchyAt_twin hw h hc hf hfx (fun hg => Or.inl (e hg)) (fun hg => by rw [if_pos hl]; exact (e hg).1)

theorem slot_known (hw : WF σ s) (hc : Cov none' D s) {tag : Nat} {g : Genus} {bs : List Nat} (hs : FixedSlot σ s.pre tag g)
    (hl : bs.length = g.preplacedBytes) :
    ∀ u, (4 * s.pivot + tag2offset tag) / 4 ≤ u → u < (4 * s.pivot + tag2offset tag + bs.length + 3) / 4 → D u := by
  intro u h1 h2
  have := hs.1
  have hp := hw.inv.hp
  have hbt := hw.inv.bt
  have hbase : s.base = s.pivot + s.pre := rfl
  exact hc.data (by omega) (by omega)

theorem setField_twin (hw : WF σ s) (h : Twin K D s s') (hc : Cov none' D s) {g : Genus} {v : Val} {tag : Nat} (hb : Benign F s g v)
    (ht : TokenOk σ s.pre tag) (hf : v.fits g) : Sim K D Good (setField F s tag g v) (setField F s' tag g v) := by
  have ht2 := preplaced_not_loose tag
  unfold setField
  cases hp : isPreplaced tag with
  | true =>
    have hnl : isLoose tag = false := by rw [hp] at ht2; simpa using ht2.symm
    have hslot := ht.2 hp
    rw [if_pos rfl, if_pos rfl]
    cases hfx : g.isFixed with
    | true =>
      rw [if_pos rfl, if_pos rfl]
      unfold assignPreplacedFixed
      by_cases hg : tag2genus tag ≠ g
      · rw [if_pos hg, if_pos hg]; exact .exc h hc
      rw [if_neg hg, if_neg hg]
      have hg : tag2genus tag = g := by_contra hg
      rw [hg, hfx, if_pos rfl] at hslot
      rw [h.piv]
      exact .ok (fun _ h => h) (Twin.bytes h (slot_known hw hc hslot (bytes_length hf hfx))) hc
    | false =>
      rw [if_neg Bool.false_ne_true, if_neg Bool.false_ne_true]
      rw [h.piv]
      refine (assignStretchyAt_twin hw h hc hf hfx ?_ ?_).bind fun _ t t' D' hm ht k => .ok (fun _ h => h) ht k
      · intro hg
        rw [hg, hfx, if_neg (by decide)] at hslot
        have hbase : s.base = s.pivot + s.pre := rfl
        have := hslot.1
        exact Or.inr ⟨by omega, by omega, by rw [Nat.add_sub_cancel_left]; exact hslot.2⟩
      · intro hg
        rw [hnl, if_neg (by decide)]; omega
  | false =>
    have hl : isLoose tag = true := by rw [hp] at ht2; simpa using ht2.symm
    rw [if_neg Bool.false_ne_true, if_neg Bool.false_ne_true]
    by_cases c : isLooseCollection tag = true
    · rw [if_pos c, if_pos c]; exact .exc h hc
    rw [if_neg c, if_neg c]
    cases hfx : g.isFixed with
    | true =>
      rw [if_pos rfl, if_pos rfl]
      exact (assignLooseFixed_twin hw h hc hb hf hfx).bind fun _ t t' D' hm ht k => .ok (fun _ h => h) ht k
    | false =>
      rw [if_neg Bool.false_ne_true, if_neg Bool.false_ne_true]
      exact (assignStretchy_twin hw h hc hb hf hfx hl).bind fun _ t t' D' hm ht k => .ok (fun _ h => h) ht k

theorem insertField_twin (hw : WF σ s) (h : Twin K D s s') (hc : Cov none' D s) {g : Genus} {v : Val} {tag : Nat} (hb : Benign F s g v)
    (hf : v.fits g) : Sim K D Good (insertField F s tag g v) (insertField F s' tag g v) := by
  unfold insertField
  by_cases hg : tag2genus tag ≠ g
  · rw [if_pos hg, if_pos hg]; exact .exc h hc
  rw [if_neg hg, if_neg hg]
  have hg : tag2genus tag = g := by_contra hg
  by_cases c1 : ¬ isLooseCollection tag = true
  · rw [if_pos c1, if_pos c1]; exact .exc h hc
  rw [if_neg c1, if_neg c1]
  by_cases c2 : ¬ isDiscernible tag ∧ v.isEmpty g
  · rw [if_pos c2, if_pos c2]; exact .ok (fun _ h => h) h hc
  rw [if_neg c2, if_neg c2]
  cases hfx : g.isFixed with
  | true =>
    rw [if_pos rfl, if_pos rfl]
    refine (allocLoose_space hw h hc hb hg hf (by unfold needs; rw [hfx, if_pos rfl])).bind fun a t t' D' hm ht k => ?_
    exact fixed_sim ht hf hfx k
  | false =>
    rw [if_neg Bool.false_ne_true, if_neg Bool.false_ne_true]
    cases he : v.estimate with
    | error e => exact .exc h hc
    | ok n =>
      have hneeds : needs g v n := by unfold needs; rw [hfx, if_neg (by decide)]; exact he
      refine (allocLoose_space hw h hc hb hg hf hneeds).bind fun a t t' D' hm ht k => ?_
      obtain ⟨k1, k2, k3⟩ := k
      by_cases c : n ≠ 0
      · rw [if_pos c, if_pos c, ht.start k1]
        exact write_sim ht hf hneeds (by omega) (k3 (by omega)) k2
      · rw [if_neg c, if_neg c]
        exact .ok (fun _ h => h) ht (k2.weaken fun u hu => by omega)

theorem eraseEntry_twin (hw : WF σ s) (h : Twin K D s s') (hc : Cov none' D s) {a : Nat} (hl : s.live a) :
    Sim K D Good (eraseEntry s a) (eraseEntry s' a) := by
  have hD : D a := hc.idx hl.1 hl.2.1
  have e : fieldUnits s'.mem (cellGenus (s'.mem a)) a = fieldUnits s.mem (cellGenus (s.mem a)) a := by
    rw [h.eq a hD]
    unfold fieldUnits
    cases hfx : (cellGenus (s.mem a)).isFixed with
    | true => rw [if_pos rfl, if_pos rfl]
    | false =>
      rw [if_neg Bool.false_ne_true, if_neg Bool.false_ne_true, h.eq a hD]
      by_cases c0 : (s.mem a).lo = 0
      · rw [if_pos c0, if_pos c0]
      · rw [if_neg c0, if_neg c0]
        exact (mem_len hw h hc hfx (Or.inl ⟨hl, rfl⟩) c0).2.2
  unfold eraseEntry
  rw [e]
  exact releaseLoose_twin h hc ⟨h.pivot ▸ hl.2.1, hD⟩

theorem eraseRange_twin {w : Nat} (hword : w / 2048 ≠ 31) (field : Option Nat) (count : Nat) : ∀ (D : Nat → Prop) (s s' : RW), WF σ s →
    Twin K D s s' → Cov none' D s → (∀ a, field = some a → RW.has s w a) →
    Sim K D Good (eraseRange s w field count) (eraseRange s' w field count) := by
  intro D s s' hw h hc hfield
  induction hk : s.pivot - field.getD 0 using Nat.strong_induction_on generalizing D s s' field count with
  | _ m ih => ?_
  subst hk
  cases field with
  | none =>
    unfold eraseRange
    exact .ok (fun _ h => h) h hc
  | some a =>
    have ha := hfield a rfl
    have hap := ha.1.2.1
    have hap' : a < s'.pivot := by rw [h.piv]; exact hap
    rw [eraseRange, eraseRange]
    rw [dif_pos hap, dif_pos hap']
    have key := eraseEntry_spec hw ha.1
    have sim := eraseEntry_twin hw h hc ha.1
    cases hr : eraseEntry s a <;> cases hr' : eraseEntry s' a <;> rw [hr] at key <;> rw [hr, hr'] at sim <;> first | exact sim.elim | skip
    · rename_i u t u' t'
      obtain ⟨_, D', hm, tt, ct⟩ := sim
      obtain ⟨k1, k2, k3, k4, k5⟩ := key
      have live' : ∀ b, a + 1 ≤ b → b < t.pivot → (t.mem b).hi = w → RW.has t w b := by
        intro b h1 h2 h3
        have hnh : ¬ Cell.isHole (t.mem b) := by
          intro hh
          have hh : (t.mem b).hi / 2048 = 31 := hh
          rw [h3] at hh; exact hword hh
        have e : (t.mem b).hi = (s.mem b).hi := (k5 b).resolve_right hnh
        have hne : b ≠ a := by omega
        refine ⟨(k2.live b hne).2 ⟨?_, ?_, ?_⟩, h3⟩
        · have := ha.1.1; omega
        · have := k2.pivot; omega
        · intro hh
          apply hnh
          have hh : (s.mem b).hi / 2048 = 31 := hh
          show (t.mem b).hi / 2048 = 31
          rw [e]; exact hh
      show Sim K D Good (if hp : t.pivot = s.pivot then _ else _ : Out Nat) (if hp : t'.pivot = s'.pivot then _ else _ : Out Nat)
      have hp' : t'.pivot = s'.pivot := by rw [tt.piv, h.piv, k2.pivot]
      rw [dif_pos k2.pivot, dif_pos hp']
      have en : nextEntry t' w a = nextEntry t w a := by
        unfold nextEntry
        rw [tt.piv]
        refine lookupFrom_eq w _ fun x h1 h2 => tt.eq x (hm x (hc.idx ?_ ?_))
        · have := ha.1.1; omega
        · have := k2.pivot; omega
      refine Sim.mono hm (D1 := D') ?_ (fun _ _ _ h => h)
      split
      · rename_i hn
        split
        · exact .ok (fun _ h => h) tt ct
        · rename_i hn'
          rw [en, hn] at hn'; cases hn'
      · rename_i b hn
        obtain ⟨n1, n2, n3, n4⟩ := lookupFrom_some hn
        have hab : a < b := by omega
        rw [dif_pos hab]
        split
        · rename_i hn'
          rw [en, hn] at hn'; cases hn'
        · rename_i b' hn'
          rw [en, hn] at hn'
          obtain rfl := Option.some.inj hn'
          rw [dif_pos hab]
          have hbt := live' b n1 n2 n3
          exact ih (t.pivot - b) (by simp only [Option.getD_some]; have := k2.pivot; omega) (some b) (count + 1) D' t t' k1 tt ct
            (fun x hx => Option.some.inj hx ▸ hbt) rfl
    · exact key.elim
    · exact trivial

theorem eraseLoose_twin (hw : WF σ s) (h : Twin K D s s') (hc : Cov none' D s) {tag : Nat} (hg : tag2genus tag ≠ .hole) :
    Sim K D Good (eraseLoose s tag) (eraseLoose s' tag) := by
  have hword := tag_not_hole hg
  obtain ⟨l1, l2⟩ := lookup_twin h hc (tag2gid tag)
  unfold eraseLoose
  rw [l1]
  have found : ∀ a, s.lookup (tag2gid tag) = some a → RW.has s (tag % 65536) a := by
    intro a ha
    rw [gid_eq] at ha
    exact ((lookup_some hword).1 ha).1
  by_cases c : isLooseCollection tag = true
  · rw [if_pos c, if_pos c]
    refine eraseRange_twin (by rw [gid_eq]; exact hword) _ 0 D s s' hw h hc fun a ha => ?_
    rw [gid_eq]
    exact found a ha
  · rw [if_neg c, if_neg c]
    cases hl : s.lookup (tag2gid tag) with
    | none => exact .ok (fun _ h => h) h hc
    | some a =>
      have ha := found a hl
      simp only
      rw [h.eq a (l2 a hl).2]
      by_cases c2 : cellGenus (s.mem a) ≠ tag2genus tag
      · rw [if_pos c2, if_pos c2]; exact .exc h hc
      · rw [if_neg c2, if_neg c2]
        exact (eraseEntry_twin hw h hc ha.1).bind fun _ t t' D' hm ht k => .ok (fun _ h => h) ht k

theorem erasePreplacedAt_twin (hw : WF σ s) (h : Twin K D s s') (hc : Cov none' D s) {tag : Nat} (ht : TokenOk σ s.pre tag)
    (hp : isPreplaced tag = true) : Sim K D Good (erasePreplacedAt F s tag) (erasePreplacedAt F s' tag) := by
  have hslot := ht.2 hp
  unfold erasePreplacedAt
  simp only
  rw [h.piv]
  cases hfx : (tag2genus tag).isFixed with
  | true =>
    rw [hfx, if_pos rfl] at hslot
    rw [if_pos rfl, if_pos rfl]
    have e1 : (if isDiscernible tag = true then denilBytes (tag2genus tag) else List.replicate (tag2genus tag).preplacedBytes 0).length = (tag2genus tag).preplacedBytes := by
      split_ifs
      · exact denil_length _
      · exact List.length_replicate
    exact .ok (fun _ h => h) (Twin.bytes h (slot_known hw hc hslot e1)) hc
  | false =>
    rw [hfx, if_neg (by decide)] at hslot
    rw [if_neg Bool.false_ne_true, if_neg Bool.false_ne_true]
    have hbase : s.base = s.pivot + s.pre := rfl
    have h1 := hslot.1
    have hhp := hw.inv.hp
    have hbt := hw.inv.bt
    have hD : D (s.pivot + tag2offset tag / 4) := hc.data (by omega) (by omega)
    have hfa : FieldAt σ s (s.pivot + tag2offset tag / 4) (tag2genus tag) :=
      Or.inr ⟨by omega, by omega, by rw [Nat.add_sub_cancel_left]; exact hslot.2⟩
    rw [h.eq _ hD]
    by_cases c0 : (s.mem (s.pivot + tag2offset tag / 4)).lo ≠ 0
    · rw [if_pos c0, if_pos c0, h.start hD, (mem_len hw h hc hfx hfa c0).2.2]
      refine (releaseDataF_twin h hc).bind fun _ t t' D' hm ht k => ?_
      exact .ok (fun _ h => h) (ht.setLo (hm _ hD) 0) k
    · rw [if_neg c0, if_neg c0]; exact .ok (fun _ h => h) h hc

theorem stretchy_preplaced : ∀ g : Genus, g.isFixed = false → g.preplacedBytes = 4 := by
  intro g; cases g <;> decide

/-- Bytes of a preplaced field. -/
theorem slot_bytes (hw : WF σ s) (h : Twin K D s s') (hc : Cov none' D s) {tag : Nat} (ht : TokenOk σ s.pre tag) (hp : isPreplaced tag = true)
    (hal : (tag2genus tag).isFixed = false → tag2offset tag % 4 = 0) :
    s'.mem.readBytes (4 * s.pivot + tag2offset tag) (tag2genus tag).preplacedBytes = s.mem.readBytes (4 * s.pivot + tag2offset tag) (tag2genus tag).preplacedBytes := by
  have hslot := ht.2 hp
  have hhp := hw.inv.hp
  have hbt := hw.inv.bt
  have hbase : s.base = s.pivot + s.pre := rfl
  have hb : tag2offset tag + (tag2genus tag).preplacedBytes ≤ 4 * s.pre := by
    cases hfx : (tag2genus tag).isFixed with
    | true => rw [hfx, if_pos rfl] at hslot; exact hslot.1
    | false =>
      rw [hfx, if_neg (by decide)] at hslot
      have := hslot.1
      have := hal hfx
      have := stretchy_preplaced _ hfx
      omega
  refine Memory.readBytes_congr fun i hi => Memory.byte_congr (h.eq _ (hc.data (by omega) (by omega)))

theorem erasePreplaced_twin (hw : WF σ s) (h : Twin K D s s') (hc : Cov none' D s) {tag : Nat} (ht : TokenOk σ s.pre tag) (hp : isPreplaced tag = true)
    (hal : (tag2genus tag).isFixed = false → tag2offset tag % 4 = 0) : Sim K D Good (erasePreplaced F s tag) (erasePreplaced F s' tag) := by
  have e : preplacedExist s' tag = preplacedExist s tag := by
    unfold preplacedExist preplacedIsNull
    simp only
    rw [h.piv, slot_bytes hw h hc ht hp hal]
  unfold erasePreplaced
  rw [e]
  by_cases c : preplacedExist s tag = true
  · rw [if_pos c, if_pos c]
    exact (erasePreplacedAt_twin hw h hc ht hp).bind fun _ t t' D' hm ht k => .ok (fun _ h => h) ht k
  · rw [if_neg c, if_neg c]; exact .ok (fun _ h => h) h hc

/-- A preplaced field of variable length lies at a unit boundary, as every schema places it (schema.cxx:196-217). -/
def Op.Aligned : Op → Prop
  | .erase tag => isPreplaced tag = true → (tag2genus tag).isFixed = false → tag2offset tag % 4 = 0
  | _ => True

theorem step_twin (hw : WF σ s) (h : Twin K D s s') (hc : Cov none' D s) {op : Op} (hop : OpOk σ s.pre op) (hb : StepBenign F s op)
    (hal : op.Aligned) : Sim K D Good (step F s op) (step F s' op) := by
  cases op with
  | set tag g v => exact setField_twin hw h hc hb.1 hop.1 hop.2
  | insert tag g v => exact (insertField_twin hw h hc hb hop.2).bind fun _ t t' D' hm ht k => .ok (fun _ h => h) ht k
  | erase tag =>
    show Sim K D Good (if isPreplaced tag then _ else _ : Out Unit) (if isPreplaced tag then _ else _ : Out Unit)
    by_cases c : isPreplaced tag = true
    · rw [if_pos c, if_pos c]
      exact (erasePreplaced_twin hw h hc hop c (hal c)).bind fun _ t t' D' hm ht k => .ok (fun _ h => h) ht k
    · rw [if_neg c, if_neg c]
      exact (eraseLoose_twin hw h hc hop.1).bind fun _ t t' D' hm ht k => .ok (fun _ h => h) ht k

end Fptu.Rw
