import Verif.Lemmas.WriteDet
import Verif.Lemmas.TupleHist
/-!
# Assigning a field twice: the second value replaces the first one, byte for byte (C79)
-/
namespace Fptu.Memory

theorem setByte_comm (m : Memory) {k l x y : Nat} (h : k ≠ l) (hx : x < 256) (hy : y < 256) :
    (m.setByte k x).setByte l y = (m.setByte l y).setByte k x := by
  have e1 : ∀ h : Nat, y * 256 + (h / 256 * 256 + x) % 256 = (y * 256 + h % 256) / 256 * 256 + x := by intro h; omega
  have e2 : ∀ h : Nat, (x * 256 + h % 256) / 256 * 256 + y = x * 256 + (h / 256 * 256 + y) % 256 := by intro h; omega
  by_cases c : l / 4 = k / 4
  · unfold setByte
    simp only [c, set_same]
    funext u
    by_cases hu : u = k / 4
    · rw [hu, set_same, set_same]
      by_cases c1 : k % 4 < 2 <;> by_cases c2 : l % 4 < 2 <;> simp only [c1, c2, if_true, if_false]
      · by_cases c3 : k % 2 = 0 <;> by_cases c4 : l % 2 = 0 <;> simp only [c3, c4, if_true, if_false]
        · omega
        · rw [e1]
        · rw [e2]
        · omega
      · by_cases c3 : k % 2 = 0 <;> by_cases c4 : l % 2 = 0 <;> simp only [c3, c4, if_true, if_false]
        · omega
        · rw [e1]
        · rw [e2]
        · omega
    · rw [set_ne _ _ hu, set_ne _ _ hu, set_ne _ _ hu, set_ne _ _ hu]
  · have c' : k / 4 ≠ l / 4 := fun hh => c hh.symm
    unfold setByte
    simp only
    funext u
    rw [set_ne _ _ c, set_ne _ _ c']
    by_cases hu : u = l / 4
    · rw [hu, set_same, set_ne _ _ c, set_same]
    · rw [set_ne _ _ hu]
      by_cases hk : u = k / 4
      · rw [hk, set_same, set_same]
      · rw [set_ne _ _ hk, set_ne _ _ hk, set_ne _ _ hu]

theorem writeBytes_setByte (m : Memory) {k l x : Nat} (bs : List Nat) (hb : ∀ b ∈ bs, b < 256) (hx : x < 256) (h : k < l) :
    (m.writeBytes l bs).setByte k x = (m.setByte k x).writeBytes l bs := by
  induction bs generalizing m l with
  | nil => rfl
  | cons b bs ih =>
    show ((m.setByte l b).writeBytes (l + 1) bs).setByte k x = ((m.setByte k x).setByte l b).writeBytes (l + 1) bs
    rw [ih _ (fun y hy => hb y (List.mem_cons_of_mem _ hy)) (by omega),
      setByte_comm m (by omega) (hb b List.mem_cons_self) hx]

/-- Bytes written over bytes. -/
theorem writeBytes_over (m : Memory) {k : Nat} {as bs : List Nat} (hl : as.length = bs.length) (ha : ∀ b ∈ as, b < 256) (hb : ∀ b ∈ bs, b < 256) :
    (m.writeBytes k as).writeBytes k bs = m.writeBytes k bs := by
  induction as generalizing m k bs with
  | nil =>
    cases bs with
    | nil => rfl
    | cons b bs => cases hl
  | cons a as ih =>
    cases bs with
    | nil => cases hl
    | cons b bs =>
      have ha' : ∀ y ∈ as, y < 256 := fun y hy => ha y (List.mem_cons_of_mem _ hy)
      have hb' : ∀ y ∈ bs, y < 256 := fun y hy => hb y (List.mem_cons_of_mem _ hy)
      show (((m.setByte k a).writeBytes (k + 1) as).setByte k b).writeBytes (k + 1) bs = (m.setByte k b).writeBytes (k + 1) bs
      rw [writeBytes_setByte _ _ ha' (hb b List.mem_cons_self) (by omega), setByte_twice _ (ha a List.mem_cons_self)]
      exact ih _ (by simpa using hl) ha' hb'

end Fptu.Memory

namespace Fptu.Rw
open Fptu.Gear

/-- A value written over a value of the same size. -/
theorem write_over {g : Genus} {v w : Val} {n : Nat} (hv : v.fits g) (hw : w.fits g) (nv : needs g v n) (nw : needs g w n) (h0 : 0 < n)
    (m : Memory) (p : Nat) : w.write (v.write m p) p = w.write m p := by
  funext u
  by_cases c : p ≤ u ∧ u < p + n
  · exact write_det hw nw h0 _ _ p c.1 c.2
  · have c' : u < p ∨ p + n ≤ u := by omega
    rw [(write_spec hw nw h0 _ p).1 u c', (write_spec hw nw h0 _ p).1 u c', (write_spec hv nv h0 _ p).1 u c']

/-- What is stored into the entry `a` of a field of fixed size. -/
def fixedPut (s : RW) (a : Nat) (g : Genus) (v : Val) : RW :=
  match v with
  | .inline x => s.setLo a (inlineStore g x)
  | v => RW.withMem s (v.write s.mem (s.start a))

theorem fixedPut_over {s : RW} {a : Nat} {g : Genus} {v w : Val} (hv : v.fits g) (hw : w.fits g) (hfx : g.isFixed = true)
    (ha : 0 < g.looseUnits → a < s.start a) : fixedPut (fixedPut s a g v) a g w = fixedPut s a g w := by
  have nv : needs g v g.looseUnits := by unfold needs; rw [hfx, if_pos rfl]
  have nw : needs g w g.looseUnits := by unfold needs; rw [hfx, if_pos rfl]
  have pay : 0 < g.looseUnits → fixedPut s a g v = RW.withMem s (v.write s.mem (s.start a)) →
      (∀ t : RW, fixedPut t a g w = RW.withMem t (w.write t.mem (t.start a))) → fixedPut (fixedPut s a g v) a g w = fixedPut s a g w := by
    intro h0 e1 e2
    rw [e2, e2, e1]
    have ec : v.write s.mem (s.start a) a = s.mem a := (write_spec hv nv h0 s.mem (s.start a)).1 a (Or.inl (ha h0))
    have es : (RW.withMem s (v.write s.mem (s.start a))).start a = s.start a := by
      show a + (v.write s.mem (s.start a) a).lo = _
      rw [ec]
    rw [es]
    show RW.withMem s (w.write (v.write s.mem (s.start a)) (s.start a)) = _
    rw [write_over hv hw nv nw h0]
  have nostretchy : ∀ x : Val, x.fits g → (∃ y, x = .inline y) ∨ ∃ cs, x = .units cs := by
    intro x hx
    cases x with
    | inline y => exact Or.inl ⟨y, rfl⟩
    | units cs => exact Or.inr ⟨cs, rfl⟩
    | text y => simp only [Val.fits, Bool.and_eq_true, decide_eq_true_eq] at hx; rw [hx.1] at hfx; cases hfx
    | varbin y => simp only [Val.fits, Bool.and_eq_true, decide_eq_true_eq] at hx; rw [hx.1] at hfx; cases hfx
    | property y id => simp only [Val.fits, Bool.and_eq_true, decide_eq_true_eq] at hx; rw [hx.1.1] at hfx; cases hfx
    | nested y =>
      cases y <;> simp only [Val.fits, Bool.and_eq_true, decide_eq_true_eq] at hx
      · rw [hx] at hfx; cases hfx
      · rw [hx.1.1] at hfx; cases hfx
  rcases nostretchy v hv with ⟨x, rfl⟩ | ⟨cs, rfl⟩ <;> rcases nostretchy w hw with ⟨y, rfl⟩ | ⟨ds, rfl⟩
  · show (s.setLo a (inlineStore g x)).setLo a (inlineStore g y) = s.setLo a (inlineStore g y)
    unfold RW.setLo RW.setCell
    congr 1
    funext u
    by_cases hu : u = a
    · rw [hu]; simp only [Memory.set_same]
    · simp only [Memory.set_ne _ _ hu]
  · have := (fits_inline hv).2.2.1; have := (fits_units hw).2.2.2.1; omega
  · have := (fits_inline hw).2.2.1; have := (fits_units hv).2.2.2.1; omega
  · exact pay (fits_units hv).2.2.2.1 rfl fun _ => rfl

theorem lookup_fresh {σ : Sch} {s t : RW} {a w : Nat} (hw : w / 2048 ≠ 31) (o : Others σ s t a) (hl : s.lookup w = none)
    (ha : t.live a) (hi : (t.mem a).hi = w) : t.lookup w = some a := by
  refine (lookup_some hw).2 ⟨⟨ha, hi⟩, fun b hb => ?_⟩
  by_cases c : b = a
  · omega
  · exact absurd ((o.has c).1 hb) ((lookup_none hw).1 hl b)

theorem lookup_again {σ : Sch} {s t : RW} {a w : Nat} (hw : w / 2048 ≠ 31) (o : Others σ s t a) (hl : s.lookup w = some a)
    (ha : t.live a) (hi : (t.mem a).hi = w) : t.lookup w = some a := by
  refine (lookup_some hw).2 ⟨⟨ha, hi⟩, fun b hb => ?_⟩
  by_cases c : b = a
  · omega
  · exact ((lookup_some hw).1 hl).2 b ((o.has c).1 hb)

theorem assignFixed_found {F : Fix} {s : RW} {tag a : Nat} {g : Genus} {w : Val} (hg : tag2genus tag = g) (ha : a < s.pivot)
    (hc : cellGenus (s.mem a) = g) (hd : ¬ (¬ isDiscernible tag ∧ w.isEmpty g)) :
    assignLooseFixed F s tag (some a) g w = .ok (some a) (fixedPut s a g w) := by
  unfold assignLooseFixed
  rw [if_neg (fun h => h hg)]
  show (Out.bind (if a ≥ s.pivot ∨ cellGenus (s.mem a) ≠ g then _ else _) _) = _
  rw [if_neg (by rintro (k | k); exacts [absurd ha (by omega), k hc]), if_neg hd]
  cases w <;> rfl

theorem assignFixed_new {F : Fix} {s s1 : RW} {tag a : Nat} {g : Genus} {w : Val} (hg : tag2genus tag = g)
    (hd : ¬ (¬ isDiscernible tag ∧ w.isEmpty g)) (e : allocLooseWith F.loose s tag g.looseUnits = .ok a s1) :
    assignLooseFixed F s tag none g w = .ok (some a) (fixedPut s1 a g w) := by
  unfold assignLooseFixed
  rw [if_neg (fun h => h hg)]
  show (Out.bind (if ¬ isDiscernible tag ∧ w.isEmpty g then _ else _) _) = _
  rw [if_neg hd, e]
  cases w <;> rfl

theorem fixedPut_same {s : RW} {a : Nat} {g : Genus} {v : Val} : (fixedPut s a g v).pivot = s.pivot ∧ (fixedPut s a g v).head = s.head := by
  cases v <;> exact ⟨rfl, rfl⟩

theorem fixed_cases {g : Genus} {v : Val} (hf : v.fits g) (hfx : g.isFixed = true) : (∃ y, v = .inline y) ∨ ∃ cs, v = .units cs := by
  cases v with
  | inline y => exact Or.inl ⟨y, rfl⟩
  | units cs => exact Or.inr ⟨cs, rfl⟩
  | text y => simp only [Val.fits, Bool.and_eq_true, decide_eq_true_eq] at hf; rw [hf.1] at hfx; cases hfx
  | varbin y => simp only [Val.fits, Bool.and_eq_true, decide_eq_true_eq] at hf; rw [hf.1] at hfx; cases hfx
  | property y id => simp only [Val.fits, Bool.and_eq_true, decide_eq_true_eq] at hf; rw [hf.1.1] at hfx; cases hfx
  | nested y =>
    cases y <;> simp only [Val.fits, Bool.and_eq_true, decide_eq_true_eq] at hf
    · rw [hf] at hfx; cases hfx
    · rw [hf.1.1] at hfx; cases hfx

theorem fixedPut_new {σ : Sch} {s s1 : RW} {g : Genus} {v : Val} {a tag : Nat} (h : WF σ s) (hg : tag2genus tag = g) (hf : v.fits g)
    (hfx : g.isFixed = true) (post : LoosePost s s1 (lenOf σ s) (fun _ => 0) tag g.looseUnits a) (c1 : Canon s1) :
    Others σ s (fixedPut s1 a g v) a ∧ (fixedPut s1 a g v).live a ∧ ((fixedPut s1 a g v).mem a).hi = tag % 65536 := by
  have hn : needs g v g.looseUnits := by unfold needs; rw [hfx, if_pos rfl]
  rcases fixed_cases hf hfx with ⟨x, rfl⟩ | ⟨cs, rfl⟩
  · obtain ⟨_, k2, _, k4, k5, _⟩ := new_inline h hg hf post c1
    exact ⟨k2, k4, k5⟩
  · obtain ⟨_, k2, _, k4, k5, _⟩ := new_payload h hg hf hn (fits_units hf).2.2.2.1 post c1
    exact ⟨k2, k4, k5⟩

theorem fixedPut_old {σ : Sch} {s : RW} {g : Genus} {v : Val} {a : Nat} (h : WF σ s) (hf : v.fits g)
    (hfx : g.isFixed = true) (hl : s.live a) (hcg : cellGenus (s.mem a) = g) :
    Others σ s (fixedPut s a g v) a ∧ (fixedPut s a g v).live a ∧ ((fixedPut s a g v).mem a).hi = (s.mem a).hi := by
  have hn : needs g v g.looseUnits := by unfold needs; rw [hfx, if_pos rfl]
  have hla : lenOf σ s a = g.looseUnits := by
    rw [lenOf_index hl.2.1, hcg]; unfold fieldUnits; rw [hfx, if_pos rfl]
  rcases fixed_cases hf hfx with ⟨x, rfl⟩ | ⟨cs, rfl⟩
  · obtain ⟨_, k2, k3, k4⟩ := inline_write (inlineStore g x) h hl hcg (fits_inline hf).1
    exact ⟨k2, k3, (congrArg Cell.hi k4 : ((s.setLo a (inlineStore g x)).mem a).hi = _)⟩
  · obtain ⟨_, k2, k3, k4, _, _⟩ := owner_write h (same_space h (Or.inl hl) hla) h.canon (Or.inl ⟨hl, hcg⟩) hf hn (fits_units hf).2.2.2.1
    refine ⟨k2, ?_, congrArg Cell.hi k4⟩
    rcases k3 with k3 | k3
    · exact k3.1
    · have := k3.1; have := hl.2.1; exact absurd k3.1 (by show ¬ s.pivot ≤ a; omega)

/-- Assigning a loose field of fixed size twice. -/
theorem looseFixed_over {σ : Sch} {F : Fix} {s t : RW} {g : Genus} {v w : Val} {tag : Nat} {r : Option Nat} (h : WF σ s) (hb : Benign F s g v)
    (hg : tag2genus tag = g) (hf : v.fits g) (hf' : w.fits g) (hfx : g.isFixed = true) (hd : ¬ dropped tag g v) (hd' : ¬ dropped tag g w)
    (e : assignLooseFixed F s tag (s.lookup (tag % 65536)) g v = .ok r t) :
    assignLooseFixed F t tag (t.lookup (tag % 65536)) g w = assignLooseFixed F s tag (s.lookup (tag % 65536)) g w ∧
      ∃ r u, assignLooseFixed F s tag (s.lookup (tag % 65536)) g w = .ok r u := by
  have hw : tag % 65536 / 2048 ≠ 31 := tag_not_hole (by rw [hg]; exact fits_not_hole hf)
  have hn : needs g v g.looseUnits := by unfold needs; rw [hfx, if_pos rfl]
  have hdv : ¬ (¬ isDiscernible tag ∧ v.isEmpty g) := fun k => hd (Or.inl k)
  have hdw : ¬ (¬ isDiscernible tag ∧ w.isEmpty g) := fun k => hd' (Or.inl k)
  cases hlk : s.lookup (tag % 65536) with
  | none =>
    rw [hlk] at e
    have hall := allocLoose_wf h hb hg hf hn
    cases hr : allocLooseWith F.loose s tag g.looseUnits with
    | ub => rw [hr] at hall; exact hall.elim
    | exc x s' =>
      exfalso
      unfold assignLooseFixed at e
      rw [if_neg (fun h => h hg)] at e
      have e : (Out.bind (if ¬ isDiscernible tag ∧ v.isEmpty g then _ else _) _) = _ := e
      rw [if_neg hdv, hr] at e
      cases e
    | ok a s1 =>
      rw [hr] at hall
      obtain ⟨post, c1⟩ := hall
      rw [assignFixed_new hg hdv hr] at e
      injection e with _ e
      have ol : s1.owner a := Or.inl post.live
      have hstart : 0 < g.looseUnits → a < s1.start a := fun h0 => by
        have hin := post.inv.inside (ol.head_le post.inv.hp) ol.lt_base (by rw [ol.clen, upd_same]; exact h0)
        have := ol.lt_base
        omega
      obtain ⟨k2, k4, k5⟩ := fixedPut_new (v := v) h hg hf hfx post c1
      refine ⟨?_, _, _, assignFixed_new hg hdw hr⟩
      rw [assignFixed_new hg hdw hr, ← e, lookup_fresh hw k2 hlk k4 k5,
        assignFixed_found hg k4.2.1 (word_genus hg k5) hdw, fixedPut_over hf hf' hfx hstart]
  | some a =>
    obtain ⟨⟨hl, hword⟩, _⟩ := (lookup_some hw).1 hlk
    have hcg := word_genus hg hword
    rw [hlk, assignFixed_found hg hl.2.1 hcg hdv] at e
    injection e with _ e
    obtain ⟨k2, k4, k5⟩ := fixedPut_old (v := v) h hf hfx hl hcg
    have hla : lenOf σ s a = g.looseUnits := by
      rw [lenOf_index hl.2.1, hcg]; unfold fieldUnits; rw [hfx, if_pos rfl]
    have hstart : 0 < g.looseUnits → a < s.start a := fun h0 => by
      have hge := h.payload_ge (Or.inl hl) (by omega)
      have hlt := RW.owner.lt_base (Or.inl hl : s.owner a)
      omega
    refine ⟨?_, _, _, assignFixed_found hg hl.2.1 hcg hdw⟩
    rw [assignFixed_found hg hl.2.1 hcg hdw, ← e, lookup_again hw k2 hlk k4 (k5.trans hword),
      assignFixed_found hg k4.2.1 (word_genus hg (k5.trans hword)) hdw, fixedPut_over hf hf' hfx hstart]

theorem needed_of {tag n : Nat} {g : Genus} {w : Val} (hfx : g.isFixed = false) (hd : ¬ dropped tag g w) (hn : needs g w n) :
    neededUnits tag g w = .ok n := by
  unfold neededUnits
  rw [if_pos (by by_contra c; rw [not_or] at c; exact hd (Or.inl ⟨c.1, not_not.1 c.2⟩))]
  unfold needs at hn
  rw [hfx, if_neg (by decide)] at hn
  exact hn

theorem needed_pos {tag n : Nat} {g : Genus} {w : Val} (hf : w.fits g) (hfx : g.isFixed = false) (hd : ¬ dropped tag g w) (hn : needs g w n) :
    0 < n := by
  have := (needed_drop hf hfx (needed_of hfx hd hn)).1
  by_contra c
  exact hd (this.1 (by omega))

theorem stretchy_inplace {F : Fix} {s : RW} {tag a n : Nat} {g : Genus} {w : Val} (hg : tag2genus tag = g) (hfx : g.isFixed = false)
    (hd : ¬ dropped tag g w) (hn : needs g w n) (hlp : ¬ (isLoose tag ∧ (a ≥ s.pivot ∨ cellGenus (s.mem a) ≠ g)))
    (h0 : (s.mem a).lo ≠ 0) (hb : brutto g s.mem (s.start a) = n) :
    assignStretchy F s tag (some a) g w = .ok (some a) (RW.withMem s (w.write s.mem (s.start a))) := by
  unfold assignStretchy
  rw [if_neg (fun h => h hg), needed_of hfx hd hn]
  show (if isLoose tag ∧ (a ≥ s.pivot ∨ cellGenus (s.mem a) ≠ g) then _ else _ : Out _) = _
  rw [if_neg hlp, if_pos h0]
  show (if n ≠ brutto g s.mem (s.start a) then _ else _ : Out _) = _
  rw [if_neg (by rw [hb]; exact fun h => h rfl)]

/-- The place found for a value does not depend on the value but for its size. -/
theorem stretchyAt_place {σ : Sch} {F : Fix} {s t : RW} {g : Genus} {v : Val} {tag a n : Nat} {r : Option Nat} (h : WF σ s) (hb : Benign F s g v)
    (hg : tag2genus tag = g) (hf : v.fits g) (hfx : g.isFixed = false) (ha : FieldAt σ s a g)
    (hlp : if isLoose tag then s.live a else s.pivot ≤ a) (hd : ¬ dropped tag g v) (hn : needs g v n)
    (e : assignStretchy F s tag (some a) g v = .ok r t) :
    ∃ s1 p, t = RW.withMem s1 (v.write s1.mem p) ∧ s1.start a = p ∧ a < p ∧
      (∀ w : Val, w.fits g → ¬ dropped tag g w → needs g w n →
        assignStretchy F s tag (some a) g w = .ok (some a) (RW.withMem s1 (w.write s1.mem p))) ∧
      Others σ s t a ∧ FieldAt σ t a g ∧ (t.mem a).hi = (s.mem a).hi := by
  have hpos := needed_pos hf hfx hd hn
  have hne := needed_of hfx hd hn
  have h16 := ((needed_drop hf hfx hne).2 (by omega)).2
  have ho := ha.owner
  have hlt := ho.lt_base
  have hlp' : ¬ (isLoose tag ∧ (a ≥ s.pivot ∨ cellGenus (s.mem a) ≠ g)) := by
    rintro ⟨k1, k2⟩
    rw [if_pos k1] at hlp
    rcases ha with ha | ha
    · rcases k2 with k2 | k2
      · have := hlp.2.1; omega
      · exact k2 ha.2
    · have := hlp.2.1; have := ha.1; omega
  have fin : ∀ (s1 : RW) p, t = RW.withMem s1 (v.write s1.mem p) → ReallocPost s s1 (lenOf σ s) (fun _ => 0) a n p → Canon s1 →
      (∀ w : Val, w.fits g → ¬ dropped tag g w → needs g w n →
        assignStretchy F s tag (some a) g w = .ok (some a) (RW.withMem s1 (w.write s1.mem p))) →
      ∃ s1 p, t = RW.withMem s1 (v.write s1.mem p) ∧ s1.start a = p ∧ a < p ∧
      (∀ w : Val, w.fits g → ¬ dropped tag g w → needs g w n →
        assignStretchy F s tag (some a) g w = .ok (some a) (RW.withMem s1 (w.write s1.mem p))) ∧
      Others σ s t a ∧ FieldAt σ t a g ∧ (t.mem a).hi = (s.mem a).hi := by
    intro s1 p et post c1 hall
    obtain ⟨_, k2, k3, k4, k5, k6⟩ := owner_write h post c1 ha hf hn hpos
    have hst := post.start
    have est : s1.start a = a + (s1.mem a).lo := rfl
    rw [← et] at k2 k3 k4
    exact ⟨s1, p, et, hst, by omega, hall, k2, k3, by rw [k4, k5]⟩
  by_cases c0 : (s.mem a).lo ≠ 0
  · have hlen : lenOf σ s a = brutto g s.mem (s.start a) := by
      rw [ha.len]; unfold fieldUnits
      rw [hfx, if_neg (by decide), if_neg c0]
    have hposl : 0 < lenOf σ s a := h.pos a g ⟨hfx, ha⟩ c0
    by_cases c1 : n = lenOf σ s a
    · have hall : ∀ w : Val, w.fits g → ¬ dropped tag g w → needs g w n →
          assignStretchy F s tag (some a) g w = .ok (some a) (RW.withMem s (w.write s.mem (s.start a))) :=
        fun w _ hdw hnw => stretchy_inplace hg hfx hdw hnw hlp' c0 (by omega)
      rw [hall v hf hd hn] at e
      injection e with _ e
      exact fin s (s.start a) e.symm (same_space h ho c1.symm) h.canon hall
    · have path : ∀ w : Val, ¬ dropped tag g w → needs g w n → assignStretchy F s tag (some a) g w =
          (reallocDataWith F.swap s a (lenOf σ s a) n).bind fun p s => .ok (some a) (RW.withMem s (w.write s.mem p)) := by
        intro w hdw hnw
        unfold assignStretchy
        rw [if_neg (fun h => h hg), needed_of hfx hdw hnw]
        show (if isLoose tag ∧ (a ≥ s.pivot ∨ cellGenus (s.mem a) ≠ g) then _ else _ : Out _) = _
        rw [if_neg hlp', if_pos c0]
        show (if n ≠ brutto g s.mem (s.start a) then _ else _ : Out _) = _
        rw [← hlen, if_pos c1, if_neg (by omega)]
      have key := reallocData_spec h.inv h.canon F.swap ho hposl (needed := n) hpos h16 (fun hh => c1 hh.symm)
      rw [path v hd hn] at e
      cases hr : reallocDataWith F.swap s a (lenOf σ s a) n with
      | ub => rw [hr] at e; cases e
      | exc x s' => rw [hr] at e; cases e
      | ok p s1 =>
        rw [hr] at key e
        injection e with _ e
        have hc : Canon s1 := key.2 (by
          rcases hb.swap with k | k | k | k
          · exact Or.inl k
          · exact Or.inr (Or.inl k)
          · exact Or.inr (Or.inr (Or.inr k))
          · rw [hfx] at k; cases k)
        exact fin s1 p e.symm key.1 hc fun w _ hdw hnw => by rw [path w hdw hnw, hr]; rfl
  · have c0' : (s.mem a).lo = 0 := by omega
    have hlen : lenOf σ s a = 0 := by
      rw [ha.len]; unfold fieldUnits
      rw [hfx, if_neg (by decide), if_pos c0']
    have path : ∀ w : Val, ¬ dropped tag g w → needs g w n → assignStretchy F s tag (some a) g w =
        (allocData s n).bind fun p s => .ok (some a) (RW.withMem (s.setPayload a p) (w.write (s.setPayload a p).mem p)) := by
      intro w hdw hnw
      unfold assignStretchy
      rw [if_neg (fun h => h hg), needed_of hfx hdw hnw]
      show (if isLoose tag ∧ (a ≥ s.pivot ∨ cellGenus (s.mem a) ≠ g) then _ else _ : Out _) = _
      rw [if_neg hlp', if_neg c0, if_neg (by omega)]
    have key := attach_spec (n := n) h ho hlen hpos
    rw [path v hd hn] at e
    cases hr : allocData s n with
    | ub => rw [hr] at e; cases e
    | exc x s' => rw [hr] at e; cases e
    | ok p s1 =>
      rw [hr] at key e
      injection e with _ e
      exact fin (s1.setPayload a p) p e.symm key.1 key.2 fun w _ hdw hnw => by rw [path w hdw hnw, hr]; rfl

theorem write_over_state {s1 : RW} {g : Genus} {v w : Val} {n a p : Nat} (hfx : g.isFixed = false) (hf : v.fits g) (hf' : w.fits g) (hn : needs g v n) (hn' : needs g w n)
    (h0 : 0 < n) (hst : s1.start a = p) (hap : a < p) :
    let t := RW.withMem s1 (v.write s1.mem p)
    (t.mem a).lo ≠ 0 ∧ brutto g t.mem (t.start a) = n ∧ t.start a = p ∧ RW.withMem t (w.write t.mem p) = RW.withMem s1 (w.write s1.mem p) := by
  intro t
  obtain ⟨w1, w2, w3⟩ := write_spec hf hn h0 s1.mem p
  have ea : t.mem a = s1.mem a := w1 a (Or.inl hap)
  have est : s1.start a = a + (s1.mem a).lo := rfl
  have et : t.start a = p := by show a + (t.mem a).lo = p; rw [ea]; exact hst
  refine ⟨by rw [ea]; omega, ?_, et, ?_⟩
  · rw [et]; exact w2 hfx
  · show RW.withMem s1 (w.write (v.write s1.mem p) p) = _
    rw [write_over hf hf' hn hn' h0]

/-- Assigning a stretchy field that is present, twice. -/
theorem stretchyAt_over {σ : Sch} {F : Fix} {s t : RW} {g : Genus} {v w : Val} {tag a n : Nat} {r : Option Nat} (h : WF σ s) (hb : Benign F s g v)
    (hg : tag2genus tag = g) (hf : v.fits g) (hf' : w.fits g) (hfx : g.isFixed = false) (ha : FieldAt σ s a g)
    (hlp : if isLoose tag then s.live a else s.pivot ≤ a) (hd : ¬ dropped tag g v) (hd' : ¬ dropped tag g w) (hn : needs g v n) (hn' : needs g w n)
    (e : assignStretchy F s tag (some a) g v = .ok r t) :
    assignStretchy F t tag (some a) g w = assignStretchy F s tag (some a) g w ∧
      ∃ r u, assignStretchy F s tag (some a) g w = .ok r u := by
  obtain ⟨s1, p, et, hst, hap, hall, ko, kf, kh⟩ := stretchyAt_place h hb hg hf hfx ha hlp hd hn e
  obtain ⟨q1, q2, q3, q4⟩ := write_over_state hfx hf hf' hn hn' (needed_pos hf hfx hd hn) hst hap
  rw [← et] at q1 q2 q3 q4
  refine ⟨?_, _, _, hall w hf' hd' hn'⟩
  rw [hall w hf' hd' hn', stretchy_inplace hg hfx hd' hn' ?_ q1 q2, q3, q4]
  rintro ⟨k1, k2⟩
  rw [if_pos k1] at hlp
  have e2 := ko.pivot
  rcases kf with kf | kf
  · rcases k2 with k2 | k2
    · have := hlp.2.1; omega
    · exact k2 kf.2
  · have := hlp.2.1; have := kf.1; omega

/-- Assigning a loose stretchy field twice. -/
theorem looseStretchy_over {σ : Sch} {F : Fix} {s t : RW} {g : Genus} {v w : Val} {tag n : Nat} {r : Option Nat} (h : WF σ s) (hb : Benign F s g v)
    (hg : tag2genus tag = g) (hf : v.fits g) (hf' : w.fits g) (hfx : g.isFixed = false) (hl : isLoose tag = true)
    (hd : ¬ dropped tag g v) (hd' : ¬ dropped tag g w) (hn : needs g v n) (hn' : needs g w n)
    (e : assignStretchy F s tag (s.lookup (tag % 65536)) g v = .ok r t) :
    assignStretchy F t tag (t.lookup (tag % 65536)) g w = assignStretchy F s tag (s.lookup (tag % 65536)) g w ∧
      ∃ r u, assignStretchy F s tag (s.lookup (tag % 65536)) g w = .ok r u := by
  have hw : tag % 65536 / 2048 ≠ 31 := tag_not_hole (by rw [hg]; exact fits_not_hole hf)
  have hpos := needed_pos hf hfx hd hn
  cases hlk : s.lookup (tag % 65536) with
  | none =>
    rw [hlk] at e
    have path : ∀ w : Val, ¬ dropped tag g w → needs g w n → assignStretchy F s tag none g w =
        (allocLooseWith F.loose s tag n).bind fun a s => .ok (some a) (RW.withMem s (w.write s.mem (s.start a))) := by
      intro w hdw hnw
      unfold assignStretchy
      rw [if_neg (fun h => h hg), needed_of hfx hdw hnw]
      show (if n = 0 then _ else _ : Out _) = _
      rw [if_neg (by omega)]
    have hall := allocLoose_wf h hb hg hf hn
    rw [path v hd hn] at e
    rw [path w hd' hn']
    cases hr : allocLooseWith F.loose s tag n with
    | ub => rw [hr] at e; cases e
    | exc x s' => rw [hr] at e; cases e
    | ok a s1 =>
      rw [hr] at hall e
      obtain ⟨post, c1⟩ := hall
      injection e with _ e
      obtain ⟨_, k2, _, k4, k5, _⟩ := new_payload h hg hf hn hpos post c1
      have ol : s1.owner a := Or.inl post.live
      have hin := post.inv.inside (ol.head_le post.inv.hp) ol.lt_base (by rw [ol.clen, upd_same]; exact hpos)
      have hlt := ol.lt_base
      obtain ⟨q1, q2, q3, q4⟩ := write_over_state (s1 := s1) (a := a) hfx hf hf' hn hn' hpos rfl (by omega)
      rw [e] at q1 q2 q3 q4 k2 k4 k5
      refine ⟨?_, _, _, rfl⟩
      rw [lookup_fresh hw k2 hlk k4 k5, stretchy_inplace hg hfx hd' hn' ?_ q1 q2, q3, q4]
      · rfl
      · rintro ⟨_, k | k⟩
        · have := k4.2.1; omega
        · exact k (word_genus hg k5)
  | some a =>
    obtain ⟨⟨hla, hword⟩, _⟩ := (lookup_some hw).1 hlk
    rw [hlk] at e
    have ha : FieldAt σ s a g := Or.inl ⟨hla, word_genus hg hword⟩
    have hlp : if isLoose tag then s.live a else s.pivot ≤ a := by rw [if_pos hl]; exact hla
    obtain ⟨s1, p, et, hst, hap, hall, ko, kf, kh⟩ := stretchyAt_place h hb hg hf hfx ha hlp hd hn e
    have hlt : t.live a := by
      rcases kf with kf | kf
      · exact kf.1
      · have := ko.pivot; have := kf.1; have := hla.2.1; omega
    rw [lookup_again hw ko hlk hlt (kh.trans hword)]
    exact stretchyAt_over h hb hg hf hf' hfx ha hlp hd hd' hn hn' e

end Fptu.Rw

namespace Fptu.Gear

/-- Shrinking a payload fails only for want of an index entry for the rest, and never at the end of the data. -/
theorem reallocShrink {s : RW} {len : Nat → Nat} {ex : Nat → ℤ} (h : Inv s len ex) (hC : Canon s) (fixed : Bool) {ref needed : Nat}
    (ho : s.owner ref) (hneed : 0 < needed) (hless : needed < len ref) :
    (reallocDataWith fixed s ref (len ref) needed).Sat (2047 < s.jv + len ref)
      (fun e s' => s' = s ∧ e = .insufficientSpace 1 needed ∧ s.head = 0 ∧ (∀ a, s.hole a → s.units a ≠ 0) ∧ s.start ref + len ref ≠ s.tail)
      (fun _ _ => True) := by
  have h16 := h.lt16
  have htl := h.tl
  have hin := h.inside (ho.head_le h.hp) ho.lt_base (by rw [ho.clen]; omega)
  rw [ho.clen] at hin
  have key := reallocData_spec h hC fixed ho (by omega) hneed (by omega) (needed := needed) (by omega)
  cases hr : reallocDataWith fixed s ref (len ref) needed with
  | ub => rw [hr] at key; exact key
  | ok p t => trivial
  | exc e s' =>
    rw [hr] at key
    refine ⟨key.1, ?_⟩
    unfold reallocDataWith at hr
    by_cases cj : s.jv = 0
    · rw [if_pos cj] at hr
      by_cases ct : s.start ref + len ref = s.tail
      · rw [if_pos ct, if_neg (by omega)] at hr; cases hr
      · rw [if_neg ct, if_neg (by omega)] at hr
        have ki := indexAlloc_spec h needed
        cases hi : indexAlloc s needed with
        | ub => rw [hi] at hr; cases hr
        | exc x s1 =>
          rw [hi] at hr ki
          injection hr with h1 h2
          exact ⟨by rw [← h1]; exact ki.2.1, ki.2.2.1, ki.2.2.2, ct⟩
        | ok z s1 =>
          rw [hi] at hr
          exfalso
          have hr : ((s1.setUnits z (len ref - needed)).bind fun _ s =>
            Out.ok ((s.setPayload z (s.start ref + needed)).start ref) { s.setPayload z (s.start ref + needed) with
              jc := add16 (s.setPayload z (s.start ref + needed)).jc 1, jv := add16 (s.setPayload z (s.start ref + needed)).jv (len ref - needed) }) = _ := hr
          by_cases cu : 2047 < len ref - needed
          · rw [setUnits_ub _ _ cu] at hr; cases hr
          · rw [setUnits_ok _ _ (by omega)] at hr; cases hr
    · rw [if_neg cj] at hr
      obtain ⟨before, after, hla, adj⟩ := lookupAdjacent_spec s h.cnt (s.start ref) (s.start ref + len ref)
      rw [hla] at hr
      simp only at hr
      rw [if_neg (by omega)] at hr
      have ex0 : lookupExact s 0 = some (if s.jc < 1 then none else s.lookup (holeWord 0)) := by
        unfold lookupExact
        by_cases cc : s.jc < 1
        · rw [if_pos (Or.inl cc), if_pos cc]
        · rw [if_neg (by omega), if_neg (by omega), if_neg cc]
      have ex0s : ∀ z, (lookupExact s 0).join = some z → s.hole z ∧ s.units z = 0 := by
        intro z hz
        rw [ex0] at hz
        have hz : (if s.jc < 1 then none else s.lookup (holeWord 0)) = some z := hz
        split_ifs at hz
        exact lookup_hole_some (by omega) hz
      have ex0n : (lookupExact s 0).join = none → ∀ a, s.hole a → s.units a ≠ 0 := by
        intro hz a ha
        rw [ex0] at hz
        have hz : (if s.jc < 1 then none else s.lookup (holeWord 0)) = none := hz
        have := h.jc_pos ha
        rw [if_neg (by omega)] at hz
        exact lookup_hole_none hz a ha
      have hadj0 : optUnits s before + optUnits s after > 0 → before ≠ none ∨ after ≠ none := by
        intro hg
        cases before with
        | some b => exact Or.inl (by simp)
        | none =>
          cases after with
          | some b => exact Or.inr (by simp)
          | none => unfold optUnits at hg; simp at hg
      set h4r : Option Nat := if optUnits s before + optUnits s after > 0 ∨ s.head > 0 then none else (lookupExact s 0).join with hh4r
      have hr4 : ∀ z, h4r = some z → s.hole z ∧ s.units z = 0 := by
        intro z hz
        rw [hh4r] at hz
        split_ifs at hz
        exact ex0s z hz
      by_cases c2 : ¬ (optUnits s before + optUnits s after > 0 ∨ s.head > 0 ∨ h4r.isSome = true)
      · rw [if_pos c2] at hr
        push Not at c2
        obtain ⟨c2a, c2b, c2c⟩ := c2
        have h4n : (lookupExact s 0).join = none := by
          rw [hh4r, if_neg (by omega)] at c2c
          cases hx : (lookupExact s 0).join with
          | none => rfl
          | some z => rw [hx] at c2c; exact absurd rfl c2c
        refine ⟨?_, by omega, ex0n h4n, ?_⟩
        · cases hle : lookupExact s needed with
          | none => rw [hle] at hr; cases hr
          | some o =>
            rw [hle] at hr
            cases o with
            | none =>
              simp only at hr
              split_ifs at hr
              · injection hr with h1 _; exact h1.symm
              · injection hr with h1 _; exact h1.symm
            | some z =>
              exfalso
              simp only at hr
              by_cases cu : 2047 < len ref
              · rw [setUnits_ub _ _ cu] at hr; cases hr
              · rw [setUnits_ok _ _ (by omega)] at hr
                simp only [Out.bind] at hr
                split_ifs at hr
        · intro ct
          cases hle : lookupExact s needed with
          | none => rw [hle] at hr; cases hr
          | some o =>
            rw [hle] at hr
            cases o with
            | none =>
              simp only at hr
              rw [if_pos ct, if_neg (by omega)] at hr
              cases hr
            | some z =>
              simp only at hr
              by_cases cu : 2047 < len ref
              · rw [setUnits_ub _ _ cu] at hr; cases hr
              · rw [setUnits_ok _ _ (by omega)] at hr
                simp only [Out.bind] at hr
                split_ifs at hr
      · exfalso
        rw [if_neg c2, if_pos (by omega)] at hr
        have kk := releaseAndAlloc_spec h hC ho (by omega) hneed (by omega) (h4a := none) adj hr4 (by
          rw [not_not] at c2
          rcases c2 with c | c | c
          · rcases hadj0 c with k | k
            · exact Or.inl k
            · exact Or.inr (Or.inl k)
          · exact Or.inr (Or.inr (Or.inr c))
          · exact Or.inr (Or.inr (Or.inl (by intro k; rw [k] at c; cases c)))) (Or.inl ⟨rfl, Or.inl (by omega)⟩)
        rw [hr] at kk
        exact kk

end Fptu.Gear
