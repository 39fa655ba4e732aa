import Verif.Lemmas.GearFit
import Verif.Props.BestFit
/-!
# C16 for values whose size changes
-/
namespace Fptu.Props
open Fptu Fptu.Gear Fptu.Rw

/-- Unit `u` belongs to the value of a field other than the one at `a`. -/
def TakenByOthers (σ : Sch) (s : RW) (a u : Nat) : Prop :=
  ∃ b g, b ≠ a ∧ FieldAt σ s b g ∧ b + (s.mem b).lo ≤ u ∧ u < b + (s.mem b).lo + fieldUnits s.mem g b

theorem taken_iff {σ : Sch} {s : RW} {a u : Nat} : Occ s (upd (lenOf σ s) a 0) u ↔ TakenByOthers σ s a u := by
  constructor
  · rintro ⟨b, h1, h2, h3⟩
    have hne : b ≠ a := by rintro rfl; rw [upd_same] at h3; omega
    rw [upd_ne _ _ hne] at h3
    have hf : ∃ g, FieldAt σ s b g := by
      rcases h1 with h1 | h1
      · exact ⟨_, Or.inl ⟨h1, rfl⟩⟩
      · cases hs : σ (b - s.pivot) with
        | some g => exact ⟨g, Or.inr ⟨h1.1, h1.2, hs⟩⟩
        | none =>
          unfold lenOf at h3
          rw [if_neg (by omega), hs] at h3
          simp only at h3
          omega
    obtain ⟨g, hf⟩ := hf
    rw [hf.len] at h3
    exact ⟨b, g, hne, hf, h2, h3⟩
  · rintro ⟨b, g, h1, h2, h3, h4⟩
    exact ⟨b, h2.owner, h3, by rw [upd_ne _ _ h1, h2.len]; exact h4⟩

theorem gap_congr {o o' : Nat → Prop} (h : ∀ u, o u ↔ o' u) : o = o' := funext fun u => propext (h u)

/-- **C16 (partial: resizing).** In every reachable tuple, when the value of a field is replaced by one of another size in units, the new value is placed by best fit among
the gaps which the values of all other fields leave: into the smallest gap that can hold it, the one with the lowest address among those,
and at the end of the data only if there is no such gap. The old place of the value counts as free. Missing: tuples with holes and no free
entry of the index, see `C16_full_refuted`. -/
theorem C16_resize_partial {F : Fix} {σ : Sch} {s s' : RW} {tag a : Nat} {g : Genus} {v : Val} {n : Nat} (h : Reachable F σ s)
    (hat : (isPreplaced tag = true ∧ StretchySlot σ s.pre tag g ∧ a = s.pivot + tag2offset tag / 4) ∨
      (isLoose tag = true ∧ s.live a ∧ (s.mem a).hi = tag % 65536 ∧ ∀ b, s.live b → (s.mem b).hi = tag % 65536 → a ≤ b))
    (hg : tag2genus tag = g) (hfx : g.isFixed = false) (hlo : (s.mem a).lo ≠ 0) (hf : v.fits g = true) (hd : ¬ dropped tag g v)
    (hn : unitsFor g v = some n) (h0 : 0 < n) (hne : fieldUnits s.mem g a ≠ n)
    (hidx : s.jv = 0 ∨ 0 < s.head ∨ ∃ x, s.hole x ∧ s.units x = 0) (hs : setField F s tag g v = .ok () s') :
    BestPlace s.base (TakenByOthers σ s a) n (a + (s'.mem a).lo) := by
  have hw := h.wf
  have hd1 : ¬ (¬ isDiscernible tag ∧ v.isEmpty g) := fun k => hd (Or.inl k)
  have en : v.estimate = .ok n := by
    unfold unitsFor at hn
    rw [hfx, if_neg (by decide)] at hn
    cases he : v.estimate with
    | error e => rw [he] at hn; cases hn
    | ok m => rw [he] at hn; injection hn with hn; rw [hn]
  have hneed : needs g v n := by unfold needs; rw [hfx, if_neg (by decide)]; exact en
  have hfa : FieldAt σ s a g := by
    rcases hat with ⟨h1, h2, h3⟩ | ⟨h1, h2, h3, h4⟩
    · subst h3
      exact Or.inr ⟨Nat.le_add_right _ _, Nat.add_lt_add_left h2.1 _, by rw [Nat.add_sub_cancel_left]; exact h2.2⟩
    · exact Or.inl ⟨h2, by rw [cellGenus_tag _ tag h3, hg]⟩
  have hlen : lenOf σ s a = brutto g s.mem (s.start a) := by
    rw [hfa.len]; unfold fieldUnits
    rw [hfx, if_neg (by decide), if_neg hlo]
  have hpos : 0 < lenOf σ s a := by
    refine hw.pos a g ⟨hfx, hfa⟩ hlo
  have hnu : neededUnits tag g v = .ok n := by
    unfold neededUnits
    rw [if_pos (by
      by_contra k
      rw [not_or, not_not] at k
      exact hd1 k)]
    exact en
  have hs1 : ∃ r, assignStretchy F s tag (some a) g v = .ok r s' := by
    unfold setField at hs
    rcases hat with ⟨h1, h2, h3⟩ | ⟨h1, h2, h3, h4⟩
    · rw [if_pos h1, hfx, if_neg (by decide)] at hs
      obtain ⟨r, t, k1, k2⟩ := Out.bind_ok hs
      injection k2 with _ k2
      subst k2
      rw [h3]; exact ⟨r, k1⟩
    · rw [if_neg (by rw [preplaced_not_loose, h1]; decide)] at hs
      rw [hfx, if_neg (show ¬ (false = true) by decide)] at hs
      split_ifs at hs with c
      obtain ⟨r, t, k1, k2⟩ := Out.bind_ok hs
      injection k2 with _ k2
      subst k2
      have : s.lookup (tag2gid tag) = some a := by
        rw [gid_eq, lookup_some (tag_not_hole (by rw [hg]; exact fits_not_hole hf))]
        exact ⟨⟨h2, h3⟩, fun b hb => h4 b hb.1 hb.2⟩
      rw [this] at k1
      exact ⟨r, k1⟩
  obtain ⟨r, hs1⟩ := hs1
  unfold assignStretchy at hs1
  rw [if_neg (fun k => k hg), hnu] at hs1
  simp only at hs1
  rw [if_neg (by
    rintro ⟨k1, k2⟩
    rcases hat with ⟨m1, _⟩ | ⟨m1, m2, m3, m4⟩
    · rw [preplaced_not_loose, k1] at m1; cases m1
    · rcases k2 with k2 | k2
      · have := m2.2.1; omega
      · rw [cellGenus_tag _ tag m3, hg] at k2; exact k2 rfl), if_pos hlo, ← hlen, if_pos (by rw [hfa.len]; exact hne.symm), if_neg (by omega)] at hs1
  obtain ⟨p, t, k1, k2⟩ := Out.bind_ok hs1
  injection k2 with _ k2
  have hn16 := (estimate_lt hf en hfx).1
  have hne' : lenOf σ s a ≠ n := by rw [hfa.len]; exact hne
  have place := reallocData_place hw.inv hw.canon hfa.owner hpos h0 hn16 hne' hidx k1
  rw [gap_congr (o := Occ s (upd (lenOf σ s) a 0)) (o' := TakenByOthers σ s a) (fun u => taken_iff)] at place
  have post := reallocData_spec hw.inv hw.canon F.swap hfa.owner hpos h0 hn16 hne'
  rw [k1] at post
  have post : ReallocPost s t (lenOf σ s) (fun _ => 0) a n p ∧ _ := post
  have w := (write_spec hf hneed h0 t.mem p).1 a (Or.inl (by
    have := post.1.owner.lt_base
    have hi := post.1.inv.inside (post.1.owner.head_le post.1.inv.hp) post.1.owner.lt_base (by rw [post.1.owner.clen, upd_same]; exact h0)
    rw [post.1.start] at hi
    omega))
  have e : a + (s'.mem a).lo = p := by
    rw [← k2]
    show a + ((v.write t.mem p) a).lo = p
    rw [w]; exact post.1.start
  rw [e]; exact place

/-- The hypotheses are met: there is a hole of three units, and the last value shrinks from five units to two. -/
def shrinkOps : List Op := [setN 1 2, setN 2 3, setN 3 2, setN 4 5, eraseN 2]

example : ∃ s a s', Reachable .code noPre s ∧ setField .code s (nst 4) .nested (nstVal 2 4) = .ok () s' ∧
    BestPlace s.base (TakenByOthers noPre s a) 2 (a + (s'.mem a).lo) ∧ a + (s'.mem a).lo = s.base + 2 := by
  obtain ⟨s, hr, hp⟩ := run_decide (F := .code) (s := fresh 8 60) (ops := shrinkOps)
    (fun s => match setField .code s (nst 4) .nested (nstVal 2 4) with
      | .ok _ s' => decide (s.head = 4 ∧ s.pivot = 8 ∧ (s.mem 4).hi / 2048 ≠ 31 ∧ (s.mem 4).hi = nst 4 % 65536 ∧ (s.mem 4).lo ≠ 0 ∧
          fieldUnits s.mem .nested 4 = 5 ∧ 4 + (s'.mem 4).lo = s.base + 2)
      | _ => false) (by decide +kernel)
  have h : Reachable .code noPre s := (fresh_ok (by decide) (by decide)).reachable (opOk_of (by decide +kernel)) (runBenign_of (by decide +kernel)) hr
  cases hs : setField .code s (nst 4) .nested (nstVal 2 4) with
  | ub => rw [hs] at hp; cases hp
  | exc e t => rw [hs] at hp; cases hp
  | ok u s' =>
    rw [hs] at hp
    obtain ⟨p1, p2, p3, p4, p5, p6, p7⟩ := of_decide_eq_true hp
    refine ⟨s, 4, s', h, hs, C16_resize_partial h (Or.inr ⟨by decide, ⟨by omega, by omega, p3⟩, p4, fun b hb _ => ?_⟩) (by decide) rfl p5 (by decide)
      (by unfold dropped; decide) rfl (by decide) (by rw [p6]; decide) (Or.inr (Or.inl (by omega))) hs, p7⟩
    have := hb.1
    omega

/-- Four entries of the index, all in use; the value in the middle is erased. -/
def fullOps : List Op := [setN 1 2, setN 2 3, setN 3 2, setN 4 5, eraseN 2]
def fullTieOps : List Op := [setN 1 3, setN 2 2, setN 3 2, setN 4 2, setN 5 2, setN 6 2, eraseN 3, eraseN 5]

/-- **C16 (refuted for a full index).** With no free entry of the index, a value at the end of the data stays there although a gap could hold it; and of two gaps of the
right size the one with the higher address is used. -/
theorem C16_full_refuted {F : Fix} (hF : F = .code ∨ F = .repaired) :
    (∃ s s' a q, Reachable F noPre s ∧ setField F s (nst 4) .nested (nstVal 2 4) = .ok () s' ∧ (s.mem a).hi = nst 4 % 65536 ∧
      FreeAt s q 3 ∧ (s'.mem a).lo = (s.mem a).lo ∧ a + (s'.mem a).lo + 2 = s'.tail) ∧
    (∃ s s' a p q, Reachable F noPre s ∧ setField F s (nst 1) .nested (nstVal 2 1) = .ok () s' ∧ (s.mem a).hi = nst 1 % 65536 ∧
      FreeAt s p 2 ∧ FreeAt s q 2 ∧ p < q ∧ a + (s'.mem a).lo = q) := by
  refine ⟨?_, ?_⟩
  · obtain ⟨s, hr, hp⟩ := run_decide (F := F) (s := fresh 4 60) (ops := fullOps)
      (fun s => match setField F s (nst 4) .nested (nstVal 2 4) with
        | .ok _ s' => decide (s.head = 0 ∧ s.pivot = 4 ∧ (s.mem 0).hi = nst 4 % 65536 ∧ (s.mem 2).hi / 2048 = 31 ∧ (s.mem 2).hi % 2048 = 3 ∧
            (s'.mem 0).lo = (s.mem 0).lo ∧ 0 + (s'.mem 0).lo + 2 = s'.tail)
        | _ => false) (by rcases hF with rfl | rfl <;> decide +kernel)
    have h : Reachable F noPre s := (fresh_ok (by decide) (by decide)).reachable (opOk_of (by decide +kernel))
      (runBenign_of (by rcases hF with rfl | rfl <;> decide +kernel)) hr
    cases hs : setField F s (nst 4) .nested (nstVal 2 4) with
    | ub => rw [hs] at hp; cases hp
    | exc e t => rw [hs] at hp; cases hp
    | ok u s' =>
      rw [hs] at hp
      obtain ⟨p1, p2, p3, p4, p5, p6, p7⟩ := of_decide_eq_true hp
      exact ⟨s, s', 0, _, h, hs, p3, ⟨2, by omega, by omega, p4, p5, rfl⟩, p6, p7⟩
  · obtain ⟨s, hr, hp⟩ := run_decide (F := F) (s := fresh 6 60) (ops := fullTieOps)
      (fun s => match setField F s (nst 1) .nested (nstVal 2 1) with
        | .ok _ s' => decide (s.head = 0 ∧ s.pivot = 6 ∧ (s.mem 5).hi = nst 1 % 65536 ∧ (s.mem 3).hi / 2048 = 31 ∧ (s.mem 3).hi % 2048 = 2 ∧
            (s.mem 1).hi / 2048 = 31 ∧ (s.mem 1).hi % 2048 = 2 ∧ 3 + (s.mem 3).lo < 1 + (s.mem 1).lo ∧ 5 + (s'.mem 5).lo = 1 + (s.mem 1).lo)
        | _ => false) (by rcases hF with rfl | rfl <;> decide +kernel)
    have h : Reachable F noPre s := (fresh_ok (by decide) (by decide)).reachable (opOk_of (by decide +kernel))
      (runBenign_of (by rcases hF with rfl | rfl <;> decide +kernel)) hr
    cases hs : setField F s (nst 1) .nested (nstVal 2 1) with
    | ub => rw [hs] at hp; cases hp
    | exc e t => rw [hs] at hp; cases hp
    | ok u s' =>
      rw [hs] at hp
      obtain ⟨p1, p2, p3, p4, p5, p6, p7, p8, p9⟩ := of_decide_eq_true hp
      exact ⟨s, s', 5, _, _, h, hs, p3, ⟨3, by omega, by omega, p4, p5, rfl⟩, ⟨1, by omega, by omega, p6, p7, rfl⟩, p8, p9⟩

end Fptu.Props
