import Verif.Lemmas.CapiErase
import Verif.Props.TupleRW
import Verif.Props.TupleDefects
/-! # C36: `fptu_erase` on tuples -/
namespace Fptu.Props
open Fptu Fptu.Gear Fptu.Rw Fptu.CapiRw

private theorem sel_word {column tf w : Nat} (hw : w < 65536) : Sel column tf w ↔ Selected w column tf := by
  unfold Sel; rw [Nat.mod_eq_of_lt hw]

private theorem word_fields {σ : Sch} {s : RW} (h : WF σ s) : ∀ f ∈ fieldsOf s, f.1 < 65536 := by
  intro f hf
  unfold fieldsOf at hf
  obtain ⟨a, ha, rfl⟩ := Multiset.mem_map.1 hf
  exact h.word a (mem_liveSet.1 ha)

private theorem eraseFields_eq {s : RW} {column tf : Nat} (hc : column ≤ 2047) :
    eraseFields s column tf = (eraseLoop column tf s.pivot s (Capi.first (fun i => (s.mem i).hi % 65536) s.head s.pivot column tf) 0).bind
      fun n s => .ok (.ok n) s := by
  unfold eraseFields
  rw [if_neg (by rw [show maxIdent = 2047 from rfl]; omega)]

private theorem live_sel {σ : Sch} {s : RW} {column tf b : Nat} (h1 : s.head ≤ b) (h2 : b < s.pivot)
    (h3 : Sel column tf (s.mem b).hi) : s.live b := by
  refine ⟨h1, h2, fun hh => h3.1 ?_⟩
  have hh : (s.mem b).hi / 2048 = 31 := hh
  unfold wordGenus
  omega

/-- **C36 (erase, filters).** On every reachable tuple `fptu_erase` with a set of types removes exactly the fields of the
column whose type is in the set, and returns their number; every other field, loose or preplaced, reads as before. It never
fails. Missing: if the junk and the values removed have more than 2047 units, the allocator's assertion may fail (C12). -/
theorem C36_erase_tuple_partial {F : Fix} {σ : Sch} {s : RW} {column tf : Nat} (h : Reachable F σ s) (hc : column ≤ 2047) (htf : tf < 2 ^ 31) :
    (∀ e s', eraseFields s column tf ≠ .exc e s') ∧ (s.jv + unitsWhere s (Sel column tf) ≤ 2047 → eraseFields s column tf ≠ .ub) ∧
    ∀ r s', eraseFields s column tf = .ok r s' →
      r = .ok ((fieldsOf s).countP fun f => Selected f.1 column tf) ∧
      fieldsOf s' = (fieldsOf s).filter (fun f => ¬ Selected f.1 column tf) ∧
      LooseKept s s' (fun w => ¬ Selected w column tf) ∧ PreplacedKept σ s s' 0 0 := by
  have hfirst := C36_first (fun i => (s.mem i).hi % 65536) (fun i => Nat.mod_lt _ (by decide)) s.head s.pivot column tf hc (Or.inl htf)
  rw [eraseFields_eq hc]
  generalize Capi.first (fun i => (s.mem i).hi % 65536) s.head s.pivot column tf = p at hfirst
  have key := eraseLoop_spec hc htf h.wf p 0
    (by rcases hfirst with ⟨e, _⟩ | ⟨_, e, _⟩ <;> omega)
    (by
      intro hp
      rcases hfirst with ⟨e, _⟩ | ⟨e1, e2, e3, _⟩
      · omega
      · exact ⟨live_sel (σ := σ) e1 e2 e3, e3⟩)
    (by
      intro b hb hs
      by_contra hlt
      rcases hfirst with ⟨e, e4⟩ | ⟨_, _, _, e4⟩
      · exact e4 b hb.1 hb.2.1 hs
      · exact e4 b hb.1 (by omega) hs)
  cases hr : eraseLoop column tf s.pivot s p 0 with
  | ub =>
    rw [hr] at key
    refine ⟨fun e s' he => (by cases he), fun hl => absurd key (not_lt.2 (by rw [← unitsWhere_eq]; exact hl)), fun r s' he => (by cases he)⟩
  | exc e s' => rw [hr] at key; exact key.elim
  | ok n t =>
    rw [hr] at key
    obtain ⟨k, hk, k1, k2, k3, k4, k5⟩ := key
    refine ⟨fun e s' he => (by cases he), fun _ he => (by cases he), fun r s' he => ?_⟩
    have e1 : (Except.ok n : Except Code Nat) = r := by injection he
    have e2 : t = s' := by injection he
    subst e1 e2
    have hword := word_fields h.wf
    have hfields : fieldsOf t = (fieldsOf s).filter (fun f => ¬ Selected f.1 column tf) := by
      rw [k3]
      exact Multiset.filter_congr fun f hf => by rw [sel_word (hword f hf)]
    refine ⟨?_, hfields, ⟨fun w hw => ?_, fun tag g hg hv hne => ?_⟩, ?_⟩
    · rw [hk, Nat.zero_add, k4]
      congr 1
      exact Multiset.countP_congr rfl fun f hf => by rw [sel_word (hword f hf)]
    · rw [hfields, Multiset.filter_filter]
      refine Multiset.filter_congr fun f _ => ?_
      constructor
      · exact fun k => k.1
      · exact fun k => ⟨k, by rw [k]; exact hw⟩
    · unfold getLoose
      by_cases hc' : isLooseCollection tag = true
      · rw [if_pos hc', if_pos hc']
      · rw [if_neg hc', if_neg hc', gid_eq]
        have hw := tag_not_hole hg
        have hhas : ∀ b, RW.has s (tag % 65536) b → ¬ Sel column tf (s.mem b).hi := fun b hb1 hb2 => by
          rw [hb1.2, sel_word (Nat.mod_lt _ (by decide))] at hb2; exact hne hb2
        have e : t.lookup (tag % 65536) = s.lookup (tag % 65536) := lookup_congr hw fun b => by
          unfold RW.has
          rw [k2.live b]
          constructor
          · rintro ⟨⟨h1, h2⟩, h3⟩
            refine ⟨h1, ?_⟩
            rw [← (k2.kept b (fun hh => h2 hh.2) (Or.inl h1)).cell]; exact h3
          · rintro ⟨h1, h3⟩
            have h2 := hhas b ⟨h1, h3⟩
            exact ⟨⟨h1, h2⟩, by rw [(k2.kept b (fun hh => h2 hh.2) (Or.inl h1)).cell]; exact h3⟩
        rw [e]
        cases hlk : s.lookup (tag % 65536) with
        | none => rfl
        | some b =>
          have hb := ((lookup_some hw).1 hlk).1
          exact getEntry_kept h.wf hv hb.1 hb.2 (k2.kept b (fun hh => hhas b hb hh.2) (Or.inl hb.1))
    · exact PreplacedKept.of_kept h.wf k2.pivot k2.pre
        (fun b h1 h2 _ => k2.kept b (fun hh => by have := hh.1.2.1; omega) (Or.inr ⟨h1, h2⟩)) ⟨rfl, rfl⟩

/-- **C36 (erase, one type).** With a type instead of a set `fptu_erase` removes one field of the column and type, when there
is one, and nothing else; the result says whether there was one. Whether "all" was meant, the code does not tell: the
counterpart of the loop of a filter stops after the first field. Missing: the same. -/
theorem C36_erase_tuple_type_partial {F : Fix} {σ : Sch} {s : RW} {column : Nat} {g : Genus} (h : Reachable F σ s) (hc : column ≤ 2047) (hg : g ≠ .hole) :
    (∀ e s', eraseFields s column (makeTag g 0 true true false) ≠ .exc e s') ∧
    (s.jv + unitsWhere s (· = g.code * 2048 + column) ≤ 2047 → eraseFields s column (makeTag g 0 true true false) ≠ .ub) ∧
    ∀ r s', eraseFields s column (makeTag g 0 true true false) = .ok r s' →
      r = .ok (min 1 ((fieldsOf s).countP fun f => f.1 = g.code * 2048 + column)) ∧
      (s' = s ∧ (∀ f ∈ fieldsOf s, f.1 ≠ g.code * 2048 + column) ∨ ∃ old, fieldsOf s = (g.code * 2048 + column, old) ::ₘ fieldsOf s') ∧
      LooseKept s s' (fun w => w ≠ g.code * 2048 + column) ∧ PreplacedKept σ s s' 0 0 := by
  have hcode : g.code < 31 := by cases g <;> first | decide | exact absurd rfl hg
  have htg : makeTag g 0 true true false / 2 ^ 31 % 2 = 1 ∧ makeTag g 0 true true false % 65536 / 2048 = g.code := by
    cases g <;> decide
  have hsel : ∀ w, w < 65536 → (Sel column (makeTag g 0 true true false) w ↔ w = g.code * 2048 + column) := by
    intro w hw
    rw [sel_word hw]
    unfold Selected wordGenus wordColumn
    rw [if_pos htg.1, htg.2]
    omega
  have hnf : Capi.isFilter (makeTag g 0 true true false) = false := by cases g <;> decide
  have hfirst := C36_first (fun i => (s.mem i).hi % 65536) (fun i => Nat.mod_lt _ (by decide)) s.head s.pivot column _ hc (Or.inr ⟨g, hg, rfl⟩)
  rw [eraseFields_eq hc]
  generalize Capi.first (fun i => (s.mem i).hi % 65536) s.head s.pivot column (makeTag g 0 true true false) = p at hfirst
  rw [eraseLoop]
  have hword := word_fields h.wf
  rcases hfirst with ⟨e, hnone⟩ | ⟨e1, e2, e3, _⟩
  · rw [dif_neg (by omega)]
    have hn : ∀ f ∈ fieldsOf s, f.1 ≠ g.code * 2048 + column := by
      intro f hf hw
      have hb := hword f hf
      unfold fieldsOf at hf
      obtain ⟨a, ha, rfl⟩ := Multiset.mem_map.1 hf
      have ha := mem_liveSet.1 ha
      exact hnone a ha.1 ha.2.1 ((hsel _ hb).2 hw)
    refine ⟨fun e s' he => (by cases he), fun _ he => (by cases he), fun r s' he => ?_⟩
    have e1 : (Except.ok 0 : Except Code Nat) = r := by injection he
    have e2 : s = s' := by injection he
    subst e1 e2
    refine ⟨?_, Or.inl ⟨rfl, hn⟩, LooseKept.refl _ _, PreplacedKept.refl σ _⟩
    rw [Multiset.countP_eq_zero.2 hn]; rfl
  · have hl : s.live p := live_sel (σ := σ) e1 e2 e3
    have hpw : (s.mem p).hi = g.code * 2048 + column := (hsel _ (h.wf.word p hl)).1 e3
    have hef : eraseField s p = eraseEntry s p := by unfold eraseField; rw [if_neg hl.2.2]
    rw [dif_pos e2, hef]
    have key := eraseEntry_spec h.wf hl
    cases hr : eraseEntry s p with
    | ub =>
      rw [hr] at key
      have key : 2047 < s.jv + lenOf σ s p := key
      have := le_sumOf (σ := σ) (· = g.code * 2048 + column) hl hpw
      rw [unitsWhere_eq (σ := σ)]
      exact ⟨fun e s' he => (by cases he), fun _ _ => by omega, fun r s' he => (by cases he)⟩
    | exc e s' => rw [hr] at key; exact key.elim
    | ok _ t =>
      rw [hr] at key
      obtain ⟨k1, k2, k3, k4, k5⟩ := key
      dsimp only
      rw [hnf, if_neg (by decide)]
      refine ⟨fun e s' he => (by cases he), fun _ he => (by cases he), fun r s' he => ?_⟩
      have e1 : (Except.ok (0 + 1) : Except Code Nat) = r := by injection he
      have e2 : t = s' := by injection he
      subst e1 e2
      have ef : fieldsOf s = (g.code * 2048 + column, (entryAt s p).2) ::ₘ fieldsOf t := by
        rw [fields_remove h.wf k2 hl k3]
        congr 1
        exact Prod.ext hpw rfl
      refine ⟨?_, Or.inr ⟨_, ef⟩, LooseKept.of_others h.wf k2 (fun _ => hpw) (fun hh => absurd hh k3),
        PreplacedKept.of_others h.wf k2 (Or.inl hl.2.1)⟩
      rw [ef, Multiset.countP_cons_of_pos (p := fun f : Nat × Option Val => f.1 = g.code * 2048 + column) _ rfl]
      congr 1

/-- Columns above the limit are rejected, nothing changes. -/
theorem C36_erase_tuple_column {s : RW} {column tf : Nat} (hc : column > 2047) : eraseFields s column tf = .ok (.error .inval) s := by
  unfold eraseFields
  rw [if_pos (by rw [show maxIdent = 2047 from rfl]; exact hc)]

/-- The hypotheses meet a tuple with a hole and two fields of the column; both go. -/
example : ∃ s t, Reachable .code noPre s ∧ s.tail ≤ s.base + 2047 ∧ eraseFields s 4 (2 ^ 31 - 1) = .ok (.ok 2) t ∧
    (liveSet s).card = 5 ∧ (liveSet t).card = 3 := by
  obtain ⟨s, hr, hp⟩ := run_decide (F := .code) (s := fresh 8 60) (ops := goodOps ++ [setF .u32 4 3]) (fun s =>
      decide ((liveSet s).card = 5 ∧ s.tail ≤ s.base + 2047) && match eraseFields s 4 (2 ^ 31 - 1) with
        | .ok (.ok n) t => decide (n = 2 ∧ (liveSet t).card = 3)
        | _ => false) (by decide +kernel)
  rw [Bool.and_eq_true] at hp
  obtain ⟨hp1, hp2⟩ := hp
  have hp1 := of_decide_eq_true hp1
  have hre : Reachable .code noPre s := (fresh_ok (by decide) (by decide)).reachable (opOk_of (by decide +kernel)) (runBenign_of (by decide +kernel)) hr
  cases e : eraseFields s 4 (2 ^ 31 - 1) with
  | ub => rw [e] at hp2; cases hp2
  | exc x t => rw [e] at hp2; cases hp2
  | ok r t =>
    rw [e] at hp2
    cases r with
    | error c => cases hp2
    | ok n =>
      have hp2 := of_decide_eq_true hp2
      exact ⟨s, t, hre, hp1.2, by rw [e, hp2.1], hp1.1, hp2.2⟩

end Fptu.Props
