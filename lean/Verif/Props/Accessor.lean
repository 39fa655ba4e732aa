import Verif.Lemmas.Accessor
import Verif.Props.TupleDefects
import Verif.Props.Iterate
/-!
# C66 accessors, C67 iterators over collections

What can be said about holding a pointer to a field: `tuple[token]` and the iterators of `tuple.collection(token)`.
-/
namespace Fptu.Props
open Fptu.Gear Fptu.Rw

/-! ## C66 -/

/-- What a user does with a field: assign, read, ask for the presence, remove if present; and anything with other
fields. -/
inductive Act where
  | assign (g : Genus) (v : Val)
  | get (g : Genus)
  | exist
  | remove
  | other (op : Op)

/-- What the user sees. -/
inductive Seen where
  | done
  | thrown (e : Exc)
  | value (r : Except Exc (Option Val))
  | present (b : Bool)

/-- The user keeps an accessor and works through it. Exceptions are caught. `none`: undefined behaviour. -/
def viaAcc (F : Fix) : RW → Acc → List Act → Option (List Seen × RW)
  | s, _, [] => some ([], s)
  | s, acc, .assign g v :: as =>
    match acc.assign F s g v with
    | .ub => none
    | .exc e s' => (viaAcc F s' acc as).map fun p => (.thrown e :: p.1, p.2)
    | .ok acc' s' => (viaAcc F s' acc' as).map fun p => (.done :: p.1, p.2)
  | s, acc, .get g :: as => (viaAcc F s acc as).map fun p => (.value (acc.get s g) :: p.1, p.2)
  | s, acc, .exist :: as => (viaAcc F s acc as).map fun p => (.present acc.exist :: p.1, p.2)
  | s, acc, .remove :: as =>
    if acc.exist then
      match acc.remove s with
      | .ub => none
      | .exc e s' => (viaAcc F s' acc as).map fun p => (.thrown e :: p.1, p.2)
      | .ok acc' s' => (viaAcc F s' acc' as).map fun p => (.done :: p.1, p.2)
    else (viaAcc F s acc as).map fun p => (.done :: p.1, p.2)
  | s, acc, .other op :: as =>
    match step F s op with
    | .ub => none
    | .exc e s' => (viaAcc F s' acc as).map fun p => (.thrown e :: p.1, p.2)
    | .ok _ s' => (viaAcc F s' acc as).map fun p => (.done :: p.1, p.2)

/-- The same by token: `set_*(token, value)`, `get_*(token)`, a lookup, `erase(token)`. -/
def viaTok (F : Fix) (tag : Nat) : RW → List Act → Option (List Seen × RW)
  | s, [] => some ([], s)
  | s, .assign g v :: as =>
    match setField F s tag g v with
    | .ub => none
    | .exc e s' => (viaTok F tag s' as).map fun p => (.thrown e :: p.1, p.2)
    | .ok _ s' => (viaTok F tag s' as).map fun p => (.done :: p.1, p.2)
  | s, .get g :: as => (viaTok F tag s as).map fun p => (.value (getLoose s tag g) :: p.1, p.2)
  | s, .exist :: as => (viaTok F tag s as).map fun p => (.present (decide (0 < (fieldsOf s).countP fun f => f.1 = tag % 65536)) :: p.1, p.2)
  | s, .remove :: as =>
    match step F s (.erase tag) with
    | .ub => none
    | .exc e s' => (viaTok F tag s' as).map fun p => (.thrown e :: p.1, p.2)
    | .ok _ s' => (viaTok F tag s' as).map fun p => (.done :: p.1, p.2)
  | s, .other op :: as =>
    match step F s op with
    | .ub => none
    | .exc e s' => (viaTok F tag s' as).map fun p => (.thrown e :: p.1, p.2)
    | .ok _ s' => (viaTok F tag s' as).map fun p => (.done :: p.1, p.2)

/-- Values are of the type of the setters; the other operations have tokens with another identifier or genus. -/
def ActOk (σ : Sch) (pre tag : Nat) : Act → Prop
  | .assign g v => v.fits g = true
  | .other op => OpOk σ pre op ∧ (isPreplaced op.tag = true ∨ op.tag % 65536 ≠ tag % 65536)
  | _ => True

/-- No defect of `src/gear.cxx` shows on the way. -/
def ScriptBenign (F : Fix) (tag : Nat) : RW → List Act → Prop
  | _, [] => True
  | s, .assign g v :: as => Benign F s g v ∧
    match setField F s tag g v with
    | .ub => True
    | .exc _ s' => ScriptBenign F tag s' as
    | .ok _ s' => ScriptBenign F tag s' as
  | s, .get _ :: as => ScriptBenign F tag s as
  | s, .exist :: as => ScriptBenign F tag s as
  | s, .remove :: as =>
    match step F s (.erase tag) with
    | .ub => True
    | .exc _ s' => ScriptBenign F tag s' as
    | .ok _ s' => ScriptBenign F tag s' as
  | s, .other op :: as => StepBenign F s op ∧
    match step F s op with
    | .ub => True
    | .exc _ s' => ScriptBenign F tag s' as
    | .ok _ s' => ScriptBenign F tag s' as

theorem scriptBenign_repaired (tag : Nat) (s : RW) (as : List Act) : ScriptBenign .repaired tag s as := by
  induction as generalizing s with
  | nil => trivial
  | cons a as ih =>
    cases a with
    | assign g v =>
      refine ⟨Benign.repaired s g v, ?_⟩
      cases setField .repaired s tag g v <;> first | trivial | exact ih _
    | get g => exact ih s
    | exist => exact ih s
    | remove =>
      unfold ScriptBenign
      cases step .repaired s (.erase tag) <;> first | trivial | exact ih _
    | other op =>
      refine ⟨stepBenign_repaired s op, ?_⟩
      cases step .repaired s op <;> first | trivial | exact ih _

/-- At most one value of the field. -/
private def Single (s : RW) (w : Nat) : Prop := ∀ b c, RW.has s w b → RW.has s w c → b = c

private theorem single_of_count {s : RW} {w : Nat} (h : (fieldsOf s).countP (fun f => f.1 = w) ≤ 1) : Single s w := by
  rw [has_filter, Finset.card_le_one] at h
  intro b c hb hc
  exact h b (Finset.mem_filter.2 ⟨mem_liveSet.2 hb.1, hb.2⟩) c (Finset.mem_filter.2 ⟨mem_liveSet.2 hc.1, hc.2⟩)

private theorem lookup_count {s : RW} {w : Nat} (hw : w / 2048 ≠ 31) :
    (s.lookup w).isSome = decide (0 < (fieldsOf s).countP fun f => f.1 = w) := by
  rw [has_filter]
  cases hl : s.lookup w with
  | none =>
    have hn := (lookup_none hw).1 hl
    symm
    rw [Option.isSome_none, decide_eq_false_iff_not, Finset.card_pos]
    rintro ⟨b, hb⟩
    rw [Finset.mem_filter, mem_liveSet] at hb
    exact hn b hb
  | some a =>
    have ha := ((lookup_some hw).1 hl).1
    symm
    rw [Option.isSome_some, decide_eq_true_eq, Finset.card_pos]
    exact ⟨a, Finset.mem_filter.2 ⟨mem_liveSet.2 ha.1, ha.2⟩⟩

private theorem set_assign {F : Fix} {s : RW} {tag : Nat} {g : Genus} {v : Val} (hl : isLoose tag = true) (hc : isLooseCollection tag = false) :
    setField F s tag g v = (assignLoose F s tag (s.lookup (tag % 65536)) g v).bind fun _ s => .ok () s := by
  unfold setField assignLoose
  rw [if_neg (by rw [preplaced_not_loose, hl]; decide), if_neg (by rw [hc]; decide), gid_eq]
  split_ifs <;> rfl

private theorem assign_coherent {F : Fix} {σ : Sch} {s t : RW} {tag : Nat} {g : Genus} {v : Val} {r : Option Nat} (h : WF σ s)
    (hl : isLoose tag = true) (hf : v.fits g = true) (hb : Benign F s g v) (h1 : Single s (tag % 65536))
    (hr : assignLoose F s tag (s.lookup (tag % 65536)) g v = .ok r t) :
    WF σ t ∧ t.pre = s.pre ∧ r = t.lookup (tag % 65536) ∧ Single t (tag % 65536) := by
  have hg : tag2genus tag = g := by
    by_contra hg
    have m2 : ∀ f, assignStretchy F s tag f g v = .exc .typeMismatch s := by intro f; unfold assignStretchy; rw [if_pos hg]
    have m3 : ∀ f, assignLooseFixed F s tag f g v = .exc .typeMismatch s := by intro f; unfold assignLooseFixed; rw [if_pos hg]
    unfold assignLoose at hr
    rw [m2, m3] at hr
    split_ifs at hr
  have hw : tag % 65536 / 2048 ≠ 31 := tag_not_hole (by rw [hg]; exact fits_not_hole hf)
  cases hlk : s.lookup (tag % 65536) with
  | none =>
    have hno := (lookup_none hw).1 hlk
    rw [hlk] at hr
    have key := assignNew_spec h hb hg hf
    rw [hr] at key
    obtain ⟨k1, k2, k3⟩ := key
    by_cases hd : dropped tag g v
    · obtain ⟨rfl, rfl⟩ := k2 hd
      exact ⟨h, rfl, hlk.symm, h1⟩
    · obtain ⟨a, rfl, o, hf1, hl1, hw1, hv1⟩ := k3 hd
      have huniq : ∀ b, RW.has t (tag % 65536) b → b = a := by
        intro b hb
        by_contra hba
        exact hno b ((o.has hba).1 hb)
      refine ⟨k1, o.pre, ?_, fun b c hb hc => (huniq b hb).trans (huniq c hc).symm⟩
      symm
      rw [lookup_some hw]
      exact ⟨⟨hl1, hw1⟩, fun b hb => (huniq b hb).ge⟩
  | some a =>
    have ha := ((lookup_some hw).1 hlk).1
    rw [hlk] at hr
    have key := assignAt_spec h (Or.inr hb) hg hf hl ha
    rw [hr] at key
    obtain ⟨k1, o, k2, k3⟩ := key
    have huniq : ∀ b, RW.has t (tag % 65536) b → b = a := by
      intro b hb
      by_contra hba
      exact hba (h1 b a ((o.has hba).1 hb) ha)
    refine ⟨k1, o.pre, ?_, fun b c hb hc => (huniq b hb).trans (huniq c hc).symm⟩
    symm
    by_cases hd : dropped tag g v
    · rcases k2 hd with ⟨k, rfl⟩ | ⟨rfl, rfl, _⟩
      · rw [lookup_none hw]
        intro b hb
        have := huniq b hb
        subst this
        exact k hb.1
      · exact hlk
    · obtain ⟨rfl, hl1, hw1, _⟩ := k3 hd
      rw [lookup_some hw]
      exact ⟨⟨hl1, hw1⟩, fun b hb => (huniq b hb).ge⟩

private theorem Stay.lookup {σ : Sch} {s t : RW} {w : Nat} (hw : w / 2048 ≠ 31) (k : Stay σ s t w) : t.lookup w = s.lookup w := by
  cases hl : s.lookup w with
  | none =>
    rw [lookup_none hw]
    exact fun b hb => (lookup_none hw).1 hl b ((k.1 b).1 hb)
  | some a =>
    obtain ⟨h1, h2⟩ := (lookup_some hw).1 hl
    rw [lookup_some hw]
    exact ⟨(k.1 a).2 h1, fun b hb => h2 b ((k.1 b).1 hb)⟩

private theorem script_same {F : Fix} {σ : Sch} {tag : Nat} (hl : isLoose tag = true) (hc : isLooseCollection tag = false)
    (hnh : tag2genus tag ≠ .hole) (as : List Act) : ∀ (s : RW) (acc : Acc), WF σ s → acc.tag = tag →
      acc.field = s.lookup (tag % 65536) → Single s (tag % 65536) → (∀ a ∈ as, ActOk σ s.pre tag a) → ScriptBenign F tag s as →
      viaAcc F s acc as = viaTok F tag s as := by
  have hw := tag_not_hole hnh
  induction as with
  | nil => intros; rfl
  | cons a as ih =>
    intro s acc h ht hfl h1 hok hb
    have hok' : ∀ a ∈ as, ActOk σ s.pre tag a := fun x hx => hok x (List.mem_cons_of_mem _ hx)
    have hoka := hok a List.mem_cons_self
    cases a with
    | assign g v =>
      obtain ⟨hb1, hb2⟩ := hb
      have hset := set_assign (F := F) (s := s) (g := g) (v := v) hl hc
      unfold viaAcc viaTok
      unfold Acc.assign
      rw [hset, ht, hfl]
      rw [hset] at hb2
      cases hr : assignLoose F s tag (s.lookup (tag % 65536)) g v with
      | ub => rfl
      | exc e s' =>
        rw [hr] at hb2
        have hs' : s' = s := by
          have : setField F s tag g v = .exc e s' := by rw [hset, hr]; rfl
          have key := step_spec (F := F) h (.set tag g v) ⟨⟨hnh, fun k => by rw [preplaced_not_loose, hl] at k; cases k⟩, hoka⟩
            ⟨hb1, Or.inr (Or.inr hl)⟩
          rw [show step F s (.set tag g v) = .exc e s' from this] at key
          exact key
        subst hs'
        show (viaAcc F s' acc as).map _ = (viaTok F tag s' as).map _
        rw [ih s' acc h ht hfl h1 hok' hb2]
      | ok r t =>
        rw [hr] at hb2
        obtain ⟨k1, k2, k3, k4⟩ := assign_coherent h hl hoka hb1 h1 hr
        show (viaAcc F t { field := r, tag := tag } as).map _ = (viaTok F tag t as).map _
        rw [ih t { field := r, tag := tag } k1 rfl k3 k4 (by rw [k2]; exact hok') hb2]
    | get g =>
      unfold viaAcc viaTok
      rw [ih s acc h ht hfl h1 hok' hb]
      have : acc.get s g = getLoose s tag g := by
        unfold Acc.get getLoose
        rw [if_neg (by rw [hc]; decide), gid_eq, ht, hfl]
      rw [this]
    | exist =>
      unfold viaAcc viaTok
      rw [ih s acc h ht hfl h1 hok' hb]
      have : acc.exist = decide (0 < (fieldsOf s).countP fun f => f.1 = tag % 65536) := by
        unfold Acc.exist
        rw [hfl, lookup_count hw]
      rw [this]
    | remove =>
      have hpre : ¬ isPreplaced tag = true := by rw [preplaced_not_loose, hl]; decide
      have hst : step F s (.erase tag) = (eraseLoose s tag).bind fun _ s => .ok () s := by
        show (if isPreplaced tag = true then _ else _ : Out Unit) = _
        rw [if_neg hpre]
      have hel : eraseLoose s tag = (match s.lookup (tag % 65536) with
          | none => .ok 0 s
          | some a =>
            if cellGenus (s.mem a) ≠ tag2genus tag then .exc .indexCorrupted s
            else (eraseEntry s a).bind fun _ s => .ok 1 s) := by
        unfold eraseLoose
        rw [if_neg (by rw [hc]; decide), gid_eq]
        rfl
      have key := eraseSingle_spec h hnh hc
      unfold ScriptBenign at hb
      unfold viaAcc viaTok
      rw [hst] at hb ⊢
      rw [hel] at hb key ⊢
      unfold Acc.exist Acc.remove
      rw [ht, hfl]
      cases hlk : s.lookup (tag % 65536) with
      | none =>
        rw [hlk] at hb
        have hb : ScriptBenign F tag s as := hb
        show (viaAcc F s acc as).map _ = (viaTok F tag s as).map _
        rw [ih s acc h ht hfl h1 hok' hb]
      | some a =>
        obtain ⟨⟨hla, hword⟩, _⟩ := (lookup_some hw).1 hlk
        have hcg := word_genus rfl hword
        have hla' : ¬ (a ≥ s.pivot ∨ cellGenus (s.mem a) ≠ tag2genus tag) := by
          rintro (k | k)
          · exact absurd hla.2.1 (Nat.not_lt.2 k)
          · exact k hcg
        rw [hlk] at hb key
        have hcg' : ¬ cellGenus (s.mem a) ≠ tag2genus tag := fun k => k hcg
        simp only at hb key ⊢
        rw [if_neg hcg'] at hb key ⊢
        rw [if_pos (show (some a).isSome = true from rfl), if_neg hla']
        cases he : eraseEntry s a with
        | ub => rfl
        | exc e s' => rw [he] at key; exact absurd key id
        | ok u t =>
          rw [he] at key hb
          have hb : ScriptBenign F tag t as := hb
          obtain ⟨k1, k2⟩ := key
          rcases k2 with ⟨k, _⟩ | ⟨_, c, hc', o, hn⟩
          · cases k
          · have : a = c := Option.some.inj hc'
            subst this
            have hnone : ∀ b, ¬ RW.has t (tag % 65536) b := by
              intro b hb
              by_cases hba : b = a
              · subst hba; exact hn hb.1
              · exact hba (h1 b a ((o.has hba).1 hb) ⟨hla, hword⟩)
            show (viaAcc F t { field := none, tag := tag } as).map _ = (viaTok F tag t as).map _
            rw [ih t { field := none, tag := tag } k1 rfl ((lookup_none hw).2 hnone).symm
              (fun b c hb _ => absurd hb (hnone b)) (by rw [o.pre]; exact hok') hb]
    | other op =>
      obtain ⟨hb1, hb2⟩ := hb
      obtain ⟨ho1, ho2⟩ := hoka
      have key := step_spec (F := F) h op ho1 hb1
      unfold viaAcc viaTok
      cases hr : step F s op with
      | ub => rfl
      | exc e s' =>
        rw [hr] at key hb2
        have key : s' = s := key
        subst key
        show (viaAcc F s' acc as).map _ = (viaTok F tag s' as).map _
        rw [ih s' acc h ht hfl h1 hok' hb2]
      | ok u t =>
        rw [hr] at key hb2
        have key : Keep σ s t := key
        have st := step_stay h op ho1 hb1 hr ho2
        show (viaAcc F t acc as).map _ = (viaTok F tag t as).map _
        rw [ih t acc key.wf ht (by rw [Stay.lookup hw st]; exact hfl)
          (fun b c hb hc => h1 b c ((st.1 b).1 hb) ((st.1 c).1 hc)) (by rw [key.pre]; exact hok') hb2]

/-- **C66 (partial).** The accessor `tuple[token]` of a loose field that is stored at most once: for every sequence of
assignments, reads, presence queries and removals through the accessor, interleaved with any modifications by tokens of other
fields, exceptions being caught, the user sees the same results and gets the same tuple as when everything is done by
token. Missing for the code as it is: steps in which a defect of `src/gear.cxx` shows (the hypothesis on the script is
always true for the repaired code, `C66_script_repaired`); fields changed by token behind the back of the accessor
(`C66_stale_refuted`). -/
theorem C66_script_partial {F : Fix} {σ : Sch} {s : RW} {tag : Nat} {acc : Acc} {as : List Act} (h : Reachable F σ s)
    (hl : isLoose tag = true) (hnh : tag2genus tag ≠ .hole)
    (h1 : (fieldsOf s).countP (fun f => f.1 = tag % 65536) ≤ 1) (hacc : Acc.at s tag = .ok acc)
    (hok : ∀ a ∈ as, ActOk σ s.pre tag a) (hb : ScriptBenign F tag s as) :
    viaAcc F s acc as = viaTok F tag s as := by
  unfold Acc.at at hacc
  by_cases hc : isLooseCollection tag = true
  · rw [if_pos hc] at hacc; cases hacc
  · rw [if_neg hc, gid_eq] at hacc
    rw [← Except.ok.inj hacc]
    exact script_same hl (by simpa using hc) hnh as s _ h.wf rfl rfl (single_of_count h1) hok hb

/-- The repaired code: no condition on the steps. -/
theorem C66_script_repaired {σ : Sch} {s : RW} {tag : Nat} {acc : Acc} {as : List Act} (h : Reachable .repaired σ s)
    (hl : isLoose tag = true) (hnh : tag2genus tag ≠ .hole)
    (h1 : (fieldsOf s).countP (fun f => f.1 = tag % 65536) ≤ 1) (hacc : Acc.at s tag = .ok acc)
    (hok : ∀ a ∈ as, ActOk σ s.pre tag a) : viaAcc .repaired s acc as = viaTok .repaired tag s as :=
  C66_script_partial h hl hnh h1 hacc hok (scriptBenign_repaired tag s as)

/-- An accessor of an absent field: the field is created, read, resized, dropped, created again, other fields are set and
erased meanwhile. -/
def accScript : List Act :=
  [.exist, .get .nested, .assign .nested (nstVal 3 1), .get .nested, .other (setN 7 2), .assign .nested (nstVal 5 2),
   .other (.erase (fix .u64 3)), .get .nested, .assign .nested (.nested none), .exist, .other (setF .u64 3 8),
   .assign .nested (nstVal 2 2), .get .nested, .exist, .remove, .get .nested, .remove, .assign .nested (nstVal 1 2), .exist]

example : ∃ s acc, Reachable .repaired noPre s ∧ Acc.at s (nst 9) = .ok acc ∧
    (fieldsOf s).countP (fun f => f.1 = nst 9 % 65536) ≤ 1 ∧ (∀ a ∈ accScript, ActOk noPre s.pre (nst 9) a) ∧
    (viaAcc .repaired s acc accScript).isSome = true ∧ acc.exist = false ∧
    viaAcc .repaired s acc accScript = viaTok .repaired (nst 9) s accScript := by
  obtain ⟨s, hr, hp⟩ := run_decide (F := .repaired) (s := fresh 8 60) (ops := goodOps) (fun s => decide (
    (s.lookup (nst 9 % 65536) = none) ∧ (viaAcc .repaired s ⟨none, nst 9⟩ accScript).isSome = true)) (by decide +kernel)
  obtain ⟨p1, p2⟩ := of_decide_eq_true hp
  have hre := (fresh_ok (by decide) (by decide)).reachable (opOk_of (by decide +kernel)) (runBenign_repaired _ _) hr
  have hat : Acc.at s (nst 9) = .ok ⟨none, nst 9⟩ := by
    unfold Acc.at
    rw [if_neg (by decide), gid_eq, p1]
  have hcnt : (fieldsOf s).countP (fun f => f.1 = nst 9 % 65536) ≤ 1 := by
    have := lookup_count (s := s) (w := nst 9 % 65536) (by decide)
    rw [p1] at this
    have := of_decide_eq_false this.symm
    omega
  have tok : ∀ tag, tag2genus tag ≠ .hole → isLoose tag = true → TokenOk noPre s.pre tag := fun tag h1 h2 =>
    ⟨h1, fun hp => by rw [preplaced_not_loose, h2] at hp; cases hp⟩
  have hok : ∀ a ∈ accScript, ActOk noPre s.pre (nst 9) a := by
    intro a ha
    simp only [accScript, List.mem_cons, List.not_mem_nil, or_false] at ha
    rcases ha with rfl | rfl | rfl | rfl | rfl | rfl | rfl | rfl | rfl | rfl | rfl | rfl | rfl | rfl | rfl | rfl | rfl | rfl | rfl
    · trivial
    · trivial
    · show Val.fits _ _ = true; decide
    · trivial
    · exact ⟨⟨tok _ (by decide) (by decide), by decide⟩, Or.inr (by decide)⟩
    · show Val.fits _ _ = true; decide
    · exact ⟨tok _ (by decide) (by decide), Or.inr (by decide)⟩
    · trivial
    · show Val.fits _ _ = true; decide
    · trivial
    · exact ⟨⟨tok _ (by decide) (by decide), by decide⟩, Or.inr (by decide)⟩
    · show Val.fits _ _ = true; decide
    · trivial
    · trivial
    · trivial
    · trivial
    · trivial
    · show Val.fits _ _ = true; decide
    · trivial
  exact ⟨s, _, hre, hat, hcnt, hok, p2, rfl, C66_script_repaired hre (by decide) (by decide) hcnt hat hok⟩

/-- **C66 (refuted) for fields changed by token.** (1) An accessor is taken while the field is absent, the field is
created by token, a value is assigned through the accessor: the field, which is no collection, is stored twice.
(2) An accessor is taken, its field is erased by token, another field of the same type is created; an assignment through
the accessor then replaces the value of the other field. Nothing is thrown. -/
theorem C66_stale_refuted :
    (∃ s t u acc acc', Reachable .code noPre s ∧ Acc.at s (fix .u32 1) = .ok acc ∧ step .code s (setF .u32 1 5) = .ok () t ∧
      acc.assign .code t .u32 (unitsVal 1 6) = .ok acc' u ∧ (fieldsOf u).countP (fun f => f.1 = fix .u32 1 % 65536) = 2) ∧
    (∃ s t u acc acc', Reachable .code noPre s ∧ Acc.at s (fix .u32 1) = .ok acc ∧
      run .code s [.erase (fix .u32 1), setF .u32 2 7] = some t ∧ getLoose t (fix .u32 2) .u32 = .ok (some (unitsVal 1 7)) ∧
      acc.assign .code t .u32 (unitsVal 1 6) = .ok acc' u ∧ getLoose u (fix .u32 2) .u32 = .ok (some (unitsVal 1 6))) := by
  constructor
  · obtain ⟨s, hr, hp⟩ := run_decide (F := .code) (s := fresh 8 60) (ops := goodOps) (fun s => decide (
      s.lookup (tag2gid (fix .u32 1)) = none ∧
      (match step .code s (setF .u32 1 5) with
        | .ok _ t => (match (Acc.mk none (fix .u32 1)).assign .code t .u32 (unitsVal 1 6) with
          | .ok _ u => decide (((liveSet u).filter fun a => (u.mem a).hi = fix .u32 1 % 65536).card = 2)
          | _ => false)
        | _ => false) = true)) (by decide +kernel)
    have hre := (fresh_ok (by decide) (by decide)).reachable (σ := noPre) (opOk_of (by decide +kernel)) (runBenign_of (by decide +kernel)) hr
    obtain ⟨p1, p2⟩ := of_decide_eq_true hp
    cases h1 : step .code s (setF .u32 1 5) with
    | ub => rw [h1] at p2; exact absurd p2 Bool.false_ne_true
    | exc e t => rw [h1] at p2; exact absurd p2 Bool.false_ne_true
    | ok u1 t =>
      rw [h1] at p2
      simp only at p2
      cases h2 : (Acc.mk none (fix .u32 1)).assign .code t .u32 (unitsVal 1 6) with
      | ub => rw [h2] at p2; exact absurd p2 Bool.false_ne_true
      | exc e t => rw [h2] at p2; exact absurd p2 Bool.false_ne_true
      | ok acc' u =>
        rw [h2] at p2
        refine ⟨s, t, u, _, acc', hre, ?_, h1, h2, by rw [has_filter]; exact of_decide_eq_true p2⟩
        unfold Acc.at
        rw [if_neg (by decide), p1]
  · obtain ⟨s, hr, hp⟩ := run_decide (F := .code) (s := fresh 8 60) (ops := goodOps ++ [setF .u32 1 5]) (fun s =>
      (match run .code s [.erase (fix .u32 1), setF .u32 2 7] with
        | some t => decide (getLoose t (fix .u32 2) .u32 = .ok (some (unitsVal 1 7))) &&
          (match (Acc.mk (s.lookup (tag2gid (fix .u32 1))) (fix .u32 1)).assign .code t .u32 (unitsVal 1 6) with
          | .ok _ u => decide (getLoose u (fix .u32 2) .u32 = .ok (some (unitsVal 1 6)))
          | _ => false)
        | _ => false)) (by decide +kernel)
    have hre := (fresh_ok (by decide) (by decide)).reachable (σ := noPre) (opOk_of (by decide +kernel)) (runBenign_of (by decide +kernel)) hr
    have p2 := hp
    cases h1 : run .code s [.erase (fix .u32 1), setF .u32 2 7] with
    | none => rw [h1] at p2; exact absurd p2 Bool.false_ne_true
    | some t =>
      rw [h1] at p2
      simp only at p2
      rw [Bool.and_eq_true] at p2
      obtain ⟨p1, p2⟩ := p2
      cases h2 : (Acc.mk (s.lookup (tag2gid (fix .u32 1))) (fix .u32 1)).assign .code t .u32 (unitsVal 1 6) with
      | ub => rw [h2] at p2; exact absurd p2 Bool.false_ne_true
      | exc e t => rw [h2] at p2; exact absurd p2 Bool.false_ne_true
      | ok acc' u =>
        rw [h2] at p2
        refine ⟨s, t, u, _, acc', hre, ?_, h1, of_decide_eq_true p1, h2, of_decide_eq_true p2⟩
        unfold Acc.at
        rw [if_neg (by decide)]

/-! ## C67 -/

/-- The accessor or iterator stands at a value of its field. -/
def Acc.At (s : RW) (it : Acc) (a : Nat) : Prop := it.field = some a ∧ RW.has s (it.tag % 65536) a

private theorem get_value {s : RW} {tag a : Nat} {g : Genus} {v : Val} (hg : tag2genus tag = g)
    (hv : valueAt g s.mem a = some v) (hne : g ≠ .varbin) : getEntry s tag g (some a) = .ok (some v) := by
  unfold getEntry
  rw [if_neg (fun h => h hg)]
  simp only
  unfold valueAt at hv
  by_cases c1 : g.isInplaced = true
  · rw [if_pos c1] at hv ⊢
    rw [hv]
  · rw [if_neg c1] at hv ⊢
    by_cases c2 : g.isFixed ∨ (s.mem a).lo ≠ 0
    · rw [if_pos c2] at hv ⊢
      rw [decode_eq hne] at hv
      exact congrArg _ hv
    · rw [if_neg c2] at hv; cases hv

/-- **C67 (partial), assignment through an iterator.** In every reachable tuple, an assignment through an iterator (or
accessor) which stands at a value replaces exactly this value: the iterator stays there and reads the new value, every
other iterator and accessor of the tuple still stands at its value and reads the same, the other stored values, the
values of the other fields and the preplaced area are the same. An assignment of an empty value of a field without
discernible null removes exactly this value and makes the iterator equal to `end()`. A failed assignment changes
nothing. Missing for the code as it is: stretchy values in states in which the defect of `src/gear.cxx:591` shows; binary
blobs are excluded from the reads (C05). -/
theorem C67_assign_partial {F : Fix} {σ : Sch} {s : RW} {it : Acc} {g : Genus} {v : Val} {a : Nat} (h : Reachable F σ s)
    (hl : isLoose it.tag = true) (hat : Acc.At s it a) (hf : v.fits g = true) (hb : g.isFixed = true ∨ Benign F s g v) :
    (∀ e t, it.assign F s g v = .exc e t → t = s) ∧
    ∀ it' t, it.assign F s g v = .ok it' t →
      (∃ rest old, fieldsOf s = (it.tag % 65536, old) ::ₘ rest ∧
        ((¬ dropped it.tag g v ∧ it' = it ∧ Acc.At t it' a ∧ (g ≠ .varbin → it'.get t g = .ok (some v)) ∧
            fieldsOf t = (it.tag % 65536, some v) ::ₘ rest) ∨
          (dropped it.tag g v ∧ it'.tag = it.tag ∧ it'.field = none ∧ fieldsOf t = rest) ∨
          (dropped it.tag g v ∧ it' = it ∧ t = s ∧ old = none))) ∧
      (∀ jt b, Acc.At s jt b → b ≠ a → Acc.At t jt b ∧ ∀ g', g' ≠ .varbin → jt.get t g' = jt.get s g') ∧
      LooseKept s t (fun w => w ≠ it.tag % 65536) ∧ PreplacedKept σ s t 0 0 := by
  obtain ⟨hfl, ha⟩ := hat
  have hwf := h.wf
  by_cases hg : tag2genus it.tag = g
  · have key := assignAt_spec (F := F) hwf hb hg hf hl ha
    constructor
    · intro e t hr
      unfold Acc.assign at hr
      rw [hfl] at hr
      cases hr1 : assignLoose F s it.tag (some a) g v with
      | ub => rw [hr1] at hr; cases hr
      | ok r t1 => rw [hr1] at hr; cases hr
      | exc e1 t1 =>
        rw [hr1] at hr key
        have hr : Out.exc e1 t1 = Out.exc e t := hr
        injection hr with _ hr
        rw [← hr]; exact key.1
    · intro it' t hr
      unfold Acc.assign at hr
      rw [hfl] at hr
      obtain ⟨r, s1, hr1, h2⟩ := Out.bind_ok hr
      injection h2 with h2 h3
      subst h3
      rw [hr1] at key
      obtain ⟨k1, o, k2, k3⟩ := key
      have hcg := word_genus hg ha.2
      refine ⟨?_, fun jt b hb hba => ?_, ?_, PreplacedKept.of_others hwf o (Or.inl ha.1.2.1)⟩
      · by_cases hd : dropped it.tag g v
        · rcases k2 hd with ⟨hn, rfl⟩ | ⟨e1, rfl, e2, e3⟩
          · refine ⟨_, (entryAt s a).2, ?_, Or.inr (Or.inl ⟨hd, by rw [← h2], by rw [← h2], rfl⟩)⟩
            rw [fields_remove hwf o ha.1 hn, ← ha.2]; rfl
          · refine ⟨((liveSet s).erase a).val.map (entryAt s), none, ?_, Or.inr (Or.inr ⟨hd, by rw [← h2, ← hfl], e1, rfl⟩)⟩
            · rw [fields_split ha.1]
              have : entryAt s a = (it.tag % 65536, none) := by
                unfold entryAt
                rw [ha.2, hcg]
                unfold valueAt
                rw [if_neg (by
                  intro hi
                  rw [(inplaced_facts g hi).1] at e2; cases e2), if_neg (by rw [e2, e3]; rintro (k | k); cases k; exact k rfl)]
              rw [this]
        · obtain ⟨rfl, hl1, hw1, hv1⟩ := k3 hd
          obtain ⟨rest, e1, e2⟩ := fields_replace hwf o ha.1 hl1
          have hit : it' = it := by rw [← h2, ← hfl]
          refine ⟨rest, (entryAt s a).2, ?_, Or.inl ⟨hd, hit, ⟨by rw [hit]; exact hfl, by rw [hit]; exact ⟨hl1, hw1⟩⟩, fun hne => ?_, ?_⟩⟩
          · rw [e1, ← ha.2]; rfl
          · unfold Acc.get
            rw [hit, hfl]
            exact get_value hg hv1 hne
          · rw [e2]
            have : entryAt s1 a = (it.tag % 65536, some v) := by
              unfold entryAt
              rw [word_genus hg hw1, hw1, hv1]
            rw [this]
      · obtain ⟨b1, b2⟩ := hb
        have k := o.kept b hba (Or.inl b2.1)
        refine ⟨⟨b1, (o.has hba).2 b2⟩, fun g' hg' => ?_⟩
        unfold Acc.get
        rw [b1]
        exact getEntry_kept hwf hg' b2.1 b2.2 k
      · refine LooseKept.of_others hwf o (fun _ => ha.2) fun hla => ?_
        by_cases hd : dropped it.tag g v
        · rcases k2 hd with ⟨hn, _⟩ | ⟨e1, _⟩
          · exact absurd hla hn
          · rw [e1]; exact ha.2
        · exact (k3 hd).2.2.1
  · have m2 : ∀ f, assignStretchy F s it.tag f g v = .exc .typeMismatch s := by intro f; unfold assignStretchy; rw [if_pos hg]
    have m3 : ∀ f, assignLooseFixed F s it.tag f g v = .exc .typeMismatch s := by intro f; unfold assignLooseFixed; rw [if_pos hg]
    have m : it.assign F s g v = .exc .typeMismatch s := by
      unfold Acc.assign assignLoose
      rw [m2, m3]
      split_ifs <;> rfl
    rw [m]
    constructor
    · intro e t hh
      injection hh with _ hh
      exact hh.symm
    · intro it' t hh; cases hh

/-- **C67 (partial), `erase(iterator)` is defined.** It never throws; at a value it is defined when the junk together with this value has at
most 2047 units. Missing: larger values (C12). -/
theorem C67_erase_defined_partial {F : Fix} {σ : Sch} {s : RW} {it : Acc} {a : Nat} (h : Reachable F σ s) (hat : Acc.At s it a)
    (hs : s.jv + fieldUnits s.mem (tag2genus it.tag) a ≤ 2047) : ∃ t, it.erase s = .ok true t := by
  obtain ⟨hfl, ha⟩ := hat
  have hw := word_genus rfl ha.2
  have key := eraseEntry_spec h.wf ha.1
  unfold Acc.erase Acc.exist Acc.remove
  rw [hfl]
  simp only [Option.isSome_some, if_true]
  rw [if_neg (by rw [hw]; rintro (k | k); exact absurd ha.1.2.1 (by omega); exact k rfl)]
  rw [← hw, fieldUnits_len (σ := σ) ha.1] at hs
  cases hr : eraseEntry s a with
  | ub => rw [hr] at key; exact absurd key (not_lt.2 hs)
  | exc e t => rw [hr] at key; exact key.elim
  | ok u t => exact ⟨t, rfl⟩

/-- **C67 (partial), `erase(iterator)`.** Exactly the value at the iterator is removed; the other iterators and accessors
stand at their values. Missing: cases in which it is not defined (`C67_erase_defined_partial`). -/
theorem C67_erase_partial {F : Fix} {σ : Sch} {s t : RW} {it : Acc} {a : Nat} {r : Bool} (h : Reachable F σ s)
    (hat : Acc.At s it a) (hr : it.erase s = .ok r t) :
    r = true ∧ (∃ old, fieldsOf s = (it.tag % 65536, old) ::ₘ fieldsOf t) ∧
      (∀ jt b, Acc.At s jt b → b ≠ a → Acc.At t jt b ∧ ∀ g', g' ≠ .varbin → jt.get t g' = jt.get s g') ∧
      LooseKept s t (fun w => w ≠ it.tag % 65536) ∧ PreplacedKept σ s t 0 0 := by
  obtain ⟨hfl, ha⟩ := hat
  have hwf := h.wf
  unfold Acc.erase Acc.exist Acc.remove at hr
  rw [hfl] at hr
  simp only [Option.isSome_some, if_true] at hr
  rw [if_neg (by rw [word_genus rfl ha.2]; rintro (k | k); exact absurd ha.1.2.1 (by omega); exact k rfl)] at hr
  obtain ⟨it1, s1, h1, h2⟩ := Out.bind_ok hr
  injection h2 with h2 h3
  subst h3
  obtain ⟨u, s2, h4, h5⟩ := Out.bind_ok h1
  injection h5 with _ h5
  subst h5
  have key := eraseEntry_spec hwf ha.1
  rw [h4] at key
  obtain ⟨k1, o, hn, _⟩ := key
  refine ⟨h2.symm, ⟨(entryAt s a).2, ?_⟩, fun jt b hb hba => ?_, LooseKept.of_others hwf o (fun _ => ha.2) fun hla => absurd hla hn,
    PreplacedKept.of_others hwf o (Or.inl ha.1.2.1)⟩
  · rw [fields_remove hwf o ha.1 hn, ← ha.2]; rfl
  · obtain ⟨b1, b2⟩ := hb
    refine ⟨⟨b1, (o.has hba).2 b2⟩, fun g' hg' => ?_⟩
    unfold Acc.get
    rw [b1]
    exact getEntry_kept hwf hg' b2.1 b2.2 (o.kept b hba (Or.inl b2.1))

/-- **C67 (partial), other fields.** Iterators and accessors stand at their values and read the same after any
modification by the token of another field. -/
theorem C67_kept_partial {F : Fix} {σ : Sch} {s t : RW} {u : Unit} {it : Acc} {a : Nat} {op : Op} (h : Reachable F σ s)
    (hat : Acc.At s it a) (hop : OpOk σ s.pre op) (hb : StepBenign F s op) (hr : step F s op = .ok u t)
    (hw : isPreplaced op.tag = true ∨ op.tag % 65536 ≠ it.tag % 65536) :
    Acc.At t it a ∧ ∀ g, g ≠ .varbin → it.get t g = it.get s g := by
  obtain ⟨b1, b2⟩ := hat
  have st := step_stay h.wf op hop hb hr hw
  refine ⟨⟨b1, (st.1 a).2 b2⟩, fun g' hg' => ?_⟩
  unfold Acc.get
  rw [b1]
  exact getEntry_kept h.wf hg' b2.1 b2.2 (st.2 a b2)

/-- The loop `for (; it != end; ++it)`: the iterators seen by its body. -/
inductive IterRun (s : RW) : Acc → List Acc → Prop
  | stop {it : Acc} : it.exist = false → IterRun s it []
  | round {it jt : Acc} {l : List Acc} : it.exist = true → it.advance s = some jt → IterRun s jt l → IterRun s it (it :: l)

private theorem iterRun_of {s : RW} {tag : Nat} : ∀ (n : Nat) (f : Option Nat) (l : List Nat),
    Iter.collectFrom s (tag2gid tag) n f = some l → IterRun s ⟨f, tag⟩ (l.map fun a => ⟨some a, tag⟩) := by
  intro n
  induction n with
  | zero =>
    intro f l h
    cases f with
    | none => rw [← Option.some.inj h]; exact .stop rfl
    | some a => cases h
  | succ n ih =>
    intro f l h
    cases f with
    | none => rw [← Option.some.inj h]; exact .stop rfl
    | some a =>
      unfold Iter.collectFrom at h
      by_cases ha : a < s.pivot
      · rw [if_pos ha] at h
        obtain ⟨l', h1, h2⟩ := Option.map_eq_some_iff.1 h
        rw [← h2]
        refine .round rfl ?_ (ih _ _ h1)
        unfold Acc.advance
        simp only
        rw [if_pos ha]
      · rw [if_neg ha] at h; cases h

/-- **C67, the loop without changes.** From `begin`, advancing the iterator never violates an assertion and comes to the
end after having stood at every value of the collection exactly once, in the order of the index, reading what is stored
there. `begin` throws for a token which is no collection. -/
theorem C67_walk (s : RW) (tag : Nat) (hg : tag2genus tag ≠ .hole) :
    (isLooseCollection tag = false → Acc.begin s tag = .error .collectionRequired) ∧
    (isLooseCollection tag = true → ∃ it l, Acc.begin s tag = .ok it ∧ IterRun s it l ∧
      (∀ x ∈ l, ∃ a, x.tag = tag ∧ Acc.At s x a ∧
        ∀ v, tag2genus tag ≠ .varbin → (entryAt s a).2 = some v → x.get s (tag2genus tag) = .ok (some v)) ∧
      (l.filterMap Acc.field).Pairwise (· < ·) ∧
      (l.filterMap Acc.field).map (entryAt s) = (entriesOf s).filter (fun e => e.1 = tag % 65536)) := by
  obtain ⟨k1, k2⟩ := C32_collection s tag hg
  constructor
  · intro h
    unfold Acc.begin
    rw [if_neg (by rw [h]; decide)]
  · intro h
    obtain ⟨l, c1, c2, c3, c4, c5, _⟩ := k2 h
    unfold Iter.collection at c1
    rw [h] at c1
    have c1 := Except.ok.inj c1
    have hfm : (l.map fun a => (⟨some a, tag⟩ : Acc)).filterMap Acc.field = l := by
      rw [List.filterMap_map]
      exact List.filterMap_some
    refine ⟨⟨s.lookup (tag2gid tag), tag⟩, _, ?_, iterRun_of _ _ _ c1, ?_, ?_, ?_⟩
    · unfold Acc.begin
      rw [if_pos h]
    · intro x hx
      obtain ⟨a, ha, rfl⟩ := List.mem_map.1 hx
      exact ⟨a, rfl, ⟨rfl, (c3 a).1 ha⟩, fun v hv he => c5 a ha v hv he⟩
    · rw [hfm]; exact c2
    · rw [hfm]; exact c4

/-- **C67 (partial), the loop over a collection.** `for (it = c.begin(); it != c.end(); ++it) it->set_X(f(it->get_X()))`
with a function whose values are stored: each value of the collection is replaced by its image under `f`, once; all
else stays. For values of fixed size the loop always succeeds, in the code as it is. For stretchy values the statement
is about the repaired code and loops that do not throw (`f` treats a missing value like the empty one). Missing:
functions with values that are dropped (`C67_update_refuted`), binary blobs (C05). -/
theorem C67_update_partial {F : Fix} {σ : Sch} {s : RW} {tag : Nat} {g : Genus} {f : Option Val → Val} (h : Reachable F σ s)
    (hc : isLooseCollection tag = true) (hg : tag2genus tag = g) (hv : g ≠ .varbin) (hF : g.isFixed = true ∨ F = .repaired)
    (hfe : g.isFixed = true ∨ f none = f (some (Val.empty g))) (hf : ∀ x, (f x).fits g = true ∧ ¬ dropped tag g (f x)) :
    (g.isFixed = true → ∃ t, updateAll F s tag (s.lookup (tag % 65536)) g f = .ok () t) ∧
    ∀ t, updateAll F s tag (s.lookup (tag % 65536)) g f = .ok () t →
      fieldsOf t = (fieldsOf s).map (fun e => if e.1 = tag % 65536 then (e.1, some (f e.2)) else e) ∧
      (∀ jt b, Acc.At s jt b → Acc.At t jt b ∧ (jt.tag % 65536 ≠ tag % 65536 → ∀ g', g' ≠ .varbin → jt.get t g' = jt.get s g')) ∧
      PreplacedKept σ s t 0 0 := by
  have hwf := h.wf
  have hw : tag % 65536 / 2048 ≠ 31 := tag_not_hole (by rw [hg]; exact fits_not_hole (hf none).1)
  have hlo : isLoose tag = true := by
    have hc' : tag ≥ collectionThreshold := by simpa [isLooseCollection] using hc
    have e : collectionThreshold ≥ looseThreshold := by decide
    have : looseThreshold ≤ tag := by omega
    simpa [isLoose] using this
  cases hlk : s.lookup (tag % 65536) with
  | none =>
    have hno := (lookup_none hw).1 hlk
    rw [updateAll]
    refine ⟨fun _ => ⟨s, rfl⟩, fun t ht => ?_⟩
    injection ht with _ ht
    rw [← ht]
    refine ⟨?_, fun jt b hb => ⟨hb, fun _ _ _ => rfl⟩, PreplacedKept.refl σ s⟩
    unfold fieldsOf
    rw [Multiset.map_map]
    refine Multiset.map_congr rfl fun b hb => ?_
    have hb := mem_liveSet.1 hb
    show entryAt s b = if (s.mem b).hi = tag % 65536 then _ else _
    rw [if_neg (fun hh => hno b ⟨hb, hh⟩)]
  | some a =>
    obtain ⟨ha, hmin⟩ := (lookup_some hw).1 hlk
    have key := updateAll_spec (F := F) hg hlo hv hF hfe hf s a hwf ha
    constructor
    · intro hfx
      cases hr : updateAll F s tag (some a) g f with
      | ub => rw [hr] at key; have key : g.isFixed = false := key; rw [hfx] at key; cases key
      | exc e t => rw [hr] at key; have key : g.isFixed = false := key; rw [hfx] at key; cases key
      | ok u t => exact ⟨t, rfl⟩
    · intro t ht
      rw [ht] at key
      obtain ⟨p1, p2, p3, p4, p5, p6, p7⟩ := key
      have keep : ∀ b, s.live b → (s.mem b).hi ≠ tag % 65536 → Kept σ s t b := fun b hb hne =>
        p5 b (Or.inl hb) (fun k => hne k.1.2)
      refine ⟨?_, ?_, ?_⟩
      · unfold fieldsOf
        rw [Multiset.map_map]
        have el : liveSet t = liveSet s := by
          ext b; rw [mem_liveSet, mem_liveSet, p4 b]
        rw [el]
        refine Multiset.map_congr rfl fun b hb => ?_
        have hb := mem_liveSet.1 hb
        show entryAt t b = if (s.mem b).hi = tag % 65536 then ((s.mem b).hi, some (f (entryAt s b).2)) else entryAt s b
        by_cases hh : (s.mem b).hi = tag % 65536
        · rw [if_pos hh]
          have w1 := p6 b ⟨hb, hh⟩
          unfold entryAt
          rw [word_genus hg w1, word_genus hg hh, w1, hh, p7 b ⟨hb, hh⟩ (hmin b ⟨hb, hh⟩)]
        · rw [if_neg hh]
          have k := keep b hb hh
          unfold entryAt
          rw [k.cell, k.value hwf (Or.inl ⟨hb, rfl⟩) (live_genus hb (hwf.word b hb))]
      · rintro jt b ⟨b1, b2⟩
        by_cases hh : (s.mem b).hi = tag % 65536
        · refine ⟨⟨b1, (p4 b).2 b2.1, ?_⟩, fun hne => absurd (b2.2.symm.trans hh) hne⟩
          rw [p6 b ⟨b2.1, hh⟩, ← hh]; exact b2.2
        · have k := keep b b2.1 hh
          refine ⟨⟨b1, (p4 b).2 b2.1, by rw [k.cell]; exact b2.2⟩, fun _ g' hg' => ?_⟩
          unfold Acc.get
          rw [b1]
          exact getEntry_kept hwf hg' b2.1 b2.2 k
      · exact PreplacedKept.of_kept hwf p2 p3 (fun b h1 h2 _ => p5 b (Or.inr ⟨h1, h2⟩) (fun k => by have := k.1.1.2.1; omega)) ⟨rfl, rfl⟩

/-- A collection of 32-bit numbers. -/
def colU (id : Nat) : Nat := makeTag .u32 id true false false
def insC (id k : Nat) : Op := .insert (colU id) .u32 (unitsVal 1 k)
/-- Three values of a collection among other fields. -/
def iterOps : List Op := [insC 4 1, setN 2 2, insC 4 2, setF .u64 3 5, insC 4 3, setF .bin96 4 9]

private theorem iter_reach {F : Fix} {s : RW} (hF : F = .code ∨ F = .repaired) (hr : run F (fresh 8 60) iterOps = some s) :
    Reachable F noPre s :=
  (fresh_ok (by decide) (by decide)).reachable (opOk_of (by decide +kernel)) (runBenign_of (by rcases hF with rfl | rfl <;> decide +kernel)) hr

/-- A collection of three values among other fields: the loop sees three iterators. -/
example : ∃ s it l, Reachable .code noPre s ∧ Acc.begin s (colU 4) = .ok it ∧ IterRun s it l ∧
    (l.filterMap Acc.field).length = 3 := by
  obtain ⟨s, hr, hp⟩ := run_decide (F := .code) (s := fresh 8 60) (ops := iterOps) (fun s => decide (
    ((liveSet s).filter fun a => (s.mem a).hi = colU 4 % 65536).card = 3)) (by decide +kernel)
  obtain ⟨it, l, h1, h2, _, h4, h5⟩ := (C67_walk s (colU 4) (by decide)).2 (by decide)
  refine ⟨s, it, l, iter_reach (Or.inl rfl) hr, h1, h2, ?_⟩
  have hc := of_decide_eq_true hp
  rw [← has_filter] at hc
  have := congrArg List.length h5
  rw [List.length_map] at this
  rw [this, ← hc, ← List.countP_eq_length_filter]
  rw [← entriesOf_fields s, Multiset.coe_countP]

/-- Adds 10 to each value. -/
def addTen : Option Val → Val
  | some (.units [c]) => .units [⟨(c.lo + 10) % 65535 + 1, c.hi % 65536⟩]
  | _ => .units [⟨1, 0⟩]

example : ∃ s t, Reachable .code noPre s ∧ (∀ x, (addTen x).fits .u32 = true ∧ ¬ dropped (colU 4) .u32 (addTen x)) ∧
    (fieldsOf s).countP (fun f => f.1 = colU 4 % 65536) = 3 ∧
    updateAll .code s (colU 4) (s.lookup (colU 4 % 65536)) .u32 addTen = .ok () t ∧
    fieldsOf t = (fieldsOf s).map (fun e => if e.1 = colU 4 % 65536 then (e.1, some (addTen e.2)) else e) := by
  have hf : ∀ x, (addTen x).fits .u32 = true ∧ ¬ dropped (colU 4) .u32 (addTen x) := by
    have key : ∀ lo hi : Nat, hi < 65536 → lo % 65535 + 1 ≠ 0 ∧ (Val.units [⟨lo % 65535 + 1, hi⟩]).fits .u32 = true ∧
        ¬ dropped (colU 4) .u32 (Val.units [⟨lo % 65535 + 1, hi⟩]) := by
      intro lo hi hhi
      have h1 : lo % 65535 + 1 < 65536 := by omega
      refine ⟨by omega, ?_, ?_⟩
      · simp [Val.fits, Genus.isFixed, Genus.isInplaced, Genus.looseUnits, Cell.ok, h1, hhi]
        decide
      · rintro (⟨_, k⟩ | k)
        · simp [Val.isEmpty, Cell.zero] at k
        · cases k
    have dflt : ∀ v : Val, v = .units [⟨1, 0⟩] → v.fits .u32 = true ∧ ¬ dropped (colU 4) .u32 v := by
      rintro v rfl
      exact (key 0 0 (by decide)).2
    intro x
    rcases x with _ | v
    · exact dflt _ rfl
    · cases v with
      | units cs =>
        rcases cs with _ | ⟨c, _ | ⟨d, cs⟩⟩
        · exact dflt _ rfl
        · exact (key (c.lo + 10) (c.hi % 65536) (by omega)).2
        · exact dflt _ rfl
      | inline x => exact dflt _ rfl
      | text x => exact dflt _ rfl
      | varbin x => exact dflt _ rfl
      | property x y => exact dflt _ rfl
      | nested x => exact dflt _ rfl
  obtain ⟨s, hr, hp⟩ := run_decide (F := .code) (s := fresh 8 60) (ops := iterOps) (fun s => decide (
    ((liveSet s).filter fun a => (s.mem a).hi = colU 4 % 65536).card = 3)) (by decide +kernel)
  have hre := iter_reach (Or.inl rfl) hr
  obtain ⟨k1, k2⟩ := C67_update_partial (tag := colU 4) (g := .u32) hre (by decide) (by decide) (by decide) (Or.inl rfl) (Or.inl rfl) hf
  obtain ⟨t, ht⟩ := k1 rfl
  exact ⟨s, t, hre, hf, by rw [has_filter]; exact of_decide_eq_true hp, ht, (k2 t ht).1⟩

/-- An iterator in the middle of the collection: its value is replaced, then removed. -/
example : ∃ s t u it it2, Reachable .code noPre s ∧ Acc.At s it 6 ∧ it.assign .code s .u32 (unitsVal 1 77) = .ok it t ∧
    it.get t .u32 = .ok (some (unitsVal 1 77)) ∧ it.assign .code t .u32 (.units [.zero]) = .ok it2 u ∧ it2.field = none ∧
    (fieldsOf u).countP (fun f => f.1 = colU 4 % 65536) = 2 := by
  obtain ⟨s, hr, hp⟩ := run_decide (F := .code) (s := fresh 8 60) (ops := [insC 4 1, insC 4 2, insC 4 3]) (fun s => decide (
    s.live 6 ∧ (s.mem 6).hi = colU 4 % 65536 ∧ (match (Acc.mk (some 6) (colU 4)).assign .code s .u32 (unitsVal 1 77) with
      | .ok it t => decide (it = ⟨some 6, colU 4⟩ ∧ getEntry t (colU 4) .u32 (some 6) = .ok (some (unitsVal 1 77))) &&
        (match (Acc.mk (some 6) (colU 4)).assign .code t .u32 (.units [.zero]) with
          | .ok it2 u => decide (it2.field = none ∧ ((liveSet u).filter fun a => (u.mem a).hi = colU 4 % 65536).card = 2)
          | _ => false)
      | _ => false) = true)) (by decide +kernel)
  have hre : Reachable .code noPre s :=
    (fresh_ok (by decide) (by decide)).reachable (opOk_of (by decide +kernel)) (runBenign_of (by decide +kernel)) hr
  obtain ⟨p1, p2, p3⟩ := of_decide_eq_true hp
  cases h1 : (Acc.mk (some 6) (colU 4)).assign .code s .u32 (unitsVal 1 77) with
  | ub => rw [h1] at p3; exact absurd p3 Bool.false_ne_true
  | exc e t => rw [h1] at p3; exact absurd p3 Bool.false_ne_true
  | ok it t =>
    rw [h1] at p3
    simp only at p3
    rw [Bool.and_eq_true] at p3
    obtain ⟨q, q3⟩ := p3
    obtain ⟨q1, q2⟩ := of_decide_eq_true q
    cases h2 : (Acc.mk (some 6) (colU 4)).assign .code t .u32 (.units [.zero]) with
    | ub => rw [h2] at q3; exact absurd q3 Bool.false_ne_true
    | exc e t => rw [h2] at q3; exact absurd q3 Bool.false_ne_true
    | ok it2 u =>
      rw [h2] at q3
      have q3 := of_decide_eq_true q3
      exact ⟨s, t, u, ⟨some 6, colU 4⟩, it2, hre, ⟨rfl, p1, p2⟩, h1.trans (by rw [q1]), q2, h2, q3.1,
        by rw [has_filter]; exact q3.2⟩

/-- **C67 (refuted), the loop with a value that is dropped.** Three values of a collection; the loop which sets each of
them to zero removes the first one only: the assignment makes the iterator equal to `end()`, the loop ends, two values
remain. -/
theorem C67_update_refuted : ∃ s t, Reachable .code noPre s ∧ (fieldsOf s).countP (fun f => f.1 = colU 4 % 65536) = 3 ∧
    updateAll .code s (colU 4) (s.lookup (colU 4 % 65536)) .u32 (fun _ => .units [.zero]) = .ok () t ∧
    (fieldsOf t).countP (fun f => f.1 = colU 4 % 65536) = 2 := by
  obtain ⟨s, hr, hp⟩ := run_decide (F := .code) (s := fresh 8 60) (ops := iterOps) (fun s => decide (
    ((liveSet s).filter fun a => (s.mem a).hi = colU 4 % 65536).card = 3 ∧ ∃ a ∈ List.range 8, s.lookup (colU 4 % 65536) = some a ∧
    (match updateOne .code s (colU 4) a .u32 (fun _ => .units [.zero]) with
      | .ok none t => decide (((liveSet t).filter fun a => (t.mem a).hi = colU 4 % 65536).card = 2)
      | _ => false) = true)) (by decide +kernel)
  obtain ⟨p1, a, _, p2, p3⟩ := of_decide_eq_true hp
  cases h1 : updateOne .code s (colU 4) a .u32 (fun _ => .units [.zero]) with
  | ub => rw [h1] at p3; exact absurd p3 Bool.false_ne_true
  | exc e t => rw [h1] at p3; exact absurd p3 Bool.false_ne_true
  | ok r t =>
    rw [h1] at p3
    cases r with
    | some c => exact absurd p3 Bool.false_ne_true
    | none =>
      refine ⟨s, t, iter_reach (Or.inl rfl) hr, by rw [has_filter]; exact p1, ?_, by rw [has_filter]; exact of_decide_eq_true p3⟩
      rw [p2, updateAll, h1]

/-- **C67 (refuted), `it++`.** The postfix increment does not advance the iterator, in any tuple, and returns the position
after it instead of the one before: with a collection of three values the iterator still stands at the first one and the
result at another one. (`++it` is right, which is what the loops of the library use.) -/
theorem C67_postfix_refuted :
    (∀ (s : RW) (it it' r : Acc), it.postAdvance s = some (it', r) → it' = it) ∧
    ∃ s it r a b, Reachable .code noPre s ∧ Acc.begin s (colU 4) = .ok it ∧ it.postAdvance s = some (it, r) ∧
      Acc.At s it a ∧ Acc.At s r b ∧ a ≠ b := by
  constructor
  · intro s it it' r hh
    unfold Acc.postAdvance at hh
    cases hx : it.advance s with
    | none => rw [hx] at hh; cases hh
    | some x =>
      rw [hx] at hh
      exact (congrArg Prod.fst (Option.some.inj hh)).symm
  · obtain ⟨s, hr, hp⟩ := run_decide (F := .code) (s := fresh 8 60) (ops := iterOps) (fun s => decide (
      ∃ a ∈ List.range 8, ∃ b ∈ List.range 8, s.lookup (tag2gid (colU 4)) = some a ∧ nextEntry s (tag2gid (colU 4)) a = some b ∧
        a < s.pivot ∧ (s.live a ∧ (s.mem a).hi = colU 4 % 65536) ∧ (s.live b ∧ (s.mem b).hi = colU 4 % 65536) ∧ a ≠ b)) (by decide +kernel)
    obtain ⟨a, _, b, _, p1, p2, p3, p4, p5, p6⟩ := of_decide_eq_true hp
    refine ⟨s, ⟨some a, colU 4⟩, ⟨some b, colU 4⟩, a, b, iter_reach (Or.inl rfl) hr, ?_, ?_, ⟨rfl, p4⟩, ⟨rfl, p5⟩, p6⟩
    · unfold Acc.begin
      rw [if_pos (by decide), p1]
    · unfold Acc.postAdvance Acc.advance
      simp only
      rw [if_pos p3, p2]
      rfl

/-- `C67_erase_defined_partial` applies to a tuple of more than 4000 units. -/
example : ∃ s it a t, Reachable .code noPre s ∧ s.base + 4000 < s.tail ∧ Acc.At s it a ∧ it.erase s = .ok true t := by
  obtain ⟨s, hre, h1, h2, h3, _, _, h5, _⟩ := roomy_run
  have hw := tag_not_hole (tag := nst 5) (by decide)
  rw [gid_eq] at h5
  have ha := ((lookup_some hw).1 h5).1
  have hat : Acc.At s ⟨some 4, nst 5⟩ 4 := ⟨rfl, ha⟩
  have hu : fieldUnits s.mem .nested 4 ≤ occupied s (nst 5) := by
    rw [occupied_loose (σ := noPre) (by decide), show fieldUnits s.mem .nested 4 = lenOf noPre s 4 by
      rw [← fieldUnits_len (σ := noPre) ha.1, word_genus (g := .nested) (by decide) ha.2]]
    exact le_sumOf (· = nst 5 % 65536) ha.1 ha.2
  obtain ⟨t, ht⟩ := C67_erase_defined_partial hre hat (by
    show s.jv + fieldUnits s.mem .nested 4 ≤ 2047
    omega)
  exact ⟨s, _, 4, t, hre, h1, hat, ht⟩

end Fptu.Props
