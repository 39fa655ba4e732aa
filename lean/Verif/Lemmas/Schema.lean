import Verif.Model.Schema
import Verif.Props.Tags
import Mathlib.Data.List.Basic
/-!
# Schemas: the invariant every sequence of definitions keeps
-/
namespace Fptu.Schemas
open Fptu Fptu.Props

/-- The token comes from one of the two public constructors (token.h:392-403). -/
def Constructed (t : Nat) : Prop :=
  (∃ tc id c d sa, tokenLoose tc id c d sa = .ok t) ∨
  (∃ off : Int, ∃ tc d sa, -(2 ^ 63) ≤ off ∧ off < 2 ^ 63 ∧ tokenPreplaced off tc d sa = .ok t)

/-- What holds for the tag of such a token. -/
structure WellTok (t : Nat) : Prop where
  small : t < 2 ^ 32
  size : isPreplaced t = true → tag2indysize t = (tag2genus t).preplacedBytes
  genus : isPreplaced t = false → tag2genus t ≠ .hole

theorem WellTok.preplaced {off : Int} {tc t : Nat} {d sa : Bool} (h0 : -(2 ^ 63) ≤ off) (h1 : off < 2 ^ 63)
    (h : tokenPreplaced off tc d sa = .ok t) : WellTok t := by
  obtain ⟨a1, a2, a3, a4, a5, a6, a7, a8, a9, _⟩ := C01_preplaced_token_lossless off tc d sa t ⟨h0, h1⟩ h
  refine ⟨a4, fun _ => ?_, fun k => ?_⟩
  · rw [a9]; show _ = (Genus.ofCode (tag2genusCode t)).preplacedBytes; rw [a8]
  · rw [a5] at k; cases k

theorem WellTok.loose {tc id t : Nat} {c d sa : Bool} (h : tokenLoose tc id c d sa = .ok t) : WellTok t := by
  obtain ⟨a1, a2, a3, a4, a5, a6, _⟩ := C01_loose_token_lossless tc id c d sa t h
  refine ⟨a3, fun k => ?_, fun _ => ?_⟩
  · rw [a5] at k; cases k
  · have e : tag2genusCode t = tc := a6
    intro k
    have : Genus.ofCode tc = .hole := by rw [← e]; exact k
    have := congrArg Genus.code this
    rw [Genus.code_ofCode tc (by omega)] at this
    have : tc = 31 := this
    omega

theorem Constructed.well {t : Nat} (h : Constructed t) : WellTok t := by
  rcases h with ⟨_, _, _, _, _, h⟩ | ⟨_, _, _, _, h0, h1, h⟩
  · exact .loose h
  · exact .preplaced h0 h1 h

/-- The imported tokens come from the constructors. -/
def Cmd.Ok : Cmd → Prop
  | .imported _ t _ _ => Constructed t
  | _ => True

theorem definePreplaced_ok {s s' : Sc} {n : Name} {tc tok : Nat} {d sa : Bool} {i : Option (List Nat)}
    (h : definePreplaced s n tc d sa i = .ok tok s') :
    tc < 31 ∧ ∃ off ident, off = alignedOffset s.image.length (if (Genus.ofCode tc).preplacedBytes > 4 then 4 else (Genus.ofCode tc).preplacedBytes) ∧
      off ≤ 16381 ∧ tokenPreplaced off tc d sa = .ok ident ∧ addDefinition s n ident i = .ok tok s' := by
  unfold definePreplaced at h
  by_cases h1 : tc ≥ 31
  · rw [if_pos h1] at h; cases h
  rw [if_neg h1] at h
  refine ⟨by omega, ?_⟩
  simp only [show unitSize = 4 from rfl, show maxPreplacedOffset = 16381 from rfl] at h
  generalize alignedOffset s.image.length (if (Genus.ofCode tc).preplacedBytes > 4 then 4 else (Genus.ofCode tc).preplacedBytes) = off at h ⊢
  split_ifs at h with h2
  split at h
  · cases h
  · rename_i ident hi
    exact ⟨off, ident, rfl, by omega, hi, h⟩

theorem defineLoose_ok {s s' : Sc} {n : Name} {tc tok : Nat} {c d sa : Bool} (h : defineLoose s n tc c d sa = .ok tok s') :
    tc < 31 ∧ nextLooseId s (Genus.ofCode tc) < 1024 ∧ ∃ ident, tokenLoose tc (nextLooseId s (Genus.ofCode tc)) c d sa = .ok ident ∧
      addDefinition s n ident none = .ok tok s' := by
  unfold defineLoose at h
  by_cases h1 : tc ≥ 31
  · rw [if_pos h1] at h; cases h
  rw [if_neg h1] at h
  refine ⟨by omega, ?_⟩
  simp only [] at h
  split_ifs at h with h2
  split at h
  · cases h
  · rename_i ident hi
    exact ⟨by omega, ident, hi, h⟩

theorem defineOpacity_ok {s s' : Sc} {n : Name} {sz al tok : Nat} {i : Option (List Nat)} (h : defineOpacity s n sz al i = .ok tok s') :
    ∃ (off : Nat) (ident : Nat), off ≤ 16381 ∧ s.image.length ≤ off ∧ tokenPreplaced off 31 false false = .ok ident ∧
      addDefinition s n ident i = .ok tok s' := by
  unfold defineOpacity at h
  simp only [] at h
  split_ifs at h <;>
  · split at h
    · cases h
    · rename_i h2 _ ident hi
      simp only [maxPreplacedOffset] at h2
      exact ⟨_, ident, by omega, by unfold alignedOffset; omega, hi, h⟩

theorem addDefinition_ok {s s' : Sc} {n : Name} {t tok : Nat} {i : Option (List Nat)} (h : addDefinition s n t i = .ok tok s') :
    n.length ≤ 42 ∧ (∀ p ∈ s.n2t, p.1 ≠ n) ∧ (∀ p ∈ s.t2n, tagSame p.1 t = false) ∧
      (isPreplaced t = true → noConflict t s.tokens = true ∧
        ¬ ((tag2offset t + tag2indysize t : Int) - s.image.length) % (2 ^ 64 : Int) > maxString) ∧
      commitDefinition s n t i = .ok tok s' := by
  unfold addDefinition at h
  by_cases h1 : n.length > 42
  · rw [if_pos h1] at h; cases h
  rw [if_neg h1] at h
  by_cases h2 : s.n2t.any (fun p => p.1 == n)
  · rw [if_pos h2] at h; cases h
  rw [if_neg h2] at h
  by_cases h3 : s.t2n.any (fun p => tagSame p.1 t)
  · rw [if_pos h3] at h; cases h
  rw [if_neg h3] at h
  by_cases h4 : (isPreplaced t && !noConflict t s.tokens) = true
  · rw [if_pos h4] at h; cases h
  rw [if_neg h4] at h
  split_ifs at h with h5
  refine ⟨by omega, fun p hp hk => h2 ?_, fun p hp => ?_, fun hk => ⟨?_, fun hz => h5 ?_⟩, h⟩
  · exact List.any_eq_true.2 ⟨p, hp, beq_iff_eq.2 hk⟩
  · by_contra hq
    exact h3 (List.any_eq_true.2 ⟨p, hp, by simpa using hq⟩)
  · rw [hk, Bool.true_and] at h4
    simpa using h4
  · rw [hk, Bool.true_and]; exact decide_eq_true hz

theorem commit_ok {s s' : Sc} {n : Name} {t tok : Nat} {i : Option (List Nat)} (h : commitDefinition s n t i = .ok tok s') :
    tok = t ∧ s'.tokens = sortTokens (s.tokens ++ [t]) ∧ s'.n2t = s.n2t ++ [(n, t)] ∧ s'.t2n = s.t2n ++ [(t, n)] ∧
      s'.npre = s.npre + nat (isPreplaced t) ∧ s'.nstretchy = s.nstretchy + nat (isPreplaced t && isStretchy t) ∧
      (if isPreplaced t then newImage s.image t i = some s'.image else s'.image = s.image) := by
  unfold commitDefinition at h
  by_cases hp : isPreplaced t = true
  · rw [if_pos hp] at h
    split at h
    · cases h
    · rename_i img hi
      injection h with h1 h2
      subst h2
      rw [hp, if_pos rfl]
      exact ⟨h1.symm, rfl, rfl, rfl, rfl, rfl, hi⟩
  · rw [if_neg hp] at h
    injection h with h1 h2
    subst h2
    have hp : isPreplaced t = false := by simpa using hp
    rw [hp]
    exact ⟨h1.symm, rfl, rfl, rfl, rfl, rfl, rfl⟩

theorem exec_ok {s s' : Sc} {c : Cmd} {tok : Nat} (hc : c.Ok) (h : exec s c = .ok tok s') :
    WellTok tok ∧ ∃ i, addDefinition s c.name tok i = .ok tok s' := by
  have key : ∀ {t : Nat} {n : Name} {i : Option (List Nat)}, addDefinition s n t i = .ok tok s' → tok = t :=
    fun h => (commit_ok (addDefinition_ok h).2.2.2.2).1
  cases c with
  | preplaced n tc d sa i =>
    obtain ⟨h1, off, ident, h2, h3, h4, h5⟩ := definePreplaced_ok h
    cases key h5
    exact ⟨.preplaced (by omega) (by omega) h4, i, h5⟩
  | opacity n sz al i =>
    obtain ⟨off, ident, h2, h3, h4, h5⟩ := defineOpacity_ok h
    cases key h5
    exact ⟨.preplaced (by omega) (by omega) h4, i, h5⟩
  | loose n tc c d sa =>
    obtain ⟨h1, h2, ident, h4, h5⟩ := defineLoose_ok h
    cases key h5
    exact ⟨.loose h4, none, h5⟩
  | imported n t i r =>
    show _ ∧ ∃ i, addDefinition s n tok i = _
    have h : importDefinition s n t i r = .ok tok s' := h
    unfold importDefinition at h
    split_ifs at h with h1 h2 h3
    · cases key h
      exact ⟨Constructed.well hc, i, h⟩
    · obtain ⟨h1, off, ident, h2, h3, h4, h5⟩ := definePreplaced_ok h
      cases key h5
      exact ⟨.preplaced (by omega) (by omega) h4, i, h5⟩
    · obtain ⟨h1, h2, ident, h4, h5⟩ := defineLoose_ok h
      cases key h5
      exact ⟨.loose h4, none, h5⟩

theorem mem_sortTokens {l : List Nat} {t : Nat} : t ∈ sortTokens l ↔ t ∈ l := (List.perm_insertionSort _ l).mem_iff

/-- The invariant of every schema. -/
structure Inv (s : Sc) (log : List (Name × Nat)) : Prop where
  n2t : s.n2t = log
  t2n : s.t2n = log.map Prod.swap
  perm : s.tokens.Perm (log.map Prod.snd)
  sorted : s.tokens.Pairwise (fun a b => normalizeTag a < normalizeTag b)
  names : (log.map Prod.fst).Nodup
  well : ∀ t ∈ s.tokens, WellTok t
  npre : s.npre = s.tokens.countP isPreplaced
  nstretchy : s.nstretchy = s.tokens.countP (fun t => isPreplaced t && isStretchy t)

theorem Inv.create : Inv .create [] := ⟨rfl, rfl, .nil, .nil, .nil, fun _ h => (by cases h), rfl, rfl⟩

theorem sort_strict {l : List Nat} {t : Nat} (h : l.Pairwise (fun a b => normalizeTag a < normalizeTag b))
    (hn : ∀ x ∈ l, normalizeTag x ≠ normalizeTag t) :
    (sortTokens (l ++ [t])).Pairwise (fun a b => normalizeTag a < normalizeTag b) := by
  have hle : (sortTokens (l ++ [t])).Pairwise (fun a b => normalizeTag a ≤ normalizeTag b) := by
    haveI : Std.Total (fun a b : Nat => normalizeTag a ≤ normalizeTag b) := ⟨fun a b => Nat.le_total _ _⟩
    haveI : IsTrans Nat (fun a b : Nat => normalizeTag a ≤ normalizeTag b) := ⟨fun a b c => Nat.le_trans⟩
    exact List.pairwise_insertionSort _ _
  have hne : (sortTokens (l ++ [t])).Pairwise (fun a b => normalizeTag a ≠ normalizeTag b) := by
    refine ((List.perm_insertionSort _ (l ++ [t])).symm.pairwise_iff (fun h => Ne.symm h)).1 ?_
    rw [List.pairwise_append]
    refine ⟨h.imp (fun h => Nat.ne_of_lt h), List.pairwise_singleton _ _, fun a ha b hb => ?_⟩
    rw [List.mem_singleton] at hb; subst hb
    exact hn a ha
  exact (hle.and hne).imp (fun ⟨h1, h2⟩ => Nat.lt_of_le_of_ne h1 h2)

theorem Inv.mem_tokens {s : Sc} {log : List (Name × Nat)} (h : Inv s log) {t : Nat} :
    t ∈ s.tokens ↔ ∃ n, (n, t) ∈ log := by
  rw [h.perm.mem_iff, List.mem_map]
  constructor
  · rintro ⟨⟨n, t'⟩, hm, rfl⟩; exact ⟨n, hm⟩
  · rintro ⟨n, hm⟩; exact ⟨_, hm, rfl⟩

theorem Inv.step {s s' : Sc} {log : List (Name × Nat)} (h : Inv s log) {n : Name} {t : Nat} {i : Option (List Nat)}
    (hw : WellTok t) (e : addDefinition s n t i = .ok t s') : Inv s' (log ++ [(n, t)]) := by
  obtain ⟨h1, h2, h3, h4, h5⟩ := addDefinition_ok e
  obtain ⟨_, g1, g2, g3, g4, g5, _⟩ := commit_ok h5
  have hp : s'.tokens.Perm (s.tokens ++ [t]) := g1 ▸ List.perm_insertionSort _ _
  refine ⟨by rw [g2, h.n2t], by rw [g3, h.t2n, List.map_append]; rfl, ?_, ?_, ?_, ?_, ?_, ?_⟩
  · rw [List.map_append]
    exact hp.trans (h.perm.append_right _)
  · rw [g1]
    refine sort_strict h.sorted (fun x hx hk => ?_)
    obtain ⟨m, hm⟩ := h.mem_tokens.1 hx
    have := h3 (x, m) (by rw [h.t2n, List.mem_map]; exact ⟨_, hm, rfl⟩)
    simp only [tagSame, beq_eq_false_iff_ne] at this
    exact this hk
  · rw [List.map_append, List.nodup_append]
    refine ⟨h.names, List.nodup_singleton _, ?_⟩
    intro a ha b hb
    rw [List.map_cons, List.map_nil, List.mem_singleton] at hb
    subst hb
    rw [List.mem_map] at ha
    obtain ⟨p, hp, rfl⟩ := ha
    exact h2 p (h.n2t ▸ hp)
  · intro x hx
    rcases List.mem_append.1 (hp.mem_iff.1 hx) with k | k
    · exact h.well x k
    · rw [List.mem_singleton] at k; exact k ▸ hw
  · rw [g4, h.npre, hp.countP_eq, List.countP_append]
    congr 1
    unfold nat; simp [List.countP_cons]
  · rw [g5, h.nstretchy, hp.countP_eq, List.countP_append]
    congr 1
    unfold nat; simp [List.countP_cons]

/-- Commands with constructed tokens keep the invariant. -/
theorem Inv.run {s s' : Sc} {log log' : List (Name × Nat)} {cs : List Cmd} (h : Inv s log) (hc : ∀ c ∈ cs, c.Ok)
    (e : runFrom s log cs = some (s', log')) : Inv s' log' := by
  induction cs generalizing s log with
  | nil => cases e; exact h
  | cons c cs ih =>
    have hcs : ∀ c ∈ cs, c.Ok := fun x hx => hc x (List.mem_cons_of_mem _ hx)
    unfold runFrom at e
    split at e
    · rename_i tok s1 he
      obtain ⟨hw, i, ha⟩ := exec_ok (hc c List.mem_cons_self) he
      exact ih (h.step hw ha) hcs e
    · exact ih h hcs e
    · exact ih h hcs e
    · cases e

theorem define_inv {cs : List Cmd} {s : Sc} {log : List (Name × Nat)} (hc : ∀ c ∈ cs, c.Ok) (e : define cs = some (s, log)) :
    Inv s log := Inv.create.run hc e

end Fptu.Schemas
