import Verif.Model.BufferOrder
import Verif.Lemmas.Buffer
/-! Helper lemmas: the invariant of the reference counter with stale loads and of the order of accesses. -/
namespace Fptu.BufferOrder
open Finset
open Fptu.Buffer (upd sum_upd le_sum)

/-- References still to be dropped by a thread at position `pc`. -/
def pend : Pc → Nat
  | .start | .dec => 1
  | _ => 0

/-- Threads that have decided to release the buffer. -/
def closing : Pc → Nat
  | .drown _ | .repay _ => 1
  | _ => 0

def refs (s : Sys) (t : Nat) : Nat := s.held t + pend (s.pc t)
def clos (s : Sys) (t : Nat) : Nat := closing (s.pc t)
def Refs (n : Nat) (s : Sys) : Nat := ∑ t ∈ range n, refs s t
def Clos (n : Nat) (s : Sys) : Nat := ∑ t ∈ range n, clos s t

theorem two_le {n : Nat} (f : Nat → Nat) {t u : Nat} (ht : t < n) (hu : u < n) (h : t ≠ u) :
    f t + f u ≤ ∑ v ∈ range n, f v := by
  rw [← add_sum_erase _ f (mem_range.2 ht), ← add_sum_erase _ f (mem_erase.2 ⟨Ne.symm h, mem_range.2 hu⟩)]
  omega

theorem sum_to {n t : Nat} {f g : Nat → Nat} (ht : t < n) (h : ∀ u, u ≠ t → g u = f u) :
    (∑ u ∈ range n, g u) + f t = (∑ u ∈ range n, f u) + g t := by
  have e := sum_upd f (g t) ht
  rw [← e]
  congr 1
  refine sum_congr rfl fun u _ => ?_
  unfold upd
  split
  · rename_i h'; rw [h']
  · exact h u ‹_›

/-- The invariant. -/
structure Inv (acq : Bool) (n : Nat) (s : Sys) : Prop where
  once : s.freed + Clos n s ≤ 1
  dead : s.freed + Clos n s = 1 → Refs n s = 0
  live : s.freed + Clos n s = 0 → s.val s.last = (Refs n s : Int) ∧ 1 ≤ Refs n s
  seen : ∀ t, s.seen t ≤ s.last
  fresh : ∀ t, t < n → 0 < refs s t → ∀ k, s.seen t ≤ k → k < s.last → 2 ≤ s.val k
  known : s.freed + Clos n s = 0 → ∀ e, e < s.events → s.rel s.last e = true ∨ ∃ t, t < n ∧ 0 < refs s t ∧ s.know t e = true
  closed : ∀ t, t < n → ∀ c, s.pc t = .drown c ∨ s.pc t = .repay c → (acq = true ∨ c = true) →
    ∀ e, e < s.events → s.know t e = true

theorem closed_one {n : Nat} {s : Sys} {t : Nat} {c : Bool} (ht : t < n) (h : s.pc t = .drown c ∨ s.pc t = .repay c) :
    1 ≤ Clos n s := by
  have := le_sum (clos s) ht
  have h1 : clos s t = 1 := by rcases h with h | h <;> simp [clos, h, closing]
  unfold Clos
  omega

/-- A thread that owns a reference and sees the value one sees the newest modification and is the only owner. -/
theorem Inv.alone {acq : Bool} {n : Nat} {s : Sys} (hi : Inv acq n s) {t : Nat} (ht : t < n) (hr : 0 < refs s t) {k : Nat}
    (h1 : s.seen t ≤ k) (h2 : k ≤ s.last) (hv : s.val k = 1) :
    k = s.last ∧ s.freed = 0 ∧ Clos n s = 0 ∧ refs s t = 1 ∧ ∀ u, u < n → u ≠ t → refs s u = 0 := by
  have hk : k = s.last := by
    rcases Nat.lt_or_ge k s.last with h | h
    · have := hi.fresh t ht hr k h1 h
      omega
    · omega
  have hle := le_sum (refs s) ht
  have h3 := hi.once
  have h4 := hi.dead
  have h5 := hi.live
  unfold Refs at h4 h5
  have hl := h5 (by omega)
  rw [← hk, hv] at hl
  refine ⟨hk, by omega, by omega, by omega, fun u hu hne => ?_⟩
  have := two_le (refs s) hu ht hne
  omega

theorem Inv.all {acq : Bool} {n : Nat} {s : Sys} (hi : Inv acq n s) {t : Nat}
    (h0 : s.freed + Clos n s = 0) (ha : ∀ u, u < n → u ≠ t → refs s u = 0) {e : Nat} (he : e < s.events) :
    (s.know t e || s.rel s.last e) = true := by
  rcases hi.known h0 e he with h | ⟨u, hu, h1, h2⟩
  · simp [h]
  · by_cases hut : u = t
    · subst hut; simp [h2]
    · have := ha u hu hut
      omega

theorem inv_initial {acq : Bool} {n : Nat} (hn : 0 < n) : Inv acq n initial := by
  have h0 : Clos n initial = 0 := sum_eq_zero fun t _ => rfl
  have h1 : Refs n initial = 1 := by
    have := sum_to (n := n) (t := 0) (f := fun _ => 0) (g := refs initial) hn
      (fun u hu => by simp [refs, initial, hu, pend])
    rw [sum_const_zero] at this
    have h2 : refs initial 0 = 1 := rfl
    unfold Refs
    omega
  have hf : initial.freed = 0 := rfl
  refine ⟨by omega, by omega, fun _ => ⟨by rw [h1]; rfl, by omega⟩, fun t => Nat.le_refl _, ?_, ?_, ?_⟩
  · intro t _ _ k _ h
    exact absurd h (Nat.not_lt_zero _)
  · intro _ e h
    exact absurd h (Nat.not_lt_zero _)
  · intro t _ c h
    rcases h with h | h <;> cases h

theorem upd_self {α : Type} (f : Nat → α) (t : Nat) (x : α) : upd f t x t = x := if_pos rfl
theorem upd_ne {α : Type} (f : Nat → α) {t u : Nat} (x : α) (h : u ≠ t) : upd f t x u = f u := if_neg h

theorem upd_know {f : Nat → Nat → Bool} {t u : Nat} {w : Nat → Bool} (hw : ∀ e, f t e = true → w e = true) {e : Nat}
    (h : f u e = true) : upd f t w u e = true := by
  by_cases hu : u = t
  · subst hu; rw [upd_self]; exact hw e h
  · rw [upd_ne _ _ hu]; exact h

/-- A read-modify-write of thread `t`: everything but the counters of references is settled here. -/
theorem inv_rmw {acq : Bool} {n t : Nat} {d : Int} {s s' : Sys} (hi : Inv acq n s) (ht : t < n) (hrt : 0 < refs s t)
    (e1 : s'.val = (rmw t d s).val) (e2 : s'.rel = (rmw t d s).rel) (e3 : s'.last = s.last + 1)
    (e4 : s'.seen = (rmw t d s).seen) (e5 : s'.know = (rmw t d s).know) (e6 : s'.events = s.events)
    (e7 : s'.freed = s.freed) (e8 : ∀ u, u ≠ t → s'.pc u = s.pc u) (e9 : ∀ u, u ≠ t → s'.held u = s.held u)
    (hz : s'.freed + Clos n s' = 0 → (refs s' t : Int) = refs s t + d ∧ 1 ≤ Refs n s')
    (ho : s'.freed + Clos n s' = 1 → refs s' t = 0 ∧ refs s t = 1 ∧ Refs n s = 1)
    (hone : s'.freed + Clos n s' ≤ 1)
    (hcl : ∀ c, s'.pc t = .drown c ∨ s'.pc t = .repay c → ∀ u, u < n → u ≠ t → refs s u = 0) : Inv acq n s' := by
  have hle := le_sum (refs s) ht
  have k1 := hi.once
  have k2 := hi.dead
  have k3 := hi.live
  have hz0 : s.freed + Clos n s = 0 := by unfold Refs at k2; omega
  have hl := k3 hz0
  have hr : ∀ u, u ≠ t → refs s' u = refs s u := fun u h => by unfold refs; rw [e8 u h, e9 u h]
  have es := sum_to (n := n) (f := refs s) (g := refs s') ht hr
  have hrel : s'.rel s'.last = fun e => s.know t e || s.rel s.last e := by
    rw [e2, e3]; exact upd_self _ _ _
  have hkt : s'.know t = fun e => s.know t e || s.rel s.last e := by
    rw [e5]; exact upd_self _ _ _
  constructor
  · exact hone
  · intro h
    have := ho h
    unfold Refs at *
    omega
  · intro h
    have := hz h
    have hv : s'.val s'.last = s.val s.last + d := by rw [e1, e3]; exact upd_self _ _ _
    refine ⟨?_, this.2⟩
    rw [hv]
    unfold Refs at *
    omega
  · intro u
    rw [e3, e4]
    show upd s.seen t (s.last + 1) u ≤ s.last + 1
    have := hi.seen u
    by_cases h : u = t
    · subst h; rw [upd_self]
    · rw [upd_ne _ _ h]; omega
  · intro u hun hru k hk1 hk2
    rw [e4] at hk1
    have hk1 : upd s.seen t (s.last + 1) u ≤ k := hk1
    rw [e3] at hk2
    rw [e1]
    show 2 ≤ upd s.val (s.last + 1) _ k
    rw [upd_ne _ _ (by omega)]
    by_cases h : u = t
    · subst h; rw [upd_self] at hk1; omega
    · rw [upd_ne _ _ h] at hk1
      rw [hr u h] at hru
      rcases Nat.lt_or_ge k s.last with h' | h'
      · exact hi.fresh u hun hru k hk1 h'
      · have : k = s.last := by omega
        subst this
        have := two_le (refs s) hun ht h
        unfold Refs at hl
        omega
  · intro h0 e he
    rw [e6] at he
    rcases hi.known hz0 e he with h | ⟨u, hun, h1, h2⟩
    · left
      rw [hrel]
      simp [h]
    · by_cases hut : u = t
      · subst hut
        left
        rw [hrel]
        simp [h2]
      · right
        refine ⟨u, hun, by rw [hr u hut]; exact h1, ?_⟩
        rw [e5]
        show upd s.know t _ u e = true
        rw [upd_ne _ _ hut]
        exact h2
  · intro u hun c h _ e he
    rw [e6] at he
    by_cases hut : u = t
    · subst hut
      rw [hkt]
      exact hi.all hz0 (hcl c h) he
    · rw [e8 u hut] at h
      have := closed_one hun h
      omega

theorem inv_load {acq : Bool} {n t k : Nat} {s s' : Sys} (hi : Inv acq n s) (ht : t < n) (hrt : 0 < refs s t)
    (hk1 : s.seen t ≤ k) (hk2 : k ≤ s.last) (e1 : s'.val = s.val) (e2 : s'.rel = s.rel) (e3 : s'.last = s.last)
    (e4 : s'.seen = upd s.seen t k) (e5 : s'.know = (load acq t k s).know) (e6 : s'.events = s.events)
    (e7 : s'.freed = s.freed) (e8 : ∀ u, u ≠ t → s'.pc u = s.pc u) (e9 : ∀ u, u ≠ t → s'.held u = s.held u)
    (hcases : (refs s' t = refs s t ∧ clos s' t = 0) ∨
      (s.val k = 1 ∧ refs s' t = 0 ∧ s'.pc t = .drown false)) : Inv acq n s' := by
  have hle := le_sum (refs s) ht
  have k1 := hi.once
  have k2 := hi.dead
  have k3 := hi.live
  have hz0 : s.freed + Clos n s = 0 := by unfold Refs at k2; omega
  have hl := k3 hz0
  have hr : ∀ u, u ≠ t → refs s' u = refs s u := fun u h => by unfold refs; rw [e8 u h, e9 u h]
  have es := sum_to (n := n) (f := refs s) (g := refs s') ht hr
  have hc : ∀ u, u ≠ t → clos s' u = clos s u := fun u h => by unfold clos; rw [e8 u h]
  have ec := sum_to (n := n) (f := clos s) (g := clos s') ht hc
  have hct : clos s t = 0 := by have := le_sum (clos s) ht; unfold Clos at hz0; omega
  have hmono : ∀ u e, s.know u e = true → s'.know u e = true := by
    intro u e h
    rw [e5]
    unfold load
    dsimp only
    split
    · exact upd_know (fun e h => by simp [h]) h
    · exact h
  have hseen : ∀ u, s'.seen u ≤ s.last ∧ s.seen u ≤ s'.seen u := by
    intro u
    rw [e4]
    by_cases h : u = t
    · subst h; rw [upd_self]; exact ⟨hk2, hk1⟩
    · rw [upd_ne _ _ h]; exact ⟨hi.seen u, Nat.le_refl _⟩
  have hfr : ∀ u, u < n → 0 < refs s' u → 0 < refs s u := by
    intro u _ h
    by_cases hut : u = t
    · subst hut; exact hrt
    · rwa [← hr u hut]
  have hfresh : ∀ u, u < n → 0 < refs s' u → ∀ k, s'.seen u ≤ k → k < s'.last → 2 ≤ s'.val k := by
    intro u hun hru j hj1 hj2
    rw [e1]
    rw [e3] at hj2
    exact hi.fresh u hun (hfr u hun hru) j (Nat.le_trans (hseen u).2 hj1) hj2
  rcases hcases with ⟨h1, h2⟩ | ⟨h1, h2, h3⟩
  · have hC : Clos n s' = Clos n s := by unfold Clos; omega
    have hR : Refs n s' = Refs n s := by unfold Refs; omega
    constructor
    · rw [hC, e7]; exact k1
    · rw [hC, e7, hR]; exact k2
    · rw [hC, e7, hR, e1, e3]; exact k3
    · intro u; rw [e3]; exact (hseen u).1
    · exact hfresh
    · intro _ e he
      rw [e6] at he
      rcases hi.known hz0 e he with h | ⟨u, hun, h1', h2'⟩
      · left; rw [e2, e3]; exact h
      · right
        refine ⟨u, hun, ?_, hmono u e h2'⟩
        by_cases hut : u = t
        · subst hut; omega
        · rw [hr u hut]; exact h1'
    · intro u hun c h
      exfalso
      have := closed_one hun h
      rw [hC] at this
      omega
  · have ha := hi.alone ht hrt hk1 hk2 h1
    have hct' : clos s' t = 1 := by unfold clos; rw [h3]; rfl
    have hC : Clos n s' = 1 := by unfold Clos at *; omega
    have hR : Refs n s' = 0 := by
      have h1' := hl.1
      rw [← ha.1, h1] at h1'
      unfold Refs at *
      omega
    constructor
    · rw [hC, e7]; omega
    · rw [hR]; intro _; rfl
    · rw [hC]; omega
    · intro u; rw [e3]; exact (hseen u).1
    · exact hfresh
    · rw [hC]; intro h; omega
    · intro u hun c h hac e he
      rw [e6] at he
      by_cases hut : u = t
      · subst hut
        have hcf : c = false := by
          rw [h3] at h
          rcases h with h | h <;> cases h
          rfl
        have hacq : acq = true := by
          rcases hac with h | h
          · exact h
          · rw [hcf] at h; cases h
        subst hacq
        rw [e5]
        show upd s.know u _ u e = true
        rw [upd_self, ha.1]
        exact hi.all hz0 ha.2.2.2.2 he
      · rw [e8 u hut] at h
        have := closed_one hun h
        omega

theorem inv_step {acq : Bool} {n t : Nat} {a : Action} {s s' : Sys} (hi : Inv acq n s) (ht : t < n)
    (hu : ∀ u, a = .give u → u < n) (hs : step acq t a s = some s') : Inv acq n s' := by
  have hle := le_sum (refs s) ht
  have hlc := le_sum (clos s) ht
  have k1 := hi.once
  have k2 := hi.dead
  have k3 := hi.live
  unfold Refs at k2 k3
  unfold Clos at k1 k2 k3
  cases a with
  | addRef =>
    simp only [step] at hs
    split at hs
    · rename_i hc
      cases hs
      have hrt : refs s t = s.held t := by simp [refs, hc.1, pend]
      have hz : s.freed + ∑ u ∈ range n, clos s u = 0 := by omega
      have e2 : refs { rmw t 1 s with held := upd s.held t (s.held t + 1) } t = s.held t + 1 := by
        simp only [refs, rmw, upd_self, hc.1, pend]
      have e3 : Clos n { rmw t 1 s with held := upd s.held t (s.held t + 1) } = Clos n s := rfl
      have e4 := le_sum (refs { rmw t 1 s with held := upd s.held t (s.held t + 1) }) ht
      have e5 : ({ rmw t 1 s with held := upd s.held t (s.held t + 1) } : Sys).freed = s.freed := rfl
      refine inv_rmw (d := 1) hi ht (by omega) rfl rfl rfl rfl rfl rfl rfl (fun _ _ => rfl)
        (fun u h => upd_ne _ _ h) ?_ ?_ ?_ ?_
      · intro _
        refine ⟨by rw [e2, hrt]; omega, ?_⟩
        show 1 ≤ ∑ u ∈ range n, refs { rmw t 1 s with held := upd s.held t (s.held t + 1) } u
        omega
      · intro h
        rw [e3, e5] at h
        unfold Clos at h
        omega
      · rw [e3, e5]; unfold Clos; omega
      · intro c h
        have h : s.pc t = .drown c ∨ s.pc t = .repay c := h
        rw [hc.1] at h
        rcases h with h | h <;> cases h
    · cases hs
  | give u =>
    simp only [step] at hs
    split at hs
    · rename_i hc
      have hun := hu u rfl
      have hrt : refs s t = s.held t := by simp [refs, hc.1, pend]
      have hz0 : s.freed + Clos n s = 0 := by unfold Clos; omega
      cases hs
      have er : ∀ v, refs { s with
          held := upd (upd s.held t (s.held t - 1)) u (s.held u + 1)
          seen := upd s.seen u (max (s.seen u) (s.seen t))
          know := upd s.know u (fun e => s.know u e || s.know t e) } v =
          upd (upd (refs s) t (refs s t - 1)) u (refs s u + 1) v := by
        intro v
        unfold refs
        dsimp only
        by_cases h1 : v = u
        · subst h1; rw [upd_self, upd_self]; omega
        · rw [upd_ne _ _ h1, upd_ne _ _ h1]
          by_cases h2 : v = t
          · subst h2; rw [upd_self, upd_self, hc.1]; simp [pend]
          · rw [upd_ne _ _ h2, upd_ne _ _ h2]
      have es1 := sum_upd (refs s) (refs s t - 1) ht
      have es2 := sum_upd (upd (refs s) t (refs s t - 1)) (refs s u + 1) hun
      rw [upd_ne _ _ (Ne.symm hc.2.2)] at es2
      have hR : Refs n { s with
          held := upd (upd s.held t (s.held t - 1)) u (s.held u + 1)
          seen := upd s.seen u (max (s.seen u) (s.seen t))
          know := upd s.know u (fun e => s.know u e || s.know t e) } = Refs n s := by
        unfold Refs
        rw [sum_congr rfl fun v _ => er v]
        have a1 : (range n).sum (upd (upd (refs s) t (refs s t - 1)) u (refs s u + 1)) = ∑ v ∈ range n, upd (upd (refs s) t (refs s t - 1)) u (refs s u + 1) v := rfl
        omega
      constructor
      · exact hi.once
      · rw [hR]; exact hi.dead
      · rw [hR]; exact hi.live
      · intro v
        show upd s.seen u _ v ≤ s.last
        have := hi.seen v
        have := hi.seen t
        by_cases h : v = u
        · subst h; rw [upd_self]; omega
        · rw [upd_ne _ _ h]; assumption
      · intro v hvn hrv k hk1 hk2
        show 2 ≤ s.val k
        have hk1 : upd s.seen u (max (s.seen u) (s.seen t)) v ≤ k := hk1
        by_cases h : v = u
        · subst h
          rw [upd_self] at hk1
          exact hi.fresh t ht (by omega) k (by omega) hk2
        · rw [upd_ne _ _ h] at hk1
          refine hi.fresh v hvn ?_ k hk1 hk2
          rw [er v, upd_ne _ _ h] at hrv
          by_cases h2 : v = t
          · subst h2; omega
          · rwa [upd_ne _ _ h2] at hrv
      · intro _ e he
        rcases hi.known hz0 e he with h | ⟨v, hvn, h1, h2⟩
        · exact Or.inl h
        · right
          by_cases hvt : v = t
          · subst hvt
            refine ⟨u, hun, ?_, ?_⟩
            · rw [er u, upd_self]; omega
            · show upd s.know u _ u e = true
              rw [upd_self]; simp [h2]
          · refine ⟨v, hvn, ?_, upd_know (fun e h => by simp [h]) h2⟩
            rw [er v]
            by_cases hvu : v = u
            · subst hvu; rw [upd_self]; omega
            · rw [upd_ne _ _ hvu, upd_ne _ _ hvt]; exact h1
      · intro v hvn c h
        exfalso
        have := closed_one (s := s) hvn h
        omega
    · cases hs
  | use =>
    simp only [step] at hs
    split at hs
    · rename_i hc
      cases hs
      have hrt : refs s t = s.held t := by simp [refs, hc.1, pend]
      have hz0 : s.freed + Clos n s = 0 := by unfold Clos; omega
      refine ⟨hi.once, hi.dead, hi.live, hi.seen, hi.fresh, ?_, ?_⟩
      · intro _ e he
        have he : e < s.events + 1 := he
        by_cases h : e = s.events
        · subst h
          refine Or.inr ⟨t, ht, ?_, ?_⟩
          · show 0 < refs s t
            omega
          · show upd s.know t _ t _ = true
            rw [upd_self]; simp
        · rcases hi.known hz0 e (by omega) with h | ⟨v, hvn, h1, h2⟩
          · exact Or.inl h
          · exact Or.inr ⟨v, hvn, h1, upd_know (fun e h => by simp [h]) h2⟩
      · intro v hvn c h
        exfalso
        have := closed_one (s := s) hvn h
        omega
    · cases hs
  | look k =>
    simp only [step] at hs
    split at hs
    · rename_i hc
      cases hs
      have hrt : refs s t = s.held t := by simp [refs, hc.1, pend]
      refine inv_load hi ht (by omega) hc.2.2.1 hc.2.2.2 rfl rfl rfl rfl rfl rfl rfl (fun _ _ => rfl) (fun _ _ => rfl)
        (Or.inl ⟨rfl, ?_⟩)
      show closing (s.pc t) = 0
      rw [hc.1]; rfl
    · cases hs
  | detach =>
    simp only [step] at hs
    split at hs
    · rename_i hc
      cases hs
      have hrt : refs s t = s.held t := by simp [refs, hc.1, pend]
      have hz0 : s.freed + Clos n s = 0 := by unfold Clos; omega
      have er : refs { s with held := upd s.held t (s.held t - 1), pc := upd s.pc t .start } = refs s := by
        funext v
        unfold refs
        dsimp only
        by_cases h : v = t
        · subst h; rw [upd_self, upd_self, hc.1]; simp only [pend]; omega
        · rw [upd_ne _ _ h, upd_ne _ _ h]
      have ec : clos { s with held := upd s.held t (s.held t - 1), pc := upd s.pc t .start } = clos s := by
        funext v
        unfold clos
        dsimp only
        by_cases h : v = t
        · subst h; rw [upd_self, hc.1]; rfl
        · rw [upd_ne _ _ h]
      have hC : Clos n { s with held := upd s.held t (s.held t - 1), pc := upd s.pc t .start } = Clos n s := by
        unfold Clos; rw [ec]
      refine ⟨?_, ?_, ?_, hi.seen, ?_, ?_, ?_⟩
      · rw [hC]; exact hi.once
      · rw [hC]; unfold Refs; rw [er]; exact hi.dead
      · rw [hC]; unfold Refs; rw [er]; exact hi.live
      · rw [er]; exact hi.fresh
      · rw [hC, er]; exact hi.known
      · intro v hvn c h
        exfalso
        have := closed_one hvn h
        rw [hC] at this
        omega
    · cases hs
  | run k =>
    cases hp : s.pc t with
    | idle => simp [step, hp] at hs
    | start =>
      simp only [step, hp] at hs
      split at hs
      · rename_i hc
        cases hs
        have hrt : refs s t = s.held t + 1 := by simp [refs, hp, pend]
        have hh : s.val k = 1 → s.held t = 0 := fun h => by
          have := (hi.alone ht (by omega) hc.1 hc.2 h).2.2.2.1
          omega
        refine inv_load hi ht (by omega) hc.1 hc.2 rfl rfl rfl rfl rfl rfl rfl (fun u h => upd_ne _ _ h) (fun _ _ => rfl) ?_
        by_cases h : s.val k = 1
        · right
          refine ⟨h, ?_, ?_⟩
          · unfold refs
            dsimp only [load]
            rw [upd_self, hh h]
            simp [h, pend]
          · show upd s.pc t _ t = _
            rw [upd_self]
            simp [h]
        · left
          unfold refs clos
          dsimp only [load]
          rw [upd_self, hp]
          simp [h, pend, closing]
      · cases hs
    | dec =>
      simp only [step, hp] at hs
      cases hs
      have hrt : refs s t = s.held t + 1 := by simp [refs, hp, pend]
      have hz0 : s.freed + Clos n s = 0 := by unfold Clos; omega
      have hl := hi.live hz0
      have hct : clos s t = 0 := by unfold clos; rw [hp]; rfl
      by_cases h : s.val s.last - 1 > 0
      · rw [if_pos h]
        have er : ∀ u, u ≠ t → refs { rmw t (-1) s with pc := upd s.pc t .idle } u = refs s u := fun u h => by
          unfold refs; dsimp only [rmw]; rw [upd_ne _ _ h]
        have ert : refs { rmw t (-1) s with pc := upd s.pc t .idle } t = s.held t := by
          unfold refs; dsimp only [rmw]; rw [upd_self]; rfl
        have es := sum_to (n := n) (f := refs s) ht er
        have ec : clos { rmw t (-1) s with pc := upd s.pc t .idle } = clos s := by
          funext v
          unfold clos
          dsimp only [rmw]
          by_cases h : v = t
          · subst h; rw [upd_self, hp]; rfl
          · rw [upd_ne _ _ h]
        have hC : Clos n { rmw t (-1) s with pc := upd s.pc t .idle } = Clos n s := by unfold Clos; rw [ec]
        have hF : ({ rmw t (-1) s with pc := upd s.pc t .idle } : Sys).freed = s.freed := rfl
        refine inv_rmw (d := -1) hi ht (by omega) rfl rfl rfl rfl rfl rfl rfl (fun u h => upd_ne _ _ h)
          (fun _ _ => rfl) ?_ ?_ ?_ ?_
        · intro _
          refine ⟨by rw [ert, hrt]; omega, ?_⟩
          show 1 ≤ ∑ u ∈ range n, refs { rmw t (-1) s with pc := upd s.pc t .idle } u
          unfold Refs at hl
          omega
        · intro h
          rw [hC, hF] at h
          omega
        · rw [hC, hF]; omega
        · intro c h
          have h : upd s.pc t .idle t = .drown c ∨ upd s.pc t .idle t = .repay c := h
          rw [upd_self] at h
          rcases h with h | h <;> cases h
      · rw [if_neg h]
        have hone : Refs n s = 1 := by omega
        have hz : s.held t = 0 := by unfold Refs at hone; omega
        have ert : refs { rmw t (-1) s with pc := upd s.pc t (.drown true) } t = 0 := by
          unfold refs; dsimp only [rmw]; rw [upd_self, hz]; rfl
        have ec := sum_to (n := n) (f := clos s) (g := clos { rmw t (-1) s with pc := upd s.pc t (.drown true) }) ht
          (fun u h => by unfold clos; dsimp only [rmw]; rw [upd_ne _ _ h])
        have ect : clos { rmw t (-1) s with pc := upd s.pc t (.drown true) } t = 1 := by
          unfold clos; dsimp only [rmw]; rw [upd_self]; rfl
        have hC : Clos n { rmw t (-1) s with pc := upd s.pc t (.drown true) } = 1 := by unfold Clos at *; omega
        have hF : ({ rmw t (-1) s with pc := upd s.pc t (.drown true) } : Sys).freed = s.freed := rfl
        refine inv_rmw (d := -1) hi ht (by omega) rfl rfl rfl rfl rfl rfl rfl (fun u h => upd_ne _ _ h)
          (fun _ _ => rfl) ?_ ?_ ?_ ?_
        · rw [hC]; intro h; omega
        · intro _
          exact ⟨ert, by omega, hone⟩
        · rw [hC, hF]; omega
        · intro c _ u hun hne
          have := two_le (refs s) hun ht hne
          unfold Refs at hone
          omega
    | drown c =>
      simp only [step, hp] at hs
      cases hs
      have er : refs { s with pc := upd s.pc t (.repay c) } = refs s := by
        funext v
        unfold refs
        dsimp only
        by_cases h : v = t
        · subst h; rw [upd_self, hp]; rfl
        · rw [upd_ne _ _ h]
      have ec : clos { s with pc := upd s.pc t (.repay c) } = clos s := by
        funext v
        unfold clos
        dsimp only
        by_cases h : v = t
        · subst h; rw [upd_self, hp]; rfl
        · rw [upd_ne _ _ h]
      have hC : Clos n { s with pc := upd s.pc t (.repay c) } = Clos n s := by unfold Clos; rw [ec]
      have h1 := closed_one ht (Or.inl hp)
      refine ⟨?_, ?_, ?_, hi.seen, ?_, ?_, ?_⟩
      · rw [hC]; exact hi.once
      · rw [hC]; unfold Refs; rw [er]; exact hi.dead
      · rw [hC]; unfold Refs; rw [er]; exact hi.live
      · rw [er]; exact hi.fresh
      · rw [hC, er]; exact hi.known
      · intro v hvn c' h hac e he
        have h : upd s.pc t (.repay c) v = .drown c' ∨ upd s.pc t (.repay c) v = .repay c' := h
        by_cases hv : v = t
        · subst hv
          rw [upd_self] at h
          have hcc : c' = c := by rcases h with h | h <;> cases h; rfl
          exact hi.closed v hvn c (Or.inl hp) (hcc ▸ hac) e he
        · rw [upd_ne _ _ hv] at h
          exact hi.closed v hvn c' h hac e he
    | repay c =>
      simp only [step, hp] at hs
      cases hs
      have er : refs { s with freed := s.freed + 1, pc := upd s.pc t .idle } = refs s := by
        funext v
        unfold refs
        dsimp only
        by_cases h : v = t
        · subst h; rw [upd_self, hp]; rfl
        · rw [upd_ne _ _ h]
      have ec := sum_to (n := n) (f := clos s) (g := clos { s with freed := s.freed + 1, pc := upd s.pc t .idle }) ht
        (fun u h => by unfold clos; dsimp only; rw [upd_ne _ _ h])
      have ect : clos { s with freed := s.freed + 1, pc := upd s.pc t .idle } t = 0 := by
        unfold clos; dsimp only; rw [upd_self]; rfl
      have hct : clos s t = 1 := by unfold clos; rw [hp]; rfl
      have hC : Clos n { s with freed := s.freed + 1, pc := upd s.pc t .idle } + 1 = Clos n s := by unfold Clos; omega
      have hF : ({ s with freed := s.freed + 1, pc := upd s.pc t .idle } : Sys).freed = s.freed + 1 := rfl
      have h1 := closed_one ht (Or.inr hp)
      have h2 := hi.once
      refine ⟨?_, ?_, ?_, hi.seen, ?_, ?_, ?_⟩
      · rw [hF]; omega
      · intro _; unfold Refs; rw [er]; exact hi.dead (by omega)
      · rw [hF]; intro h; omega
      · rw [er]; exact hi.fresh
      · rw [hF]; intro h; omega
      · intro v hvn c' h
        exfalso
        have := closed_one hvn h
        rw [← hC] at h2
        omega

end Fptu.BufferOrder
