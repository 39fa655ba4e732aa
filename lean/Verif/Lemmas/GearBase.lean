import Verif.Model.Gear
import Mathlib.Algebra.BigOperators.Intervals
import Mathlib.Algebra.BigOperators.Ring.Finset
import Mathlib.Algebra.Order.BigOperators.Group.Finset
import Mathlib.Tactic.SplitIfs
/-!
# Accounting over the index of a tuple: sums over cells, the layout invariant, framing
-/
namespace Fptu.Gear
open Finset

/-- Indicator of the unit `u` in the chunk of `n` units at `p`. -/
def ind (p n u : Nat) : ℤ := if p ≤ u ∧ u < p + n then 1 else 0

theorem ind_nonneg (p n u : Nat) : 0 ≤ ind p n u := by unfold ind; split_ifs <;> omega
theorem ind_le_one (p n u : Nat) : ind p n u ≤ 1 := by unfold ind; split_ifs <;> omega
@[simp] theorem ind_zero (p u : Nat) : ind p 0 u = 0 := by unfold ind; split_ifs <;> omega
theorem ind_start {p n : Nat} (h : 0 < n) : ind p n p = 1 := by unfold ind; split_ifs <;> omega
theorem ind_add (p a b u : Nat) : ind p (a + b) u = ind p a u + ind (p + a) b u := by
  unfold ind; split_ifs <;> omega

/-- Sum of a quantity attached to the cells `[lo, hi)`. -/
def T (φ : Nat → Cell → ℤ) (m : Memory) (lo hi : Nat) : ℤ := ∑ a ∈ Ico lo hi, φ a (m a)

theorem T_succ (φ : Nat → Cell → ℤ) (m : Memory) {lo hi : Nat} (h : lo < hi) :
    T φ m lo hi = φ lo (m lo) + T φ m (lo + 1) hi := by
  unfold T; exact Finset.sum_eq_sum_Ico_succ_bot h _

theorem T_empty (φ : Nat → Cell → ℤ) (m : Memory) {lo hi : Nat} (h : hi ≤ lo) : T φ m lo hi = 0 := by
  unfold T; rw [Finset.Ico_eq_empty (by omega)]; rfl

theorem T_congr {φ ψ : Nat → Cell → ℤ} {m m' : Memory} {lo hi : Nat}
    (h : ∀ a, lo ≤ a → a < hi → φ a (m a) = ψ a (m' a)) : T φ m lo hi = T ψ m' lo hi := by
  unfold T
  refine Finset.sum_congr rfl fun a ha => ?_
  rw [Finset.mem_Ico] at ha
  exact h a ha.1 ha.2

/-- Changing one cell changes the sum by the difference of its contributions. -/
theorem T_change {φ ψ : Nat → Cell → ℤ} {m m' : Memory} {lo hi : Nat} (a : Nat) (h1 : lo ≤ a) (h2 : a < hi)
    (h : ∀ b, b ≠ a → lo ≤ b → b < hi → φ b (m b) = ψ b (m' b)) :
    T ψ m' lo hi = T φ m lo hi - φ a (m a) + ψ a (m' a) := by
  unfold T
  have ha : a ∈ Ico lo hi := Finset.mem_Ico.2 ⟨h1, h2⟩
  rw [← Finset.add_sum_erase _ _ ha, ← Finset.add_sum_erase (Ico lo hi) (fun a => φ a (m a)) ha]
  have : ∑ x ∈ (Ico lo hi).erase a, ψ x (m' x) = ∑ x ∈ (Ico lo hi).erase a, φ x (m x) := by
    refine Finset.sum_congr rfl fun b hb => ?_
    rw [Finset.mem_erase, Finset.mem_Ico] at hb
    exact (h b hb.1 hb.2.1 hb.2.2).symm
  rw [this]; omega

theorem T_nonneg {φ : Nat → Cell → ℤ} {m : Memory} {lo hi : Nat} (h : ∀ a c, 0 ≤ φ a c) : 0 ≤ T φ m lo hi := by
  unfold T; exact Finset.sum_nonneg fun a _ => h _ _

theorem le_T {φ : Nat → Cell → ℤ} {m : Memory} {lo hi : Nat} (h : ∀ a c, 0 ≤ φ a c) {a : Nat}
    (h1 : lo ≤ a) (h2 : a < hi) : φ a (m a) ≤ T φ m lo hi := by
  unfold T
  exact Finset.single_le_sum (f := fun a => φ a (m a)) (fun b _ => h _ _) (Finset.mem_Ico.2 ⟨h1, h2⟩)

theorem two_le_T {φ : Nat → Cell → ℤ} {m : Memory} {lo hi : Nat} (h : ∀ a c, 0 ≤ φ a c) {a b : Nat} (hab : a ≠ b)
    (h1 : lo ≤ a) (h2 : a < hi) (h3 : lo ≤ b) (h4 : b < hi) : φ a (m a) + φ b (m b) ≤ T φ m lo hi := by
  unfold T
  have ha : a ∈ Ico lo hi := Finset.mem_Ico.2 ⟨h1, h2⟩
  rw [← Finset.add_sum_erase _ _ ha]
  have hb : b ∈ (Ico lo hi).erase a := Finset.mem_erase.2 ⟨Ne.symm hab, Finset.mem_Ico.2 ⟨h3, h4⟩⟩
  have := Finset.single_le_sum (f := fun a => φ a (m a)) (fun b _ => h _ _) hb
  omega

theorem T_le {φ ψ : Nat → Cell → ℤ} {m : Memory} {lo hi : Nat} (h : ∀ a, lo ≤ a → a < hi → φ a (m a) ≤ ψ a (m a)) :
    T φ m lo hi ≤ T ψ m lo hi := by
  unfold T; exact Finset.sum_le_sum fun a ha => h a (Finset.mem_Ico.1 ha).1 (Finset.mem_Ico.1 ha).2

theorem T_mono_hi {φ : Nat → Cell → ℤ} {m : Memory} {lo hi hi' : Nat} (h : ∀ a c, 0 ≤ φ a c) (hh : hi ≤ hi') :
    T φ m lo hi ≤ T φ m lo hi' := by
  unfold T
  exact Finset.sum_le_sum_of_subset_of_nonneg (Finset.Ico_subset_Ico_right hh) fun a _ _ => h _ _

/-- Contribution of a cell to the number of holes, the volume of holes, the coverage of unit `u`. `len` gives the
number of payload units owned by a cell that is not a hole of the index. -/
def phiC (_ : Nat) (c : Cell) : ℤ := if Cell.isHole c then 1 else 0
def phiV (_ : Nat) (c : Cell) : ℤ := if Cell.isHole c then (Cell.units c : ℤ) else 0
def clen (pivot : Nat) (len : Nat → Nat) (a : Nat) (c : Cell) : Nat :=
  if a < pivot ∧ Cell.isHole c then Cell.units c else len a
def phiW (pivot : Nat) (len : Nat → Nat) (u : Nat) (a : Nat) (c : Cell) : ℤ := ind (a + c.lo) (clen pivot len a c) u

theorem phiC_nonneg (a : Nat) (c : Cell) : 0 ≤ phiC a c := by unfold phiC; split_ifs <;> omega
theorem phiV_nonneg (a : Nat) (c : Cell) : 0 ≤ phiV a c := by unfold phiV; split_ifs <;> omega
theorem phiW_nonneg (p : Nat) (len : Nat → Nat) (u a : Nat) (c : Cell) : 0 ≤ phiW p len u a c := ind_nonneg _ _ _

/-- Layout invariant. `len a` = number of payload units owned by the field cell `a`; `ex u` = 1 for units currently
detached from any owner (allocated but not yet referenced). Every unit of the payload area `[base, tail)` belongs
to exactly one owner, nothing outside does, and the hole counters are exact. -/
structure Inv (s : RW) (len : Nat → Nat) (ex : Nat → ℤ) : Prop where
  hp : s.head ≤ s.pivot
  bt : s.base ≤ s.tail
  tl : s.tail ≤ s.lim
  ll : s.lim ≤ 65534
  cover : ∀ u, T (phiW s.pivot len u) s.mem s.head s.base + ex u = ind s.base (s.tail - s.base) u
  cnt : (s.jc : ℤ) = T phiC s.mem s.head s.pivot
  vol : (s.jv : ℤ) = T phiV s.mem s.head s.pivot
  exnn : ∀ u, 0 ≤ ex u

/-- A field entry of the index. -/
def RW.live (s : RW) (a : Nat) : Prop := s.head ≤ a ∧ a < s.pivot ∧ ¬ s.isHole a
/-- A hole entry of the index. -/
def RW.hole (s : RW) (a : Nat) : Prop := s.head ≤ a ∧ a < s.pivot ∧ s.isHole a

/-- `s'` keeps the boundaries, all field entries except those in `X`, and all cells from the pivot on except `X`. -/
structure Frame (s s' : RW) (X : Nat → Prop) : Prop where
  pivot : s'.pivot = s.pivot
  pre : s'.pre = s.pre
  lim : s'.lim = s.lim
  live : ∀ a, ¬ X a → (s'.live a ↔ s.live a)
  cell : ∀ a, ¬ X a → s.live a → s'.mem a = s.mem a
  data : ∀ a, ¬ X a → s.pivot ≤ a → s'.mem a = s.mem a

theorem Frame.refl (s : RW) (X : Nat → Prop) : Frame s s X :=
  ⟨rfl, rfl, rfl, fun _ _ => Iff.rfl, fun _ _ _ => rfl, fun _ _ _ => rfl⟩

theorem Frame.trans {s s' s'' : RW} {X : Nat → Prop} (h : Frame s s' X) (h' : Frame s' s'' X) : Frame s s'' X where
  pivot := h'.pivot.trans h.pivot
  pre := h'.pre.trans h.pre
  lim := h'.lim.trans h.lim
  live a ha := (h'.live a ha).trans (h.live a ha)
  cell a ha hl := (h'.cell a ha ((h.live a ha).2 hl)).trans (h.cell a ha hl)
  data a ha hl := (h'.data a ha (by rw [h.pivot]; exact hl)).trans (h.data a ha hl)

theorem Frame.mono {s s' : RW} {X Y : Nat → Prop} (h : Frame s s' X) (hxy : ∀ a, X a → Y a) : Frame s s' Y where
  pivot := h.pivot
  pre := h.pre
  lim := h.lim
  live a ha := h.live a fun hx => ha (hxy a hx)
  cell a ha := h.cell a fun hx => ha (hxy a hx)
  data a ha := h.data a fun hx => ha (hxy a hx)

theorem Frame.base {s s' : RW} {X : Nat → Prop} (h : Frame s s' X) : s'.base = s.base := by
  show s'.pivot + s'.pre = s.pivot + s.pre
  rw [h.pivot, h.pre]

/-- Outcome of an operation: `U` must hold when it is undefined behaviour, `E` when it throws, `Q` when it returns. -/
def Out.Sat {α : Type} (o : Out α) (U : Prop) (E : Exc → RW → Prop) (Q : α → RW → Prop) : Prop :=
  match o with
  | .ok a s => Q a s
  | .exc e s => E e s
  | .ub => U

theorem Out.Sat.bind {α β : Type} {o : Out α} {f : α → RW → Out β} {U : Prop} {E : Exc → RW → Prop}
    {P : α → RW → Prop} {Q : β → RW → Prop}
    (h : o.Sat U E P) (hf : ∀ a s, P a s → (f a s).Sat U E Q) : (o.bind f).Sat U E Q := by
  cases o with
  | ok a s => exact hf a s h
  | exc e s => exact h
  | ub => exact h

theorem Out.Sat.mono {α : Type} {o : Out α} {U U' : Prop} {E E' : Exc → RW → Prop} {Q Q' : α → RW → Prop}
    (h : o.Sat U E Q) (hu : U → U') (he : ∀ e s, E e s → E' e s) (hq : ∀ a s, Q a s → Q' a s) : o.Sat U' E' Q' := by
  cases o with
  | ok a s => exact hq _ _ h
  | exc e s => exact he _ _ h
  | ub => exact hu h

theorem Cell.hi_of_hole {c : Cell} (h : Cell.isHole c) : c.hi = holeWord (Cell.units c) := by
  unfold Cell.isHole at h; unfold holeWord Cell.units; omega
theorem Cell.units_le {c : Cell} : Cell.units c ≤ 2047 := by unfold Cell.units; omega
theorem isHole_holeWord {l n : Nat} (h : n ≤ 2047) : Cell.isHole ⟨l, holeWord n⟩ := by
  show holeWord n / 2048 = 31
  unfold holeWord; omega
theorem units_holeWord {l n : Nat} (h : n ≤ 2047) : Cell.units ⟨l, holeWord n⟩ = n := by
  show holeWord n % 2048 = n
  unfold holeWord; omega

theorem sum_ind (p n N : Nat) (h : p + n ≤ N) : ∑ u ∈ Ico 0 N, ind p n u = n := by
  have : ∀ u ∈ Ico 0 N, ind p n u = if u ∈ Ico p (p + n) then 1 else 0 := by
    intro u _
    unfold ind; simp [Finset.mem_Ico]
  rw [Finset.sum_congr rfl this, Finset.sum_ite_mem, Finset.inter_eq_right.2]
  · simp
  · intro u hu; rw [Finset.mem_Ico] at *; omega

namespace Inv
variable {s : RW} {len : Nat → Nat} {ex : Nat → ℤ}

/-- An owner's chunk lies inside the payload area. -/
theorem inside (h : Inv s len ex) {a : Nat} (h1 : s.head ≤ a) (h2 : a < s.base)
    (hn : 0 < clen s.pivot len a (s.mem a)) :
    s.base ≤ s.start a ∧ s.start a + clen s.pivot len a (s.mem a) ≤ s.tail := by
  have hb := h.bt
  generalize hnn : clen s.pivot len a (s.mem a) = n at *
  have key : ∀ u, ind (s.start a) n u ≤ ind s.base (s.tail - s.base) u := by
    intro u
    have c := h.cover u
    have e := h.exnn u
    have l := le_T (φ := phiW s.pivot len u) (m := s.mem) (phiW_nonneg _ _ _) h1 h2
    rw [phiW, hnn] at l
    show ind (a + (s.mem a).lo) n u ≤ _
    omega
  have k1 := key (s.start a)
  have k2 := key (s.start a + n - 1)
  unfold ind at k1 k2
  split_ifs at k1 k2 <;> omega

/-- Chunks of different owners are disjoint. -/
theorem disjoint (h : Inv s len ex) {a b : Nat} (hab : a ≠ b) (h1 : s.head ≤ a) (h2 : a < s.base)
    (h3 : s.head ≤ b) (h4 : b < s.base) (u : Nat) :
    ind (s.start a) (clen s.pivot len a (s.mem a)) u + ind (s.start b) (clen s.pivot len b (s.mem b)) u + ex u
      ≤ ind s.base (s.tail - s.base) u := by
  have c := h.cover u
  have l := two_le_T (φ := phiW s.pivot len u) (m := s.mem) (phiW_nonneg _ _ _) hab h1 h2 h3 h4
  simp only [phiW] at l
  show ind (a + (s.mem a).lo) _ u + ind (b + (s.mem b).lo) _ u + ex u ≤ _
  omega

theorem ex_le (h : Inv s len ex) (u : Nat) : ex u ≤ ind s.base (s.tail - s.base) u := by
  have c := h.cover u
  have l := T_nonneg (φ := phiW s.pivot len u) (m := s.mem) (lo := s.head) (hi := s.base) (phiW_nonneg _ _ _)
  omega

theorem owner_ex (h : Inv s len ex) {a : Nat} (h1 : s.head ≤ a) (h2 : a < s.base) (u : Nat) :
    ind (s.start a) (clen s.pivot len a (s.mem a)) u + ex u ≤ ind s.base (s.tail - s.base) u := by
  have c := h.cover u
  have l := le_T (φ := phiW s.pivot len u) (m := s.mem) (phiW_nonneg _ _ _) h1 h2
  simp only [phiW] at l
  show ind (a + (s.mem a).lo) _ u + ex u ≤ _
  omega

theorem clen_hole {a : Nat} (ha : s.hole a) : clen s.pivot len a (s.mem a) = s.units a := by
  unfold clen; rw [if_pos ⟨ha.2.1, ha.2.2⟩]

theorem hole_inside (h : Inv s len ex) {a : Nat} (ha : s.hole a) (hn : s.units a ≠ 0) :
    s.base ≤ s.start a ∧ s.holeEnd a ≤ s.tail := by
  have hb : s.pivot ≤ s.base := Nat.le_add_right _ _
  have := h.inside ha.1 (Nat.lt_of_lt_of_le ha.2.1 hb) (by rw [clen_hole ha]; omega)
  rw [clen_hole ha] at this
  exact this

theorem hole_units_le (h : Inv s len ex) {a : Nat} (ha : s.hole a) : s.units a ≤ s.jv := by
  have l := le_T (φ := phiV) (m := s.mem) phiV_nonneg ha.1 ha.2.1
  have v := h.vol
  unfold phiV at l
  rw [if_pos ha.2.2] at l
  show Cell.units (s.mem a) ≤ s.jv
  have : T phiV s.mem s.head s.pivot = T (fun _ c => if Cell.isHole c then (Cell.units c : ℤ) else 0) s.mem s.head s.pivot := rfl
  omega

theorem jc_pos (h : Inv s len ex) {a : Nat} (ha : s.hole a) : 1 ≤ s.jc := by
  have l := le_T (φ := phiC) (m := s.mem) phiC_nonneg ha.1 ha.2.1
  have v := h.cnt
  have : phiC a (s.mem a) = 1 := by unfold phiC; rw [if_pos ha.2.2]
  omega

theorem jc_le (h : Inv s len ex) : s.jc ≤ s.pivot - s.head := by
  have v := h.cnt
  have : T phiC s.mem s.head s.pivot ≤ T (fun _ _ => 1) s.mem s.head s.pivot := by
    refine T_le fun a _ _ => ?_
    unfold phiC; split_ifs <;> omega
  have e : T (fun _ _ => 1) s.mem s.head s.pivot = (s.pivot - s.head : Nat) := by
    unfold T; simp
  omega

theorem lt16 (h : Inv s len ex) : s.pivot ≤ 65534 ∧ s.base ≤ 65534 ∧ s.tail ≤ 65534 ∧ s.jc ≤ 65534 := by
  have := h.jc_le; have := h.hp; have := h.bt; have := h.tl; have := h.ll
  have : s.base = s.pivot + s.pre := rfl
  omega

/-- The volume of the holes plus the detached units fits the payload area. -/
theorem vol_le (h : Inv s len ex) {p n : Nat} (hex : ∀ u, ind p n u ≤ ex u) : s.jv + n ≤ s.tail - s.base := by
  have hb := h.bt
  have h16 := h.lt16
  -- the detached chunk is inside
  have hin : n ≠ 0 → s.base ≤ p ∧ p + n ≤ s.tail := by
    intro hn
    have k1 := h.ex_le p
    have k2 := h.ex_le (p + n - 1)
    have k3 := hex p
    have k4 := hex (p + n - 1)
    unfold ind at *
    split_ifs at * <;> omega
  have tot : ∑ u ∈ Ico 0 65536, (T (phiW s.pivot len u) s.mem s.head s.base + ex u)
      = ∑ u ∈ Ico 0 65536, ind s.base (s.tail - s.base) u := Finset.sum_congr rfl fun u _ => h.cover u
  rw [Finset.sum_add_distrib, sum_ind _ _ _ (by omega)] at tot
  have he : (n : ℤ) ≤ ∑ u ∈ Ico 0 65536, ex u := by
    by_cases hn : n = 0
    · subst hn
      have : (0:ℤ) ≤ ∑ u ∈ Ico 0 65536, ex u := Finset.sum_nonneg fun u _ => h.exnn u
      simpa using this
    · have e : ∑ u ∈ Ico 0 65536, ind p n u = n := sum_ind _ _ _ (by have := hin hn; omega)
      rw [← e]
      exact Finset.sum_le_sum fun u _ => hex u
  have hv : (s.jv : ℤ) ≤ ∑ u ∈ Ico 0 65536, T (phiW s.pivot len u) s.mem s.head s.base := by
    have e1 : ∑ u ∈ Ico 0 65536, T (phiW s.pivot len u) s.mem s.head s.base
        = T (fun a c => ∑ u ∈ Ico 0 65536, phiW s.pivot len u a c) s.mem s.head s.base := by
      unfold T; exact Finset.sum_comm
    rw [e1, h.vol]
    refine le_trans ?_ (T_mono_hi (hi := s.pivot) (fun a c => Finset.sum_nonneg fun u _ => phiW_nonneg _ _ _ _ _)
      (Nat.le_add_right _ _))
    refine T_le fun a h1 h2 => ?_
    unfold phiV
    split_ifs with hh
    · have hl : s.hole a := ⟨h1, h2, hh⟩
      by_cases hu : s.units a = 0
      · have : Cell.units (s.mem a) = 0 := hu
        rw [this]
        exact Finset.sum_nonneg fun u _ => phiW_nonneg _ _ _ _ _
      · have hin := h.hole_inside hl hu
        have e : ∑ u ∈ Ico 0 65536, phiW s.pivot len u a (s.mem a) = (s.units a : ℤ) := by
          unfold phiW
          rw [clen_hole hl]
          exact sum_ind _ _ _ (by have := h16; show s.holeEnd a ≤ _; omega)
        rw [e]
    · exact Finset.sum_nonneg fun u _ => phiW_nonneg _ _ _ _ _
  omega

/-- Two holes together are not larger than the junk. -/
theorem two_holes_le (h : Inv s len ex) {a b : Nat} (hab : a ≠ b) (ha : s.hole a) (hb : s.hole b) : s.units a + s.units b ≤ s.jv := by
  have l := two_le_T (φ := phiV) (m := s.mem) phiV_nonneg hab ha.1 ha.2.1 hb.1 hb.2.1
  have v := h.vol
  have e1 : phiV a (s.mem a) = (s.units a : ℤ) := by unfold phiV; rw [if_pos ha.2.2]
  have e2 : phiV b (s.mem b) = (s.units b : ℤ) := by unfold phiV; rw [if_pos hb.2.2]
  omega

end Inv

open Classical in
/-- The units of all values. -/
noncomputable def RW.held (s : RW) (len : Nat → Nat) : Nat := ∑ a ∈ (Ico 0 s.base).filter (fun a => s.pivot ≤ a ∨ s.live a), len a

open Classical in
/-- Junk, values and detached units fill the payload area. -/
theorem Inv.total {s : RW} {len : Nat → Nat} {ex : Nat → ℤ} (h : Inv s len ex) :
    (s.jv : ℤ) + s.held len + ∑ u ∈ Ico 0 65536, ex u = s.tail - s.base := by
  have hb := h.bt
  have h16 := h.lt16
  have hhp := h.hp
  have hpb : s.pivot ≤ s.base := Nat.le_add_right _ _
  have tot : ∑ u ∈ Ico 0 65536, (T (phiW s.pivot len u) s.mem s.head s.base + ex u)
      = ∑ u ∈ Ico 0 65536, ind s.base (s.tail - s.base) u := Finset.sum_congr rfl fun u _ => h.cover u
  rw [Finset.sum_add_distrib, sum_ind _ _ _ (by omega)] at tot
  have e1 : ∑ u ∈ Ico 0 65536, T (phiW s.pivot len u) s.mem s.head s.base
      = ∑ a ∈ Ico s.head s.base, (clen s.pivot len a (s.mem a) : ℤ) := by
    unfold T
    rw [Finset.sum_comm]
    refine Finset.sum_congr rfl fun a ha => ?_
    rw [Finset.mem_Ico] at ha
    unfold phiW
    by_cases hn : clen s.pivot len a (s.mem a) = 0
    · rw [hn]; simp
    · have := h.inside ha.1 ha.2 (by omega)
      have : s.start a = a + (s.mem a).lo := rfl
      exact sum_ind _ _ _ (by omega)
  have e2 : ∑ a ∈ Ico s.head s.base, (clen s.pivot len a (s.mem a) : ℤ) = s.jv + s.held len := by
    have k1 : (s.held len : ℤ) = ∑ a ∈ Ico s.head s.base, if a < s.pivot ∧ Cell.isHole (s.mem a) then 0 else (len a : ℤ) := by
      unfold RW.held
      rw [Nat.cast_sum, Finset.sum_filter]
      rw [← Finset.sum_Ico_consecutive _ (Nat.zero_le s.head) (by omega : s.head ≤ s.base)]
      have z : ∑ a ∈ Ico 0 s.head, (if s.pivot ≤ a ∨ s.live a then (len a : ℤ) else 0) = 0 := by
        refine Finset.sum_eq_zero fun a ha => ?_
        rw [Finset.mem_Ico] at ha
        rw [if_neg]
        rintro (hh | hh)
        · omega
        · have := hh.1; omega
      rw [z, zero_add]
      refine Finset.sum_congr rfl fun a ha => ?_
      rw [Finset.mem_Ico] at ha
      by_cases hc : a < s.pivot ∧ Cell.isHole (s.mem a)
      · rw [if_pos hc, if_neg]
        rintro (hh | hh)
        · omega
        · exact hh.2.2 hc.2
      · rw [if_neg hc, if_pos]
        by_cases hp : s.pivot ≤ a
        · exact Or.inl hp
        · exact Or.inr ⟨ha.1, by omega, fun hh => hc ⟨by omega, hh⟩⟩
    have k2 : (s.jv : ℤ) = ∑ a ∈ Ico s.head s.base, if a < s.pivot ∧ Cell.isHole (s.mem a) then (Cell.units (s.mem a) : ℤ) else 0 := by
      rw [h.vol]
      unfold T
      rw [← Finset.sum_Ico_consecutive _ hhp hpb]
      have z : ∑ a ∈ Ico s.pivot s.base, (if a < s.pivot ∧ Cell.isHole (s.mem a) then (Cell.units (s.mem a) : ℤ) else 0) = 0 := by
        refine Finset.sum_eq_zero fun a ha => ?_
        rw [Finset.mem_Ico] at ha
        rw [if_neg fun hh => by omega]
      rw [z, add_zero]
      refine Finset.sum_congr rfl fun a ha => ?_
      rw [Finset.mem_Ico] at ha
      unfold phiV
      by_cases hc : Cell.isHole (s.mem a)
      · rw [if_pos hc, if_pos ⟨ha.2, hc⟩]
      · rw [if_neg hc, if_neg fun hh => hc hh.2]
    rw [k1, k2, ← Finset.sum_add_distrib]
    refine Finset.sum_congr rfl fun a _ => ?_
    unfold clen
    by_cases hc : a < s.pivot ∧ Cell.isHole (s.mem a)
    · rw [if_pos hc, if_pos hc, if_pos hc, add_zero]
    · rw [if_neg hc, if_neg hc, if_neg hc, zero_add]
  omega

open Classical in
theorem RW.sum_le_held {s : RW} {len : Nat → Nat} (f : Finset Nat) (h : ∀ a ∈ f, a < s.base ∧ (s.pivot ≤ a ∨ s.live a)) :
    ∑ a ∈ f, len a ≤ s.held len := by
  unfold RW.held
  refine Finset.sum_le_sum_of_subset fun a ha => ?_
  rw [Finset.mem_filter, Finset.mem_Ico]
  exact ⟨⟨Nat.zero_le _, (h a ha).1⟩, (h a ha).2⟩

open Classical in
/-- What is left when one field is gone. -/
theorem RW.held_remove {s t : RW} {len len' : Nat → Nat} {a : Nat} (ha : s.live a) (hn : ¬ t.live a) (hp : t.pivot = s.pivot)
    (hb : t.base = s.base) (hl : ∀ b, b ≠ a → (t.live b ↔ s.live b)) (he : ∀ b, b ≠ a → s.pivot ≤ b ∧ b < s.base ∨ s.live b → len' b = len b) :
    t.held len' + len a = s.held len := by
  unfold RW.held
  have hpb : s.pivot ≤ s.base := Nat.le_add_right _ _
  have hm : a ∈ (Ico 0 s.base).filter (fun a => s.pivot ≤ a ∨ s.live a) := by
    rw [Finset.mem_filter, Finset.mem_Ico]
    have := ha.2.1
    exact ⟨⟨by omega, by omega⟩, Or.inr ha⟩
  rw [← Finset.sum_erase_add _ _ hm]
  congr 1
  refine Finset.sum_congr ?_ ?_
  · ext b
    rw [Finset.mem_erase, Finset.mem_filter, Finset.mem_filter, hb, hp]
    by_cases hba : b = a
    · subst hba
      have := ha.2.1
      constructor
      · rintro ⟨_, hh | hh⟩
        · omega
        · exact absurd hh hn
      · rintro ⟨hh, _⟩; exact absurd rfl hh
    · rw [hl b hba]
      exact ⟨fun hh => ⟨hba, hh⟩, fun hh => hh.2⟩
  · intro b hbm
    rw [Finset.mem_erase, Finset.mem_filter, Finset.mem_Ico] at hbm
    refine he b hbm.1 ?_
    rcases hbm.2.2 with hh | hh
    · exact Or.inl ⟨hh, hbm.2.1.2⟩
    · exact Or.inr hh

/-- Releasing a value adds at most its units to the junk. -/
theorem Inv.jv_release {s t : RW} {len : Nat → Nat} {ex : Nat → ℤ} (h : Inv s len ex) (h' : Inv t len ex) {a : Nat} (ha : s.live a)
    (hn : ¬ t.live a) (hf : Frame s t fun b => b = a) (ht : t.tail ≤ s.tail) : t.jv ≤ s.jv + len a := by
  have e := RW.held_remove (len := len) (len' := len) ha hn hf.pivot hf.base (fun b hb => hf.live b hb) (fun _ _ _ => rfl)
  have t1 := h.total
  have t2 := h'.total
  have := hf.base
  omega

end Fptu.Gear
