import Verif.Lemmas.AuditComplete
import Verif.Props.Audit
import Verif.Props.TupleDefects
/-!
# C12: the library's own validation accepts every tuple the library produces
-/
namespace Fptu.Props
open Fptu Fptu.Gear Fptu.Rw Fptu.Audit

/-- `s` is what a history of modifications, compactions and transfers makes of a fresh tuple of schema `sch`. -/
structure History (F : Fix) (sch : Option Schema) (s : RW) : Prop where
  schema : ∀ S, sch = some S → SchemaOk S
  made : Reachable F (schOf sch) s
  pre : s.pre = bytes2units (preBytesOf sch)

theorem schOf_stretchy {sch : Option Schema} (k : Nat) (g : Genus) (h : schOf sch k = some g) : g.isFixed = false := by
  cases sch with
  | none => cases h
  | some S =>
    unfold schOf Schema.sch at h
    simp only at h
    obtain ⟨t, ht, hg⟩ := Option.map_eq_some_iff.1 h
    have := List.mem_of_find?_eq_some ht
    have := (List.mem_filter.1 this).2
    rw [isStretchyPre_iff] at this
    rw [← hg]; exact this.2

theorem History.facts {F : Fix} {sch : Option Schema} {s : RW} (h : History F sch s) :
    WF (schOf sch) s ∧ Pure s ∧ s.pre = bytes2units (preBytesOf sch) := ⟨h.made.wf, h.made.pure, h.pre⟩

/-- A history of modifications. -/
theorem History.of_run {F : Fix} {sch : Option Schema} {s : RW} {mem : Memory} {items lim : Nat} {image : List Cell} {ops : List Op}
    (hS : ∀ S, sch = some S → SchemaOk S) (h1 : image.length = (preBytesOf sch + 3) / 4) (h2 : items + image.length ≤ lim)
    (h3 : lim ≤ 65534) (h4 : ∀ k g, schOf sch k = some g → k < image.length → (image.getD k .zero).lo = 0)
    (h5 : ∀ op ∈ ops, OpOk (schOf sch) image.length op) (h6 : RunBenign F (create mem items image.length lim image) ops)
    (h7 : run F (create mem items image.length lim image) ops = some s) : History F sch s := by
  obtain ⟨k1, k2⟩ := (Reachable.create mem rfl h2 h3 (schOf_stretchy (sch := sch)) h4).run h5 h6 h7
  exact ⟨hS, k1, by rw [k2, b2u']; exact h1⟩

/-- **C12 (validation accepts, partial).** The validation of mutable tuples accepts every tuple that any history of
operations, some of which may have failed, makes of a fresh tuple: positions, hole statistics, payload coverage and
absence of adjacent holes are all as the validation demands. Missing: histories in which a defect of `src/gear.cxx` shows
(none for the repaired allocator, `C12_audit_repaired`), and tuples where the number of index entries plus the number
of stretchy preplaced fields exceeds 8191 (`C12_audit_aborts`). -/
theorem C12_audit_partial {F : Fix} {sch : Option Schema} {s : RW} (h : History F sch s)
    (hmax : s.pivot - s.head + stretchyOf sch ≤ 8191) : accepted (auditRw sch s) = true := by
  obtain ⟨wf, hp, hpre⟩ := h.facts
  obtain ⟨st, hs⟩ := auditRw_complete h.schema wf hp hpre hmax
  rw [hs]; rfl

/-- **C12 (validation accepts) for the repaired allocator.** -/
theorem C12_audit_repaired {sch : Option Schema} {mem : Memory} {items lim : Nat} {image : List Cell} {ops : List Op} {s : RW}
    (hS : ∀ S, sch = some S → SchemaOk S) (hi : image.length = (preBytesOf sch + 3) / 4) (hl : items + image.length ≤ lim)
    (hlim : lim ≤ 65534) (hz : ∀ k g, schOf sch k = some g → k < image.length → (image.getD k .zero).lo = 0)
    (ho : ∀ op ∈ ops, OpOk (schOf sch) image.length op)
    (hr : run .repaired (create mem items image.length lim image) ops = some s) (hmax : items + stretchyOf sch ≤ 8191) :
    accepted (auditRw sch s) = true := by
  have h : History .repaired sch s := .of_run hS hi hl hlim hz ho (runBenign_repaired _ _) hr
  refine C12_audit_partial h ?_
  have k := (run_spec ops (create_wf (mem := mem) rfl hl hlim (schOf_stretchy (sch := sch)) hz) ho (runBenign_repaired _ _)).1 s hr
  have : s.pivot = items := k.pivot
  omega

/-- Four operations on which the code as it is produces a tuple its own validation rejects. -/
theorem C12_audit_refuted : ∃ s, run .code (fresh 5 100) overlapOps = some s ∧ accepted (auditRw none s) = false := by
  obtain ⟨s, hr, hp⟩ := run_decide (F := .code) (s := fresh 5 100) (ops := overlapOps)
    (fun s => decide (accepted (auditRw none s) = false)) (by decide +kernel)
  exact ⟨s, hr, of_decide_eq_true hp⟩

/-- The same operations are accepted for the repaired allocator: the hypotheses of `C12_audit_repaired` are met. -/
example : ∃ s, run .repaired (fresh 5 100) overlapOps = some s ∧ s.pivot - s.head = 3 ∧ accepted (auditRw none s) = true := by
  obtain ⟨s, hr, hp⟩ := run_decide (F := .repaired) (s := fresh 5 100) (ops := overlapOps)
    (fun s => decide (s.pivot - s.head = 3)) (by decide +kernel)
  refine ⟨s, hr, of_decide_eq_true hp, ?_⟩
  exact C12_audit_repaired (sch := none) (image := []) (fun S hS => by cases hS) rfl (by decide) (by decide)
    (fun k g hk => by cases hk) (opOk_of (by decide +kernel)) hr (by decide)

/-! ## The assertion on the number of fields -/

/-- A schema with one nested tuple preplaced at offset 0. -/
def oneStretchy : Schema := ⟨4, [preTok]⟩

theorem oneStretchy_ok : SchemaOk oneStretchy := by
  refine ⟨List.pairwise_singleton _ _, fun t ht _ => ?_, ?_⟩
  · rw [show oneStretchy.tokens = [preTok] from rfl, List.mem_singleton] at ht
    rw [ht]
    decide +kernel
  · rw [show oneStretchy.tokens.filter isStretchyPre = [preTok] by decide +kernel]
    exact List.pairwise_singleton _ _

/-- A collection of 16-bit numbers. -/
def manyTok : Nat := makeTag .u16 1 true false false

/-- Appending `n` numbers to a tuple without holes takes `n` index entries and nothing else. -/
theorem append_many (F : Fix) (n : Nat) : ∀ s : RW, s.jc = 0 → n ≤ s.head →
    ∃ t, run F s (List.replicate n (.insert manyTok .u16 (.inline 7))) = some t ∧ t.head = s.head - n ∧ t.pivot = s.pivot ∧
      t.tail = s.tail ∧ t.lim = s.lim ∧ t.jc = 0 ∧ t.jv = s.jv := by
  induction n with
  | zero => intro s h _; exact ⟨s, rfl, rfl, rfl, rfl, rfl, h, rfl⟩
  | succ n ih =>
    intro s h hn
    have e : step F s (.insert manyTok .u16 (.inline 7)) =
        .ok () (RW.setLo (RW.setCell { s with head := s.head - 1 } (s.head - 1) ⟨0, manyTok % 65536⟩) (s.head - 1) (inlineStore .u16 7)) := by
      have i : indexAlloc s 0 = .ok (s.head - 1) { s with head := s.head - 1 } := by
        unfold indexAlloc
        rw [if_neg (by omega)]
        simp only
        rw [if_neg (by omega)]
      show (insertField F s manyTok .u16 (.inline 7)).bind _ = _
      unfold insertField
      rw [if_neg (by decide +kernel), if_neg (by decide +kernel), if_neg (by decide +kernel), if_pos (by decide)]
      unfold allocLooseWith
      rw [if_pos (by decide), i]
      rfl
    rw [List.replicate_succ, run, e]
    obtain ⟨t, h1, h2, h3, h4, h5, h6, h7⟩ := ih
      (RW.setLo (RW.setCell { s with head := s.head - 1 } (s.head - 1) ⟨0, manyTok % 65536⟩) (s.head - 1) (inlineStore .u16 7)) h
      (by show n ≤ s.head - 1; omega)
    refine ⟨t, h1, ?_, h3, h4, h5, h6, h7⟩
    rw [h2]; show s.head - 1 - n = _; omega

/-- **C12 (refuted).** A schema with one stretchy preplaced field and a tuple with the permitted maximum of 8191 loose fields,
all appended successfully: the validation, instead of accepting, runs into its internal assertion on the number of
intervals. `tuple_rw::audit` is declared `noexcept`, so the process terminates. No defect of the allocator is involved. -/
theorem C12_audit_aborts (F : Fix) : SchemaOk oneStretchy ∧
    ∃ s, run F (create (fun _ => .zero) 8191 1 8192 [.zero]) (List.replicate 8191 (.insert manyTok .u16 (.inline 7))) = some s ∧
      s.pivot - s.head = 8191 ∧ auditRw (some oneStretchy) s = .bug [] := by
  refine ⟨oneStretchy_ok, ?_⟩
  obtain ⟨s, h1, h2, h3, h4, h5, h6, h7⟩ := append_many F 8191 (create (fun _ => .zero) 8191 1 8192 [.zero]) rfl le_rfl
  refine ⟨s, h1, ?_, ?_⟩
  · rw [h2, h3]; rfl
  · have a1 : s.head = 0 := h2
    have a2 : s.pivot = 8191 := h3
    have a3 : s.tail = 8192 := h4
    have a4 : s.lim = 8192 := h5
    have a5 : s.jv = 0 := h7
    have a6 : stretchyOf (some oneStretchy) = 1 := by decide +kernel
    have a7 : Audit.maxFields = 8191 := rfl
    unfold auditRw
    rw [a1, a2, a3, a4, a5, h6, a7, if_neg (by omega), if_neg (by omega), if_neg (by omega), if_neg (by omega),
      if_neg (by omega), if_neg (by omega), if_neg (by omega)]
    unfold auditTuple
    simp only
    rw [if_pos (by rw [a6, a7]; omega)]
    rfl

end Fptu.Props
