import Verif.Lemmas.Image
import Verif.Props.Schema
import Verif.Props.NullTable
import Verif.Props.Isolation

/-!
C70: a tuple made for a schema starts with the initial values of its fields.

From the definitions of a schema to the getters of a tuple created for it: `define`, `createNewFor`, `readField`.
-/

namespace Fptu.Props

open Fptu Fptu.Gear Fptu.Rw Fptu.Compact Fptu.Serial Fptu.Schemas

/-! ## Definitions -/

def _root_.Fptu.Schemas.Cmd.init : Cmd → Option (List Nat)
  | .preplaced _ _ _ _ i | .opacity _ _ _ i | .imported _ _ i _ => i
  | .loose .. => none

/-- The initial value is given as bytes. -/
def _root_.Fptu.Schemas.Cmd.Bytes (c : Cmd) : Prop := ∀ b, c.init = some b → ∀ x ∈ b, x < 256

/-- No initial value is given for a field of variable size. -/
def _root_.Fptu.Schemas.Cmd.Plain : Cmd → Prop
  | .preplaced _ tc _ _ (some _) => (Genus.ofCode tc).isFixed = true
  | .imported _ t (some _) _ => (tag2genus t).isFixed = true
  | _ => True

/-- Everything asked of the definitions. -/
structure _root_.Fptu.Schemas.Cmd.Good (c : Cmd) : Prop where
  ok : c.Ok
  noOpacity : c.NoOpacity
  aligned : c.Aligned
  bytes : c.Bytes
  plain : c.Plain

/-- The definition `c` of the program `cs` was accepted and returned the token `t`. -/
def Defined (cs : List Cmd) (c : Cmd) (t : Nat) : Prop :=
  ∃ before after s₀ log₀ s₁, cs = before ++ c :: after ∧ define before = some (s₀, log₀) ∧ exec s₀ c = .ok t s₁

theorem runFrom_origin {cs : List Cmd} {s₀ s : Sc} {log₀ log : List (Name × Nat)} (e : runFrom s₀ log₀ cs = some (s, log)) {p : Name × Nat}
    (hp : p ∈ log) : p ∈ log₀ ∨ ∃ before c after s₁ log₁ s₂, cs = before ++ c :: after ∧ runFrom s₀ log₀ before = some (s₁, log₁) ∧
      exec s₁ c = .ok p.2 s₂ := by
  induction cs generalizing s₀ log₀ with
  | nil => cases e; exact Or.inl hp
  | cons x cs ih =>
    have lift : ∀ {s₁ : Sc} {log₁ : List (Name × Nat)}, (∀ l, runFrom s₀ log₀ (x :: l) = runFrom s₁ log₁ l) →
        (∃ before c after s₂ log₂ s₃, cs = before ++ c :: after ∧ runFrom s₁ log₁ before = some (s₂, log₂) ∧ exec s₂ c = .ok p.2 s₃) →
        ∃ before c after s₂ log₂ s₃, x :: cs = before ++ c :: after ∧ runFrom s₀ log₀ before = some (s₂, log₂) ∧ exec s₂ c = .ok p.2 s₃ := by
      rintro s₁ log₁ hl ⟨b, c, a, s₂, log₂, s₃, h1, h2, h3⟩
      exact ⟨x :: b, c, a, s₂, log₂, s₃, by rw [h1]; rfl, by rw [hl]; exact h2, h3⟩
    cases he : exec s₀ x with
    | ok tok s₁ =>
      have hl : ∀ l, runFrom s₀ log₀ (x :: l) = runFrom s₁ (log₀ ++ [(x.name, tok)]) l := fun l => by
        conv_lhs => unfold runFrom
        rw [he]
      rw [hl] at e
      rcases ih e with h | h
      · rcases List.mem_append.1 h with h | h
        · exact Or.inl h
        · rw [List.mem_singleton] at h
          refine Or.inr ⟨[], x, cs, s₀, log₀, s₁, rfl, rfl, ?_⟩
          rw [h]; exact he
      · exact Or.inr (lift hl h)
    | exc x' =>
      have hl : ∀ l, runFrom s₀ log₀ (x :: l) = runFrom s₀ log₀ l := fun l => by
        conv_lhs => unfold runFrom
        rw [he]
      rw [hl] at e
      exact (ih e).imp id (lift hl)
    | lengthError =>
      have hl : ∀ l, runFrom s₀ log₀ (x :: l) = runFrom s₀ log₀ l := fun l => by
        conv_lhs => unfold runFrom
        rw [he]
      rw [hl] at e
      exact (ih e).imp id (lift hl)
    | ub =>
      unfold runFrom at e
      rw [he] at e
      cases e

/-- Every token of the schema was returned by a definition. -/
theorem defined_of_log {cs : List Cmd} {s : Sc} {log : List (Name × Nat)} (e : define cs = some (s, log)) {n : Name} {t : Nat} (h : (n, t) ∈ log) :
    ∃ c, Defined cs c t := by
  rcases runFrom_origin e h with h | ⟨b, c, a, s₁, log₁, s₂, h1, h2, h3⟩
  · cases h
  · exact ⟨c, b, a, s₁, log₁, s₂, h1, h2, h3⟩

theorem Defined.log {cs : List Cmd} {s : Sc} {log : List (Name × Nat)} (e : define cs = some (s, log)) {c : Cmd} {t : Nat} (h : Defined cs c t)
    (hc : ∀ x ∈ cs, x.Ok) (hn : ∀ x ∈ cs, x.NoOpacity) : (c.name, t) ∈ log := by
  obtain ⟨b, a, s₀, log₀, s₁, rfl, h2, h3⟩ := h
  have hsplit : ∀ (l : List Cmd) (s₀ s₂ : Sc) (log₀ log₂ : List (Name × Nat)) (r : List Cmd), runFrom s₀ log₀ l = some (s₂, log₂) →
      runFrom s₀ log₀ (l ++ r) = runFrom s₂ log₂ r := by
    intro l
    induction l with
    | nil => intro s₀ s₂ log₀ log₂ r hh; cases hh; rfl
    | cons x l ih =>
      intro s₀ s₂ log₀ log₂ r hh
      rw [List.cons_append]
      unfold runFrom at hh
      rw [runFrom]
      split at hh
      · exact ih _ _ _ _ _ hh
      · exact ih _ _ _ _ _ hh
      · exact ih _ _ _ _ _ hh
      · cases hh
  have e' : runFrom s₁ (log₀ ++ [(c.name, t)]) a = some (s, log) := by
    have := hsplit b .create s₀ [] log₀ (c :: a) h2
    rw [show runFrom .create [] (b ++ c :: a) = some (s, log) from e] at this
    rw [this]
    conv_rhs => unfold runFrom
    rw [h3]
  have hc1 : ∀ x ∈ b, x.Ok := fun x hx => hc x (List.mem_append_left _ hx)
  have hn1 : ∀ x ∈ b, x.NoOpacity := fun x hx => hn x (List.mem_append_left _ hx)
  have hcc := hc c (List.mem_append_right _ List.mem_cons_self)
  have hnc := hn c (List.mem_append_right _ List.mem_cons_self)
  obtain ⟨hw, i, ha⟩ := exec_ok hcc h3
  exact (((define_place hc1 hn1 h2).step (define_inv hc1 h2) hw (exec_typed hcc hnc h3) ha).prefix ((define_inv hc1 h2).step hw ha)
    (fun x hx => hc x (List.mem_append_right _ (List.mem_cons_of_mem _ hx)))
    (fun x hx => hn x (List.mem_append_right _ (List.mem_cons_of_mem _ hx))) e').2 _ (List.mem_append_right _ (List.mem_singleton.2 rfl))

private theorem erased_lt (g : Genus) (d : Bool) : ∀ b ∈ erasedBytes g d, b < 256 := by cases g <;> cases d <;> decide

private theorem add_bytes {s s' : Sc} {n : Name} {ident tok : Nat} {i : Option (List Nat)} (h : addDefinition s n ident i = .ok tok s')
    (hi : ∀ b, i = some b → ∀ x ∈ b, x < 256) (hs : ∀ x ∈ s.image, x < 256) : ∀ x ∈ s'.image, x < 256 := by
  obtain ⟨_, _, _, _, h5⟩ := addDefinition_ok h
  unfold commitDefinition at h5
  by_cases hp : isPreplaced ident = true
  · rw [if_pos hp] at h5
    cases hn : newImage s.image ident i with
    | none => rw [hn] at h5; cases h5
    | some img =>
      rw [hn] at h5
      have e : s'.image = img := by
        have := congrArg (fun r => match r with | Res.ok _ s => s.image | _ => []) h5
        exact this.symm
      rw [e]
      unfold newImage at hn
      have h0 : ∀ x ∈ s.image ++ List.replicate (tag2offset ident - s.image.length) 0, x < 256 := by
        intro x hx
        rcases List.mem_append.1 hx with h | h
        · exact hs x h
        · rw [(List.mem_replicate.1 h).2]; decide
      cases i with
      | some b =>
        simp only at hn
        split_ifs at hn
        rw [← Option.some.inj hn]
        intro x hx
        rcases List.mem_append.1 hx with h | h
        · exact h0 x h
        · exact hi b rfl x (List.mem_of_mem_take h)
      | none =>
        simp only at hn
        split_ifs at hn
        rw [← Option.some.inj hn]
        intro x hx
        have h1 : ∀ x ∈ s.image ++ List.replicate (tag2offset ident - s.image.length) 0 ++ List.replicate (tag2indysize ident) 0, x < 256 := by
          intro x hx
          rcases List.mem_append.1 hx with h | h
          · exact h0 x h
          · rw [(List.mem_replicate.1 h).2]; decide
        unfold overwrite at hx
        rcases List.mem_append.1 hx with h | h
        · rcases List.mem_append.1 h with h | h
          · exact h1 x (List.mem_of_mem_take h)
          · exact erased_lt _ _ x h
        · exact h1 x (List.mem_of_mem_drop h)
  · rw [if_neg hp] at h5
    have e : s'.image = s.image := by
      have := congrArg (fun r => match r with | Res.ok _ s => s.image | _ => []) h5
      exact this.symm
    rw [e]; exact hs

private theorem exec_bytes {s s' : Sc} {c : Cmd} {tok : Nat} (h : exec s c = .ok tok s') (hb : c.Bytes) (hs : ∀ x ∈ s.image, x < 256) :
    ∀ x ∈ s'.image, x < 256 := by
  cases c with
  | preplaced n tc d sa i =>
    obtain ⟨_, _, _, _, _, _, h5⟩ := definePreplaced_ok h
    exact add_bytes h5 hb hs
  | opacity n sz al i =>
    obtain ⟨_, _, _, _, _, h5⟩ := defineOpacity_ok h
    exact add_bytes h5 hb hs
  | loose n tc c d sa =>
    obtain ⟨_, _, _, _, h5⟩ := defineLoose_ok h
    exact add_bytes h5 (fun _ h => by cases h) hs
  | imported n t i r =>
    have h : importDefinition s n t i r = .ok tok s' := h
    unfold importDefinition at h
    split_ifs at h with h1 h2 h3
    · exact add_bytes h hb hs
    · obtain ⟨_, _, _, _, _, _, h5⟩ := definePreplaced_ok h
      exact add_bytes h5 hb hs
    · obtain ⟨_, _, _, _, h5⟩ := defineLoose_ok h
      exact add_bytes h5 (fun _ h => by cases h) hs

private theorem run_bytes {cs : List Cmd} {s s' : Sc} {log log' : List (Name × Nat)} (hb : ∀ c ∈ cs, c.Bytes) (hs : ∀ x ∈ s.image, x < 256)
    (e : runFrom s log cs = some (s', log')) : ∀ x ∈ s'.image, x < 256 := by
  induction cs generalizing s log with
  | nil => cases e; exact hs
  | cons c cs ih =>
    have hbs : ∀ c ∈ cs, c.Bytes := fun x hx => hb x (List.mem_cons_of_mem _ hx)
    unfold runFrom at e
    split at e
    · rename_i tok s1 he
      exact ih hbs (exec_bytes he (hb c List.mem_cons_self) hs) e
    · exact ih hbs hs e
    · exact ih hbs hs e
    · cases e

/-- Without an initial value a field of variable size starts without a value. -/
private theorem initial_stretchy {s₀ s₁ : Sc} {c : Cmd} {t : Nat} (hc : c.Ok) (hn : c.NoOpacity) (hpl : c.Plain) (ec : exec s₀ c = .ok t s₁)
    (hp : isPreplaced t = true) (hf : (tag2genus t).isFixed = false) : c.initial (tag2genus t) (isDiscernible t) = [0, 0, 0, 0] := by
  have tok : ∀ {t' : Nat} {n : Name} {i : Option (List Nat)}, addDefinition s₀ n t' i = .ok t s₁ → t = t' :=
    fun h => (commit_ok (addDefinition_ok h).2.2.2.2).1
  have hz : ∀ g : Genus, g.isFixed = false → ∀ d : Bool, (if d then denilBytes g else List.replicate g.preplacedBytes 0) = [0, 0, 0, 0] := by
    intro g; cases g <;> first | (intro h; exact absurd h (by decide)) | (intro _ d; cases d <;> rfl)
  have gen : ∀ {n : Name} {tc : Nat} {d sa : Bool} {i : Option (List Nat)}, definePreplaced s₀ n tc d sa i = .ok t s₁ → tag2genus t = Genus.ofCode tc := by
    intro n tc d sa i h
    obtain ⟨h1, off, ident, h2, h3, h4, h5⟩ := definePreplaced_ok h
    cases tok h5
    obtain ⟨_, _, _, _, _, _, _, b8, _⟩ := C01_preplaced_token_lossless _ _ _ _ _ ⟨by omega, by omega⟩ h4
    show Genus.ofCode (tag2genusCode t) = _
    rw [b8]
  cases c with
  | preplaced n tc d sa i =>
    cases i with
    | none => exact hz _ hf _
    | some b =>
      have hpl : (Genus.ofCode tc).isFixed = true := hpl
      rw [gen ec, hpl] at hf; cases hf
  | opacity n sz al i => exact absurd hn id
  | loose n tc c d sa => exact hz _ hf _
  | imported n t' i r =>
    cases i with
    | none => exact hz _ hf _
    | some b =>
      have hpl : (tag2genus t').isFixed = true := hpl
      have ec : importDefinition s₀ n t' (some b) r = .ok t s₁ := ec
      unfold importDefinition at ec
      split_ifs at ec with h1 h2 h3
      · cases tok ec
        rw [hpl] at hf; cases hf
      · rw [gen ec] at hf
        have hf : (tag2genus t').isFixed = false := hf
        rw [hpl] at hf; cases hf
      · obtain ⟨h1, h2, ident, h4, h5⟩ := defineLoose_ok ec
        cases tok h5
        have := (C01_loose_token_lossless _ _ _ _ _ _ h4).2.2.2.2.1
        rw [this] at hp; cases hp

/-! ## New tuples -/

theorem createFor_eq (mem : Memory) (items lim : Nat) (image : List Nat) : createFor mem items lim image =
    create mem items (bytes2units image.length) lim ((mem.writeBytes (4 * items) image).readCells items (bytes2units image.length)) := by
  unfold createFor create
  congr 1
  funext u
  rw [Memory.writeCells_apply, Memory.length_readCells]
  by_cases h : items ≤ u ∧ u < items + bytes2units image.length
  · rw [if_pos h]
    unfold Memory.readCells
    rw [List.getD_eq_getElem _ _ (by rw [List.length_map, List.length_range]; omega), List.getElem_map, List.getElem_range]
    congr 1; omega
  · rw [if_neg h]
    refine Memory.writeBytes_cell _ _ _ _ ?_
    rw [Audit.b2u'] at h
    omega

theorem createFor_bytes (mem : Memory) (items lim : Nat) {image : List Nat} (hb : ∀ x ∈ image, x < 256) {off n : Nat} (h : off + n ≤ image.length) :
    (createFor mem items lim image).mem.readBytes (4 * items + off) n = (image.drop off).take n := by
  show (mem.writeBytes (4 * items) image).readBytes _ _ = _
  have key : ∀ i, i < n → (mem.writeBytes (4 * items) image).byte (4 * items + off + i) = ((image.drop off).take n).getD i 0 := by
    intro i hi
    rw [Memory.byte_writeBytes _ _ _ hb, if_pos (by omega), show 4 * items + off + i - 4 * items = off + i by omega,
      List.getD_eq_getElem _ _ (by omega), List.getD_eq_getElem _ _ (by rw [List.length_take, List.length_drop]; omega), List.getElem_take,
      List.getElem_drop]
  exact readBytes_eq (by rw [List.length_take, List.length_drop]; omega) key

theorem createFor_fields (mem : Memory) (items lim : Nat) (image : List Nat) : fieldsOf (createFor mem items lim image) = 0 := by
  unfold fieldsOf
  have : liveSet (createFor mem items lim image) = ∅ := by
    ext a
    rw [mem_liveSet]
    constructor
    · rintro ⟨h1, h2, _⟩
      have h1 : items ≤ a := h1
      have h2 : a < items := h2
      omega
    · intro h; exact absurd h (Finset.notMem_empty _)
  rw [this]; rfl

/-- The fields and buffers a schema describes. -/
abbrev schOfSc (s : Sc) : Sch := Audit.schOf (some ⟨s.image.length, s.tokens⟩)

/-- Every field reads as its definition says: no loose field is present, preplaced fields of fixed size have the initial value given (or
are absent or zero when none was given), preplaced fields of variable size have no value. -/
structure Starts (cs : List Cmd) (r : RW) : Prop where
  loose : fieldsOf r = 0
  fixed : ∀ c t, Defined cs c t → isPreplaced t = true → (tag2genus t).isFixed = true → getPreplacedFixed r t (tag2genus t) =
    if isDiscernible t = true ∧ c.initial (tag2genus t) (isDiscernible t) = denilBytes (tag2genus t) then .error .fieldAbsent
    else .ok (c.initial (tag2genus t) (isDiscernible t))
  stretchy : ∀ c t, Defined cs c t → isPreplaced t = true → (tag2genus t).isFixed = false →
    (r.mem (r.pivot + tag2offset t / 4)).lo = 0 ∧
    getPreplacedStretchy r t (tag2genus t) = if isDiscernible t = true then .error .fieldAbsent else .ok (some (.empty (tag2genus t)))

theorem stretchy_absent {r : RW} {t : Nat} (h : (r.mem (r.pivot + tag2offset t / 4)).lo = 0) :
    getPreplacedStretchy r t (tag2genus t) = if isDiscernible t = true then .error .fieldAbsent else .ok (some (.empty (tag2genus t))) := by
  unfold getPreplacedStretchy
  rw [if_neg (fun k => k rfl)]
  simp only
  rw [if_neg (fun k => k h)]

theorem image_bound {cs : List Cmd} {s : Sc} {log : List (Name × Nat)} (hg : ∀ c ∈ cs, c.Good) (e : define cs = some (s, log)) :
    s.image.length < 16448 := by
  have h := define_inv (fun c hc => (hg c hc).ok) e
  rcases (define_place (fun c hc => (hg c hc).ok) (fun c hc => (hg c hc).noOpacity) e).full with h1 | ⟨t, h1, h2, h3⟩
  · omega
  · have k1 := (h.well t h1).small
    have k2 := (h.well t h1).size h2
    have k3 := size_le (tag2genus t)
    have k4 : tag2offset t < 16384 := by rw [tag2offset_eq]; omega
    omega

/-- **C70 core.** A tuple constructed for the schema in a buffer of any contents. -/
theorem createFor_starts {cs : List Cmd} {s : Sc} {log : List (Name × Nat)} (F : Fix) (hg : ∀ c ∈ cs, c.Good) (e : define cs = some (s, log))
    (mem : Memory) {items lim : Nat} (h1 : items + bytes2units s.image.length ≤ lim) (h2 : lim ≤ 65534) :
    Reachable F (schOfSc s) (createFor mem items lim s.image) ∧ Starts cs (createFor mem items lim s.image) := by
  have hc : ∀ c ∈ cs, c.Ok := fun c h => (hg c h).ok
  have hn : ∀ c ∈ cs, c.NoOpacity := fun c h => (hg c h).noOpacity
  have hb : ∀ x ∈ s.image, x < 256 := run_bytes (fun c h => (hg c h).bytes) (fun _ h => by cases h) e
  have hinv := define_inv hc e
  have hpl := define_place hc hn e
  obtain ⟨hS, hT⟩ := C30_usable_partial hc hn (fun c h => (hg c h).aligned) e
  have init : ∀ c t, Defined cs c t → isPreplaced t = true →
      (createFor mem items lim s.image).mem.readBytes (4 * items + tag2offset t) (tag2genus t).preplacedBytes =
        c.initial (tag2genus t) (isDiscernible t) := by
    intro c t hd hp
    have hm := hd.log e hc hn
    have ht := hinv.mem_tokens.2 ⟨_, hm⟩
    obtain ⟨b, a, s₀, log₀, s₁, e1, e2, e3⟩ := hd
    rw [createFor_bytes _ _ _ hb (by rw [← (hinv.well t ht).size hp]; exact hpl.inside t ht hp)]
    subst e1
    exact C30_initial_partial hc hn e2 e3 e hp
  have zero : ∀ c t, Defined cs c t → isPreplaced t = true → (tag2genus t).isFixed = false →
      ((createFor mem items lim s.image).mem (items + tag2offset t / 4)).lo = 0 := by
    intro c t hd hp hf
    have hm := hd.log e hc hn
    have ht := hinv.mem_tokens.2 ⟨_, hm⟩
    have hal : tag2offset t % 4 = 0 := (hS.align t ht (by unfold Audit.isStretchyPre; rw [hp, hf]; rfl)).1
    have hin : tag2offset t + 4 ≤ s.image.length := (hS.align t ht (by unfold Audit.isStretchyPre; rw [hp, hf]; rfl)).2
    have h0 := init c t hd hp
    obtain ⟨b, a, s₀, log₀, s₁, e1, e2, e3⟩ := hd
    have hmem : c ∈ cs := by rw [e1]; exact List.mem_append_right _ List.mem_cons_self
    rw [initial_stretchy (hc c hmem) (hn c hmem) (hg c hmem).plain e3 hp hf, stretchy_size hf] at h0
    have hlo : ((createFor mem items lim s.image).mem (items + tag2offset t / 4)).lo < 65536 :=
      Memory.writeBytes_lo _ _ _ hb _ (Or.inr (by omega))
    have b0 : (createFor mem items lim s.image).mem.byte (4 * items + tag2offset t) = 0 := by
      have := congrArg (fun l => l.getD 0 1) h0
      exact this
    have b1 : (createFor mem items lim s.image).mem.byte (4 * items + tag2offset t + 1) = 0 := by
      have := congrArg (fun l => l.getD 1 1) h0
      exact this
    unfold Memory.byte at b0 b1
    simp only at b0 b1
    rw [show (4 * items + tag2offset t) / 4 = items + tag2offset t / 4 by omega, if_pos (show (4 * items + tag2offset t) % 4 < 2 by omega),
      if_pos (show (4 * items + tag2offset t) % 2 = 0 by omega)] at b0
    rw [show (4 * items + tag2offset t + 1) / 4 = items + tag2offset t / 4 by omega, if_pos (show (4 * items + tag2offset t + 1) % 4 < 2 by omega),
      if_neg (show ¬ (4 * items + tag2offset t + 1) % 2 = 0 by omega)] at b1
    omega
  refine ⟨?_, createFor_fields _ _ _ _, fun c t hd hp hf => ?_, fun c t hd hp hf => ?_⟩
  · rw [createFor_eq]
    refine .create mem (Memory.length_readCells _ _ _) h1 h2 ?_ ?_
    · intro k g hk
      unfold schOfSc Audit.schOf Audit.Schema.sch at hk
      simp only [Option.map_eq_some_iff] at hk
      obtain ⟨u, hu, rfl⟩ := hk
      obtain ⟨_, h4⟩ := List.mem_filter.1 (List.mem_of_find?_eq_some hu)
      unfold Audit.isStretchyPre at h4
      simpa using (by simpa using h4 : _ ∧ _).2
    · intro k g hk hlt
      unfold schOfSc Audit.schOf Audit.Schema.sch at hk
      simp only [Option.map_eq_some_iff] at hk
      obtain ⟨u, hu, rfl⟩ := hk
      obtain ⟨h3, h4⟩ := List.mem_filter.1 (List.mem_of_find?_eq_some hu)
      have hk := List.find?_some hu
      have hk : tag2offset u / 4 = k := of_decide_eq_true hk
      have h5 : isPreplaced u = true ∧ (tag2genus u).isFixed = false := by
        unfold Audit.isStretchyPre at h4
        simpa using h4
      obtain ⟨n, hm⟩ := hinv.mem_tokens.1 h3
      obtain ⟨c, hd⟩ := defined_of_log e hm
      have := zero c u hd h5.1 h5.2
      unfold Memory.readCells
      rw [List.getD_eq_getElem _ _ (by rw [List.length_map, List.length_range]; omega), List.getElem_map, List.getElem_range, ← hk]
      exact this
  · unfold getPreplacedFixed
    rw [if_neg (fun k => k rfl)]
    simp only
    rw [show (createFor mem items lim s.image).pivot = items from rfl, init c t hd hp]
  · have := zero c t hd hp hf
    exact ⟨this, stretchy_absent this⟩

/-- **C70 (new tuples, partial).** A schema was defined by any sequence of definitions, and a tuple was created for it in a buffer of
whatever contents. No loose field is present; every preplaced field of fixed size reads as the initial value given with its definition
(or as absent or zero when none was given), every preplaced field of variable size reads as absent or empty. Missing: opaque
structures, initial values for fields of variable size (`C70_stretchy_initial_refuted`), imported fields of variable size at odd offsets. -/
theorem C70_new_partial {cs : List Cmd} {s : Sc} {log : List (Name × Nat)} (F : Fix) (hg : ∀ c ∈ cs, c.Good) (e : define cs = some (s, log))
    {overhead items data extra : Nat} {mem : Memory} {r : RW} (hr : createNewFor overhead mem items data extra s.image = .ok r) :
    Starts cs r ∧ Reachable F (schOfSc s) r ∧ r.pivot = items ∧ r.pre = bytes2units s.image.length := by
  have hb := image_bound hg e
  unfold createNewFor estimate Audit.maxFields maxBytesNetto at hr
  rw [if_neg (by omega)] at hr
  by_cases c2 : data > 4 * 65534 - s.image.length ∨ items > 8191
  · rw [if_pos c2] at hr; cases hr
  rw [if_neg c2, if_neg (by decide), if_neg (by omega), if_neg (by omega), if_neg (by decide)] at hr
  have hr : (if overhead + items * 4 + (0 + s.image.length + 3) / 4 * 4 > overhead + items * 4 + (data + s.image.length + 3) / 4 * 4 + extra ∨
    overhead + items * 4 + (data + s.image.length + 3) / 4 * 4 + extra > bufLimit then Except.error Exc.invalidArgument else
    .ok (createFor mem items (min maxUnitsNetto ((overhead + items * 4 + (data + s.image.length + 3) / 4 * 4 + extra - overhead) / 4)) s.image)) = Except.ok r := hr
  by_cases c3 : overhead + items * 4 + (0 + s.image.length + 3) / 4 * 4 > overhead + items * 4 + (data + s.image.length + 3) / 4 * 4 + extra ∨
    overhead + items * 4 + (data + s.image.length + 3) / 4 * 4 + extra > bufLimit
  · rw [if_pos c3] at hr; cases hr
  rw [if_neg c3] at hr
  have hr := Except.ok.inj hr
  rw [← hr]
  obtain ⟨k1, k2⟩ := createFor_starts F hg e mem (items := items)
    (lim := min maxUnitsNetto ((overhead + items * 4 + (data + s.image.length + 3) / 4 * 4 + extra - overhead) / 4))
    (by rw [Audit.b2u']; unfold maxUnitsNetto; omega) (Nat.min_le_left _ _)
  exact ⟨k2, k1, rfl, rfl⟩

/-- **C70 (reset, partial).** Resetting a tuple after any history gives every field its initial value again. The same is missing as in
`C70_new_partial`. -/
theorem C70_reset_partial {cs : List Cmd} {s : Sc} {log : List (Name × Nat)} {F : Fix} (hg : ∀ c ∈ cs, c.Good) (e : define cs = some (s, log))
    {x r : RW} (h : Reachable F (schOfSc s) x) (hr : resetFor x s.image = .ok r) :
    Starts cs r ∧ Reachable F (schOfSc s) r ∧ r.pivot = x.pivot ∧ r.lim = x.lim := by
  unfold resetFor at hr
  by_cases c1 : x.pivot < 1 ∨ x.pivot > Audit.maxFields ∨ x.pivot > x.lim ∨ x.lim > bufLimit / 4
  · rw [if_pos c1] at hr; cases hr
  rw [if_neg c1] at hr
  by_cases c2 : bytes2units s.image.length > x.lim - x.pivot
  · rw [if_pos c2] at hr; cases hr
  rw [if_neg c2] at hr
  have hr := Except.ok.inj hr
  rw [← hr]
  obtain ⟨k1, k2⟩ := createFor_starts F hg e x.mem (items := x.pivot) (lim := x.lim) (by omega) h.wf.inv.ll
  exact ⟨k2, k1, rfl, rfl⟩

/-- **C70 (reset succeeds).** A tuple created for the schema with room for 1 to 8191 loose fields can be reset, whatever happened to it,
as long as its content was not moved so that the room is outside of this range (`C33_reset_refuted`). -/
theorem C70_reset_ok {F : Fix} {σ : Sch} {x : RW} {image : List Nat} (h : Reachable F σ x) (hp : x.pre = bytes2units image.length)
    (h1 : 1 ≤ x.pivot) (h2 : x.pivot ≤ 8191) : ∃ r, resetFor x image = .ok r := by
  have k1 := h.wf.inv.bt
  have k2 := h.wf.inv.tl
  have k3 := h.wf.inv.ll
  have hbase : x.base = x.pivot + x.pre := rfl
  refine ⟨createFor x.mem x.pivot x.lim image, ?_⟩
  unfold resetFor Audit.maxFields bufLimit
  rw [if_neg (by omega), if_neg (by omega)]

/-! ## The initial value stays until the field is set or erased -/

private theorem lo_small {σ : Sch} {s : RW} (h : WF σ s) {k : Nat} {g : Genus} (hσ : σ k = some g) (hk : k < s.pre) :
    (s.mem (s.pivot + k)).lo < 65536 := by
  by_contra hc
  have hb : s.base = s.pivot + s.pre := rfl
  have hs : StretchyAt σ s (s.pivot + k) g := ⟨h.sch _ _ hσ, Or.inr ⟨by omega, by omega, by rw [Nat.add_sub_cancel_left]; exact hσ⟩⟩
  have hpos := h.pos _ _ hs (by omega)
  have hcl : clen s.pivot (lenOf σ s) (s.pivot + k) (s.mem (s.pivot + k)) = lenOf σ s (s.pivot + k) := by
    unfold clen
    rw [if_neg (by omega)]
  have := h.inv.inside (a := s.pivot + k) (by have := h.inv.hp; omega) (by omega) (by rw [hcl]; exact hpos)
  have k2 := h.inv.tl
  have k3 := h.inv.ll
  have : s.start (s.pivot + k) = s.pivot + k + (s.mem (s.pivot + k)).lo := rfl
  omega

private theorem cell_zero {m : Memory} {a : Nat} (h : (m a).lo < 65536) : (m a).lo = 0 ↔ m.byte (4 * a) = 0 ∧ m.byte (4 * a + 1) = 0 := by
  unfold Memory.byte
  simp only
  rw [show 4 * a / 4 = a by omega, if_pos (show 4 * a % 4 < 2 by omega), if_pos (show 4 * a % 2 = 0 by omega),
    show (4 * a + 1) / 4 = a by omega, if_pos (show (4 * a + 1) % 4 < 2 by omega), if_neg (show ¬ (4 * a + 1) % 2 = 0 by omega)]
  omega

/-- A field of variable size without a value gets none by operations on other fields. -/
private theorem life_unset {F : Fix} {guard : Bool} {σ : Sch} {srt : List Item → List Item} {s t : RW} {es : List Ev} {outs : List (Option Exc)}
    {k : Nat} {g : Genus} (h : Reachable F σ s) (hs : Sorter srt) (hops : ∀ e ∈ es, EvOk σ s.pre e) (hb : LifeBenign F guard σ srt s es)
    (hr : life F guard σ srt s es = some (outs, t)) (hσ : σ k = some g) (hk : k < s.pre)
    (hn : ∀ o, Ev.op o ∈ es → Apart (slotOf o.tag) (4 * k, 4)) (h0 : (s.mem (s.pivot + k)).lo = 0) : (t.mem (t.pivot + k)).lo = 0 := by
  induction es generalizing s outs with
  | nil =>
    have hr := Option.some.inj hr
    have e2 : s = t := congrArg Prod.snd hr
    rw [← e2]; exact h0
  | cons e es ih =>
    have hops' : ∀ e ∈ es, EvOk σ s.pre e := fun e he => hops e (List.mem_cons_of_mem _ he)
    have hn' : ∀ o, Ev.op o ∈ es → Apart (slotOf o.tag) (4 * k, 4) := fun o he => hn o (List.mem_cons_of_mem _ he)
    cases e with
    | op o =>
      have ho : OpOk σ s.pre o := hops (.op o) (List.mem_cons_self ..)
      obtain ⟨hb1, hb2⟩ := hb
      have key := step_spec h.wf o ho hb1
      obtain ⟨x, s1, outs1, rfl, hl, hx⟩ := life_op hr
      rcases hx with ⟨rfl, hx⟩ | ⟨e, rfl, hx⟩
      · rw [hx] at hb2 key
        have key : Keep σ s s1 := key
        have h1 := h.step ho hb1 (Or.inl ⟨_, hx⟩)
        refine ih h1 (by rw [key.pre]; exact hops') hb2 hl (by rw [key.pre]; exact hk) hn' ?_
        have kk := step_slot h ho hb1 hx
        have ha : (slotOf o.tag).1 + (slotOf o.tag).2 ≤ 4 * k ∨ 4 * k + 4 ≤ (slotOf o.tag).1 := hn o (List.mem_cons_self ..)
        obtain ⟨z0, z1⟩ := (cell_zero (lo_small h.wf hσ hk)).1 h0
        refine (cell_zero (lo_small h1.wf hσ (by rw [key.pre]; exact hk))).2 ⟨?_, ?_⟩
        · have := kk.bytes (4 * k) (by omega) (by omega)
          rw [Nat.mul_add, this, ← Nat.mul_add]; exact z0
        · have := kk.bytes (4 * k + 1) (by omega) (by omega)
          rw [Nat.mul_add, Nat.add_assoc, this, ← Nat.add_assoc, ← Nat.mul_add]; exact z1
      · rw [hx] at hb2 key
        have key : s1 = s := key
        subst key
        exact ih h hops' hb2 hl hk hn' h0
    | compact =>
      obtain ⟨s1, outs1, rfl, hl, hx⟩ := life_compact hr
      unfold LifeBenign at hb
      rw [hx] at hb
      obtain ⟨⟨f, cp⟩, wf, hpu, k1, k2, k3, k4, k5, k6, k7⟩ := compactify_ok hs h.wf hx
      refine ih (h.compactify hs hx) (by rw [k3]; exact hops') hb hl (by rw [k3]; exact hk) hn' ?_
      exact (cp.stretchy k g hσ hk).2.null.2 h0

/-- **C70 (initial values stay, partial).** Whatever sequence of operations on other fields, failing operations and compactions a tuple goes
through from its creation or reset: a field that was not touched still has its initial value. Restricted to histories on which no
defect of `src/gear.cxx` shows; the same is missing as in `C70_new_partial`. -/
theorem C70_stays_partial {cs : List Cmd} {s : Sc} {log : List (Name × Nat)} {F : Fix} {guard : Bool} {srt : List Item → List Item}
    (hg : ∀ c ∈ cs, c.Good) (e : define cs = some (s, log)) {r x : RW} {es : List Ev} {outs : List (Option Exc)}
    (hr : Reachable F (schOfSc s) r) (hp : r.pre = bytes2units s.image.length) (h0 : Starts cs r) (hsrt : Sorter srt)
    (hops : ∀ e ∈ es, EvOk (schOfSc s) r.pre e) (hb : LifeBenign F guard (schOfSc s) srt r es)
    (hl : life F guard (schOfSc s) srt r es = some (outs, x)) {c : Cmd} {t : Nat} (hd : Defined cs c t) (hpt : isPreplaced t = true)
    (hn : ∀ o, Ev.op o ∈ es → Apart (slotOf o.tag) (slotOf t)) :
    readField x t (tag2genus t) =
      if (tag2genus t).isFixed = true then
        if isDiscernible t = true ∧ c.initial (tag2genus t) (isDiscernible t) = denilBytes (tag2genus t) then .error .fieldAbsent
        else .ok (.inl (c.initial (tag2genus t) (isDiscernible t)))
      else if isDiscernible t = true then .error .fieldAbsent else .ok (.inr (some (.empty (tag2genus t)))) := by
  have hc : ∀ c ∈ cs, c.Ok := fun c h => (hg c h).ok
  have hno : ∀ c ∈ cs, c.NoOpacity := fun c h => (hg c h).noOpacity
  obtain ⟨hS, hT⟩ := C30_usable_partial hc hno (fun c h => (hg c h).aligned) e
  have ht := hT _ _ (hd.log e hc hno)
  have ht : TokenOk (schOfSc s) r.pre t := by rw [hp]; exact ht
  unfold readField
  rw [if_pos hpt]
  by_cases hf : (tag2genus t).isFixed = true
  · rw [if_pos hf, if_pos hf, (life_slot hr hsrt hops hb hl ht hpt hn).1 hf, h0.fixed c t hd hpt hf]
    by_cases hi : isDiscernible t = true ∧ c.initial (tag2genus t) (isDiscernible t) = denilBytes (tag2genus t)
    · rw [if_pos hi, if_pos hi]; rfl
    · rw [if_neg hi, if_neg hi]; rfl
  · rw [if_neg hf, if_neg hf]
    have hf : (tag2genus t).isFixed = false := by simpa using hf
    have hslot := ht.2 hpt
    rw [hf, if_neg (by decide)] at hslot
    have e4 : slotOf t = (4 * (tag2offset t / 4), 4) := by unfold slotOf; rw [if_pos hpt, if_neg (by rw [hf]; decide)]
    rw [e4] at hn
    have := life_unset hr hsrt hops hb hl hslot.2 hslot.1 hn (h0.stretchy c t hd hpt hf).1
    rw [stretchy_absent this]
    by_cases hi : isDiscernible t = true
    · rw [if_pos hi, if_pos hi]; rfl
    · rw [if_neg hi, if_neg hi]; rfl

/-! ## What goes wrong -/

/-- **C70 fails for fields of variable size with an initial value.** The definition of a text field with an initial value is accepted. In a
new tuple the field then reads as a text made of whatever the buffer contained. -/
theorem C70_stretchy_initial_refuted : ∃ s log, define [.preplaced [65] 0 false false (some [1, 0, 0, 0])] = some (s, log) ∧ ([65], 4) ∈ log ∧
    ∀ x, x < 256 → ∃ mem r, createNewFor 44 mem 4 20 0 s.image = .ok r ∧ r.tail = r.pivot + 1 ∧ mem r.tail = ⟨1 + 256 * x, 0⟩ ∧
      getPreplacedStretchy r 4 .text = .ok (some (.text [x])) := by
  have p : (match define [.preplaced [65] 0 false false (some [1, 0, 0, 0])] with
    | some r => decide (r = (⟨[4], [1, 0, 0, 0], 1, 1, [([65], 4)], [(4, [65])]⟩, [([65], 4)])) | none => false) = true := by decide +kernel
  cases e : define [.preplaced [65] 0 false false (some [1, 0, 0, 0])] with
  | none => rw [e] at p; exact absurd p Bool.false_ne_true
  | some r =>
    rw [e] at p
    have p := of_decide_eq_true p
    refine ⟨_, _, rfl, ?_, fun x hx => ⟨fun _ => ⟨1 + 256 * x, 0⟩, createFor (fun _ => ⟨1 + 256 * x, 0⟩) 4 10 [1, 0, 0, 0], ?_, ?_, rfl, ?_⟩⟩
    · rw [p]; exact List.mem_singleton.2 rfl
    · rw [p]; rfl
    · rfl
    · have hall : ∀ x, x < 256 → (match getPreplacedStretchy (createFor (fun _ => ⟨1 + 256 * x, 0⟩) 4 10 [1, 0, 0, 0]) 4 .text with
          | .ok (some (.text [y])) => decide (y = x) | _ => false) = true := by decide +kernel
      have q := hall x hx
      split at q
      · rename_i y hy
        rw [hy, of_decide_eq_true q]
      · exact absurd q Bool.false_ne_true

/-! ## C69 for new tuples -/

/-- **C69 (new tuples, partial).** New tuples of a schema in two buffers of arbitrary contents have the same used part, so they behave alike and
have the same serialized form. Missing: schemas whose preplaced fields do not end at a multiple of four bytes
(`C69_padding_refuted`). -/
theorem C69_new_partial {cs : List Cmd} {s : Sc} {log : List (Name × Nat)} (hb : ∀ c ∈ cs, c.Bytes) (e : define cs = some (s, log))
    (h4 : s.image.length % 4 = 0) (mem mem' : Memory) (items lim : Nat) (sch : Option Audit.Schema) :
    SameUsed (createFor mem items lim s.image) (createFor mem' items lim s.image) ∧
      SameImage sch (createFor mem items lim s.image) (createFor mem' items lim s.image) := by
  have hb : ∀ x ∈ s.image, x < 256 := run_bytes hb (fun _ h => by cases h) e
  have key : SameUsed (createFor mem items lim s.image) (createFor mem' items lim s.image) := by
    refine ⟨rfl, rfl, rfl, rfl, rfl, rfl, rfl, fun u h1 h2 => ?_⟩
    have h1 : items ≤ u := h1
    have h2 : u < items + bytes2units s.image.length := h2
    rw [Audit.b2u'] at h2
    show mem'.writeBytes (4 * items) s.image u = mem.writeBytes (4 * items) s.image u
    refine Memory.cell_ext ⟨Memory.writeBytes_lo _ _ _ hb _ (Or.inr (by omega)), Memory.writeBytes_hi _ _ _ hb _ (Or.inr (by omega))⟩
      ⟨Memory.writeBytes_lo _ _ _ hb _ (Or.inr (by omega)), Memory.writeBytes_hi _ _ _ hb _ (Or.inr (by omega))⟩ (fun j hj => ?_)
    rw [Memory.byte_writeBytes _ _ _ hb, Memory.byte_writeBytes _ _ _ hb, if_pos (by omega), if_pos (by omega)]
  exact ⟨key, key.image sch⟩

/-- **C69 fails for schemas whose preplaced fields do not end at a multiple of four bytes.** A schema of one preplaced byte: the serialized form
of a new tuple consists of a header and one unit, of which the last two bytes are whatever the uninitialised buffer contained. -/
theorem C69_padding_refuted : ∃ s log, define [.preplaced [65] 5 false false (some [5])] = some (s, log) ∧ s.image = [5] ∧
    ∀ secret, ∃ mem r, createNewFor 44 mem 4 20 0 s.image = .ok r ∧ r.tail - r.head + 1 = 2 ∧
      mem r.pivot = ⟨0, secret⟩ ∧ takeAsis (some ⟨1, s.tokens⟩) r 1 = ⟨5, secret⟩ := by
  have p : (match define [.preplaced [65] 5 false false (some [5])] with
    | some r => decide (r = (⟨[10241], [5], 1, 0, [([65], 10241)], [(10241, [65])]⟩, [([65], 10241)])) | none => false) = true := by decide +kernel
  cases e : define [.preplaced [65] 5 false false (some [5])] with
  | none => rw [e] at p; exact absurd p Bool.false_ne_true
  | some r =>
    rw [e] at p
    have p := of_decide_eq_true p
    refine ⟨_, _, rfl, by rw [p], fun x => ⟨fun _ => ⟨0, x⟩, createFor (fun _ => ⟨0, x⟩) 4 10 [5], ?_, rfl, rfl, ?_⟩⟩
    · rw [p]; rfl
    · unfold takeAsis
      rw [if_neg (by decide)]
      show Memory.setByte (fun _ => ⟨0, x⟩) (4 * 4) 5 4 = _
      unfold Memory.setByte
      simp [Memory.set]

/-! ## The hypotheses are met -/

theorem shop_good : ∀ c ∈ shop, c.Good := by
  intro c hc
  have h := shop_ok c hc
  have hb : c.Bytes ∧ c.Plain := by
    unfold shop at hc
    rw [List.mem_cons, List.mem_cons, List.mem_cons, List.mem_cons, List.mem_cons, List.mem_cons, List.mem_cons, List.mem_singleton] at hc
    rcases hc with rfl | rfl | rfl | rfl | rfl | rfl | rfl | rfl
    all_goals first
      | exact ⟨fun _ h => (by cases h), trivial⟩
      | exact ⟨fun b h => (by rw [← Option.some.inj h]; decide), (by show (Genus.ofCode 12).isFixed = true; decide)⟩
  exact ⟨h.1, h.2.1, h.2.2, hb.1, hb.2⟩

theorem shop_defined : Defined shop (.preplaced [70] 12 false false (some [1, 2, 3, 4, 5, 6, 7, 8])) 2121736 ∧
    Defined shop (.preplaced [67] 0 true false none) 1114116 ∧ Defined shop (.preplaced [65] 5 true false none) 75777 := by
  have core : ∀ (b a : List Cmd) (c : Cmd) (t : Nat), shop = b ++ c :: a →
      (match define b with | some p => (match exec p.1 c with | .ok t' _ => decide (t' = t) | _ => false) | none => false) = true → Defined shop c t := by
    intro b a c t h1 h2
    cases e : define b with
    | none => rw [e] at h2; exact absurd h2 Bool.false_ne_true
    | some p =>
      rw [e] at h2
      simp only at h2
      cases e2 : exec p.1 c with
      | ok t' s1 =>
        rw [e2] at h2
        have h2 := of_decide_eq_true h2
        exact ⟨b, a, p.1, p.2, s1, h1, e, by rw [e2, h2]⟩
      | exc x => rw [e2] at h2; exact absurd h2 Bool.false_ne_true
      | lengthError => rw [e2] at h2; exact absurd h2 Bool.false_ne_true
      | ub => rw [e2] at h2; exact absurd h2 Bool.false_ne_true
  exact ⟨core (shop.take 6) (shop.drop 7) _ _ rfl (by decide +kernel), core (shop.take 2) (shop.drop 3) _ _ rfl (by decide +kernel),
    core [] (shop.drop 1) _ _ rfl (by decide +kernel)⟩

/-- A schema of seven fields; a tuple in a buffer of any contents: the number given, no text, an absent byte. -/
example (mem : Memory) : ∃ r, createNewFor 44 mem 8 100 0 shopSc.image = .ok r ∧ Reachable .code (schOfSc shopSc) r ∧
    getPreplacedFixed r 2121736 (tag2genus 2121736) = .ok [1, 2, 3, 4, 5, 6, 7, 8] ∧
    getPreplacedStretchy r 1114116 (tag2genus 1114116) = .error .fieldAbsent ∧
    getPreplacedFixed r 75777 (tag2genus 75777) = .error .fieldAbsent := by
  obtain ⟨k, k2, _⟩ := C70_new_partial .code shop_good shop_run (overhead := 44) (items := 8) (data := 100) (extra := 0) (mem := mem) rfl
  obtain ⟨d1, d2, d3⟩ := shop_defined
  refine ⟨_, rfl, k2, (k.fixed _ _ d1 (by decide) (by decide)).trans ?_, (k.stretchy _ _ d2 (by decide) (by decide)).2.trans ?_,
    (k.fixed _ _ d3 (by decide) (by decide)).trans ?_⟩
  · rfl
  · rfl
  · rfl

/-- The same after the byte and a loose field were set, the loose field erased, and a compaction. -/
example : ∃ outs x, life .code false (schOfSc shopSc) itemSort (createFor (fun _ => ⟨7, 7⟩) 8 60 shopSc.image)
      [.op (.set 75777 .u8 (.inline 9)), .op (setF .u32 3 20), .op (.erase (fix .u32 3)), .compact] = some (outs, x) ∧
    outs = [none, none, none, none] ∧ readField x 2121736 (tag2genus 2121736) = .ok (.inl [1, 2, 3, 4, 5, 6, 7, 8]) ∧
    readField x 1114116 (tag2genus 1114116) = .error .fieldAbsent := by
  obtain ⟨outs, x, hl, hp⟩ := life_decide (F := .code) (guard := false) (σ := schOfSc shopSc) (srt := itemSort)
    (s := createFor (fun _ => ⟨7, 7⟩) 8 60 shopSc.image) (es := [.op (.set 75777 .u8 (.inline 9)), .op (setF .u32 3 20), .op (.erase (fix .u32 3)), .compact])
    (fun outs _ => decide (outs = [none, none, none, none])) (by decide +kernel)
  obtain ⟨k1, k2⟩ := createFor_starts .code shop_good shop_run (fun _ => ⟨7, 7⟩) (items := 8) (lim := 60) (by decide) (by decide)
  obtain ⟨d1, d2, d3⟩ := shop_defined
  have hT := (C30_usable_partial (fun c h => (shop_ok c h).1) (fun c h => (shop_ok c h).2.1) (fun c h => (shop_ok c h).2.2) shop_run).2
  have hev : ∀ e ∈ [Ev.op (.set 75777 .u8 (.inline 9)), .op (setF .u32 3 20), .op (.erase (fix .u32 3)), .compact],
      EvOk (schOfSc shopSc) (createFor (fun _ => ⟨7, 7⟩) 8 60 shopSc.image).pre e := by
    intro e he
    rw [List.mem_cons, List.mem_cons, List.mem_cons, List.mem_singleton] at he
    rcases he with rfl | rfl | rfl | rfl
    · exact ⟨hT [65] 75777 (by decide), by decide⟩
    · exact ⟨⟨by decide, fun h => absurd h (by decide)⟩, by decide⟩
    · exact ⟨by decide, fun h => absurd h (by decide)⟩
    · trivial
  have hb : LifeBenign .code false (schOfSc shopSc) itemSort (createFor (fun _ => ⟨7, 7⟩) 8 60 shopSc.image)
      [.op (.set 75777 .u8 (.inline 9)), .op (setF .u32 3 20), .op (.erase (fix .u32 3)), .compact] := lifeBenign_of (by decide +kernel)
  have hap : ∀ t, t = 2121736 ∨ t = 1114116 → ∀ o, Ev.op o ∈ [Ev.op (.set 75777 .u8 (.inline 9)), .op (setF .u32 3 20), .op (.erase (fix .u32 3)), .compact] →
      Apart (slotOf o.tag) (slotOf t) := by
    intro t ht o ho
    rw [List.mem_cons, List.mem_cons, List.mem_cons, List.mem_singleton] at ho
    rcases ht with rfl | rfl <;> rcases ho with h | h | h | h
    all_goals first
      | (cases h; unfold Apart; decide)
      | cases h
  refine ⟨outs, x, hl, of_decide_eq_true hp, ?_, ?_⟩
  · exact (C70_stays_partial shop_good shop_run k1 rfl k2 itemSort_ok hev hb hl d1 (by decide) (hap _ (Or.inl rfl))).trans rfl
  · exact (C70_stays_partial shop_good shop_run k1 rfl k2 itemSort_ok hev hb hl d2 (by decide) (hap _ (Or.inr rfl))).trans rfl

end Fptu.Props
