import Verif.Lemmas.SchemaFind
/-!
# Schemas: placement of preplaced fields and the initial image
-/
namespace Fptu.Schemas
open Fptu Fptu.Props

/-- The command does not define or import an opaque structure. -/
def Cmd.NoOpacity : Cmd → Prop
  | .opacity .. => False
  | .imported _ t _ _ => tag2genus t ≠ .hole
  | _ => True

/-- Placement of the preplaced fields in schemas without opaque structures. -/
structure Place (s : Sc) : Prop where
  typed : ∀ t ∈ s.tokens, tag2genus t ≠ .hole
  inside : ∀ t ∈ s.tokens, isPreplaced t = true → tag2offset t + tag2indysize t ≤ s.image.length
  full : s.image.length = 0 ∨ ∃ t ∈ s.tokens, isPreplaced t = true ∧ tag2offset t + tag2indysize t = s.image.length
  apart : s.tokens.Pairwise (fun a b => isPreplaced b = true → tag2offset a + tag2indysize a ≤ tag2offset b)

theorem Place.create : Place .create := ⟨fun _ h => (by cases h), fun _ h => (by cases h), Or.inl rfl, .nil⟩

theorem size_pos {g : Genus} (h : g ≠ .hole) : 0 < g.preplacedBytes := by cases g <;> first | decide | exact absurd rfl h
theorem size_le (g : Genus) : g.preplacedBytes ≤ 64 := by cases g <;> decide
theorem erased_length (g : Genus) (d : Bool) : (erasedBytes g d).length = g.preplacedBytes := by
  cases g <;> cases d <;> decide

/-- No conflict with the preplaced tokens at the beginning of the list. -/
theorem noConflict_apart {t : Nat} {l : List Nat} (h : noConflict t l = true)
    (hl : l.Pairwise (fun a b => isPreplaced b = true → isPreplaced a = true)) (ht : tag2genus t ≠ .hole) :
    ∀ x ∈ l, isPreplaced x = true → tag2genus x ≠ .hole → isOverlapped t x = false := by
  induction l with
  | nil => intro x hx; cases hx
  | cons y l ih =>
    intro x hx hp hh
    obtain ⟨h1, h2⟩ := List.pairwise_cons.1 hl
    have hpy : isPreplaced y = true := by
      rcases List.mem_cons.1 hx with rfl | hm
      · exact hp
      · exact h1 x hm hp
    unfold noConflict at h
    rw [hpy] at h
    simp only [Bool.not_true, Bool.false_eq_true, if_false] at h
    split_ifs at h with g1 g2
    rcases List.mem_cons.1 hx with rfl | hm
    · simp only [Bool.and_eq_true, bne_iff_ne, ne_eq, not_and] at g2
      have := g2 ⟨ht, hh⟩
      simpa using this
    · exact ih h h2 x hm hp hh

theorem overlapped_false {a b : Nat} (h : isOverlapped a b = false) :
    tag2offset a + tag2indysize a ≤ tag2offset b ∨ tag2offset b + tag2indysize b ≤ tag2offset a := by
  unfold isOverlapped at h
  split_ifs at h with h1 h2
  · exact Or.inl h1
  · exact Or.inr h2

/-- The value the image gets for a new field. -/
def initial (t : Nat) (init : Option (List Nat)) : List Nat :=
  match init with
  | some bytes => bytes.take (tag2indysize t)
  | none => erasedBytes (tag2genus t) (isDiscernible t)

theorem overwrite_end (l bs : List Nat) (n : Nat) (h : bs.length = n) :
    overwrite (l ++ List.replicate n 0) l.length bs = l ++ bs := by
  unfold overwrite
  rw [List.take_left', List.drop_of_length_le (by simp [h]), List.append_nil]
  rfl

/-- The image grows by padding and the value when the field does not start inside it. -/
theorem newImage_grow {image img : List Nat} {t : Nat} {init : Option (List Nat)} (hw : tag2indysize t = (tag2genus t).preplacedBytes)
    (ho : image.length ≤ tag2offset t) (h : newImage image t init = some img) :
    img = image ++ List.replicate (tag2offset t - image.length) 0 ++ initial t init ∧ (initial t init).length = tag2indysize t := by
  unfold newImage at h
  simp only [] at h
  cases init with
  | some bytes =>
    simp only [] at h
    split_ifs at h with h1
    refine ⟨(Option.some.inj h).symm, ?_⟩
    show (bytes.take _).length = _
    rw [List.length_take]; omega
  | none =>
    simp only [] at h
    split_ifs at h with h1 h2
    have hlen : (image ++ List.replicate (tag2offset t - image.length) 0).length = tag2offset t := by
      rw [List.length_append, List.length_replicate]; omega
    have := overwrite_end (image ++ List.replicate (tag2offset t - image.length) 0) (erasedBytes (tag2genus t) (isDiscernible t))
      (tag2indysize t) (by rw [erased_length, hw])
    rw [hlen] at this
    rw [this] at h
    exact ⟨(Option.some.inj h).symm, by show (erasedBytes _ _).length = _; rw [erased_length, hw]⟩

/-- With memory behind the initial value, the definition of a field at or past the end of the image does not fail. -/
theorem newImage_some {image : List Nat} {t : Nat} {init : Option (List Nat)} (hw : tag2indysize t = (tag2genus t).preplacedBytes)
    (hg : tag2genus t ≠ .hole) (ho : image.length ≤ tag2offset t) (hi : ∀ b, init = some b → tag2indysize t ≤ b.length) :
    ∃ img, newImage image t init = some img := by
  unfold newImage
  cases init with
  | some b => simp only []; rw [if_neg (by have := hi b rfl; omega)]; exact ⟨_, rfl⟩
  | none =>
    simp only []
    rw [if_neg hg, if_neg]
    · exact ⟨_, rfl⟩
    · simp only [List.length_append, List.length_replicate]; omega

variable {s s' : Sc} {log : List (Name × Nat)}

theorem Place.image_le (hp : Place s) (h : Inv s log) : s.image.length ≤ 16383 + 64 := by
  rcases hp.full with k | ⟨t, ht, hpre, he⟩
  · omega
  · have hw := h.well t ht
    have := hw.offset
    have := size_le (tag2genus t)
    have := hw.size hpre
    omega

theorem Inv.first (h : Inv s log) : s.tokens.Pairwise (fun a b => isPreplaced b = true → isPreplaced a = true) :=
  h.sorted.imp (fun h hb => order_pre h hb)

/-- An accepted preplaced field starts at or past the end of the image. -/
theorem Place.accepted (hp : Place s) (h : Inv s log) {n : Name} {t tok : Nat} {i : Option (List Nat)} (hw : WellTok t)
    (hg : tag2genus t ≠ .hole) (hpre : isPreplaced t = true) (e : addDefinition s n t i = .ok tok s') :
    s.image.length ≤ tag2offset t ∧ s'.image = s.image ++ List.replicate (tag2offset t - s.image.length) 0 ++ initial t i ∧
      (initial t i).length = tag2indysize t := by
  obtain ⟨h1, h2, h3, h4, h5⟩ := addDefinition_ok e
  obtain ⟨c1, c2⟩ := h4 hpre
  obtain ⟨_, _, _, _, _, _, g6⟩ := commit_ok h5
  rw [if_pos hpre] at g6
  have hsz := size_pos hg
  rw [← hw.size hpre] at hsz
  have hoff : s.image.length ≤ tag2offset t := by
    rcases hp.full with k | ⟨x, hx, hxp, hxe⟩
    · omega
    · have := overlapped_false (noConflict_apart c1 h.first hg x hx hxp (hp.typed x hx))
      have hxs := size_pos (hp.typed x hx)
      rw [← (h.well x hx).size hxp] at hxs
      rcases this with k | k
      · exfalso
        apply c2
        have := hp.image_le h
        unfold maxString
        omega
      · omega
  exact ⟨hoff, newImage_grow (hw.size hpre) hoff g6⟩

theorem Place.step (hp : Place s) (h : Inv s log) {n : Name} {t : Nat} {i : Option (List Nat)} (hw : WellTok t)
    (hg : tag2genus t ≠ .hole) (e : addDefinition s n t i = .ok t s') : Place s' := by
  have hi' := h.step hw e
  obtain ⟨_, g1, g2, g3, g4, g5, g6⟩ := commit_ok (addDefinition_ok e).2.2.2.2
  have hm : ∀ x, x ∈ s'.tokens ↔ x ∈ s.tokens ∨ x = t := fun x => by
    rw [g1, mem_sortTokens, List.mem_append, List.mem_singleton]
  have himg : s.image.length ≤ s'.image.length ∧
      (isPreplaced t = true → s.image.length ≤ tag2offset t ∧ s'.image.length = tag2offset t + tag2indysize t) ∧
      (isPreplaced t = false → s'.image = s.image) := by
    by_cases hpre : isPreplaced t = true
    · obtain ⟨a1, a2, a3⟩ := hp.accepted h hw hg hpre e
      have : s'.image.length = tag2offset t + tag2indysize t := by
        rw [a2, List.length_append, List.length_append, List.length_replicate]; omega
      exact ⟨by omega, fun _ => ⟨a1, this⟩, fun k => by rw [hpre] at k; cases k⟩
    · rw [if_neg hpre] at g6
      have hpre : isPreplaced t = false := by simpa using hpre
      exact ⟨by rw [g6], fun k => (by rw [hpre] at k; cases k), fun _ => g6⟩
  refine ⟨fun x hx => ?_, fun x hx hxp => ?_, ?_, ?_⟩
  · rcases (hm x).1 hx with k | rfl
    · exact hp.typed x k
    · exact hg
  · rcases (hm x).1 hx with k | rfl
    · exact Nat.le_trans (hp.inside x k hxp) himg.1
    · exact Nat.le_of_eq (himg.2.1 hxp).2.symm
  · by_cases hpre : isPreplaced t = true
    · exact Or.inr ⟨t, (hm t).2 (Or.inr rfl), hpre, (himg.2.1 hpre).2.symm⟩
    · have hpre : isPreplaced t = false := by simpa using hpre
      rw [himg.2.2 hpre]
      rcases hp.full with k | ⟨x, hx, k⟩
      · exact Or.inl k
      · exact Or.inr ⟨x, (hm x).2 (Or.inl hx), k⟩
  · have hpw : s'.tokens.Pairwise (fun a b => a ∈ s'.tokens ∧ b ∈ s'.tokens ∧ normalizeTag a < normalizeTag b) :=
      List.Pairwise.and_mem.1 hi'.sorted
    refine hpw.imp (fun {a b} ⟨ha, hb, hab⟩ hbp => ?_)
    have hap := order_pre hab hbp
    have hob := order_offset hab hbp
    have two : ∀ x ∈ s.tokens, ∀ y ∈ s.tokens, isPreplaced x = true → isPreplaced y = true → x ≠ y →
        normalizeTag x < normalizeTag y → tag2offset x + tag2indysize x ≤ tag2offset y := by
      intro x hx y hy hxp hyp hne hxy
      obtain ⟨i, hi, ei⟩ := exists_index hx
      obtain ⟨j, hj, ej⟩ := exists_index hy
      rcases Nat.lt_trichotomy i j with k | k | k
      · have := List.pairwise_iff_getElem.1 hp.apart i j hi hj k
        rw [← List.getD_eq_getElem s.tokens 0 hi, ← List.getD_eq_getElem s.tokens 0 hj, ei, ej] at this
        exact this hyp
      · subst k; exact absurd (ei.symm.trans ej) hne
      · have := h.sorted_at k hi
        rw [ei, ej] at this
        omega
    have hne : a ≠ b := fun k => by rw [k] at hab; omega
    rcases (hm a).1 ha with ka | rfl
    · rcases (hm b).1 hb with kb | rfl
      · exact two a ka b kb hap hbp hne hab
      · exact Nat.le_trans (hp.inside a ka hap) (himg.2.1 hbp).1
    · rcases (hm b).1 hb with kb | rfl
      · have := hp.inside b kb hbp
        have hbs := size_pos (hp.typed b kb)
        rw [← (h.well b kb).size hbp] at hbs
        have := (himg.2.1 hap).1
        omega
      · exact absurd rfl hne

theorem exec_typed {c : Cmd} {tok : Nat} (hc : c.Ok) (hn : c.NoOpacity) (h : exec s c = .ok tok s') : tag2genus tok ≠ .hole := by
  have key : ∀ {t : Nat} {n : Name} {i : Option (List Nat)}, addDefinition s n t i = .ok tok s' → tok = t :=
    fun h => (commit_ok (addDefinition_ok h).2.2.2.2).1
  have hpre : ∀ {off tc ident : Nat} {d sa : Bool}, off ≤ 16381 → tc < 31 → tokenPreplaced off tc d sa = .ok ident → tag2genus ident ≠ .hole := by
    intro off tc ident d sa ho ht hk hg
    obtain ⟨_, _, _, _, _, _, _, a8, _⟩ := C01_preplaced_token_lossless _ _ _ _ _ ⟨by omega, by omega⟩ hk
    have hg : Genus.ofCode (tag2genusCode ident) = .hole := hg
    rw [a8] at hg
    have := congrArg Genus.code hg
    rw [Genus.code_ofCode tc (by omega)] at this
    have : tc = 31 := this
    omega
  have hl : ∀ {id tc ident : Nat} {c d sa : Bool}, tokenLoose tc id c d sa = .ok ident → tag2genus ident ≠ .hole := by
    intro id tc ident c d sa hk
    exact (WellTok.loose hk).genus (C01_loose_token_lossless _ _ _ _ _ _ hk).2.2.2.2.1
  cases c with
  | preplaced n tc d sa i =>
    obtain ⟨h1, off, ident, h2, h3, h4, h5⟩ := definePreplaced_ok h
    cases key h5
    exact hpre h3 h1 h4
  | opacity n sz al i => exact absurd hn id
  | loose n tc c d sa =>
    obtain ⟨h1, h2, ident, h4, h5⟩ := defineLoose_ok h
    cases key h5
    exact hl h4
  | imported n t i r =>
    have h : importDefinition s n t i r = .ok tok s' := h
    unfold importDefinition at h
    split_ifs at h with h1 h2 h3
    · cases key h
      exact hn
    · obtain ⟨h1, off, ident, h2, h3, h4, h5⟩ := definePreplaced_ok h
      cases key h5
      exact hpre h3 h1 h4
    · obtain ⟨h1, h2, ident, h4, h5⟩ := defineLoose_ok h
      cases key h5
      exact hl h4

theorem Place.run {log' : List (Name × Nat)} {cs : List Cmd} (hp : Place s) (h : Inv s log) (hc : ∀ c ∈ cs, c.Ok)
    (hn : ∀ c ∈ cs, c.NoOpacity) (e : runFrom s log cs = some (s', log')) : Place s' := by
  induction cs generalizing s log with
  | nil => cases e; exact hp
  | cons c cs ih =>
    have hcs : ∀ c ∈ cs, c.Ok := fun x hx => hc x (List.mem_cons_of_mem _ hx)
    have hns : ∀ c ∈ cs, c.NoOpacity := fun x hx => hn x (List.mem_cons_of_mem _ hx)
    unfold runFrom at e
    split at e
    · rename_i tok s1 he
      obtain ⟨hw, i, ha⟩ := exec_ok (hc c List.mem_cons_self) he
      exact ih (hp.step h hw (exec_typed (hc c List.mem_cons_self) (hn c List.mem_cons_self) he) ha) (h.step hw ha) hcs hns e
    · exact ih hp h hcs hns e
    · exact ih hp h hcs hns e
    · cases e

theorem define_place {cs : List Cmd} (hc : ∀ c ∈ cs, c.Ok) (hn : ∀ c ∈ cs, c.NoOpacity) (e : define cs = some (s, log)) :
    Place s := Place.create.run Inv.create hc hn e

/-- The image only grows at its end. -/
theorem Place.prefix {log' : List (Name × Nat)} {cs : List Cmd} (hp : Place s) (h : Inv s log) (hc : ∀ c ∈ cs, c.Ok)
    (hn : ∀ c ∈ cs, c.NoOpacity) (e : runFrom s log cs = some (s', log')) : s.image <+: s'.image ∧ ∀ p ∈ log, p ∈ log' := by
  induction cs generalizing s log with
  | nil => cases e; exact ⟨List.prefix_rfl, fun _ h => h⟩
  | cons c cs ih =>
    have hcs : ∀ c ∈ cs, c.Ok := fun x hx => hc x (List.mem_cons_of_mem _ hx)
    have hns : ∀ c ∈ cs, c.NoOpacity := fun x hx => hn x (List.mem_cons_of_mem _ hx)
    unfold runFrom at e
    split at e
    · rename_i tok s1 he
      obtain ⟨hw, i, ha⟩ := exec_ok (hc c List.mem_cons_self) he
      have hg := exec_typed (hc c List.mem_cons_self) (hn c List.mem_cons_self) he
      obtain ⟨k1, k2⟩ := ih (hp.step h hw hg ha) (h.step hw ha) hcs hns e
      refine ⟨List.IsPrefix.trans ?_ k1, fun p hm => k2 p (List.mem_append_left _ hm)⟩
      by_cases hpre : isPreplaced tok = true
      · obtain ⟨_, a2, _⟩ := hp.accepted h hw hg hpre ha
        rw [a2, List.append_assoc]
        exact List.prefix_append _ _
      · obtain ⟨_, _, _, _, _, _, g6⟩ := commit_ok (addDefinition_ok ha).2.2.2.2
        rw [if_neg hpre] at g6
        rw [g6]
        exact List.prefix_rfl
    · exact ih hp h hcs hns e
    · exact ih hp h hcs hns e
    · cases e

/-! ### Loose identifiers -/

theorem makeTag_max {g : Genus} (hg : g ≠ .hole) :
    normalizeTag (makeTag g maxIdent false false false) = 4294901760 + g.code * 2048 + 2047 ∧ g.code < 31 := by
  have hc : g.code < 31 := by cases g <;> first | decide | exact absurd rfl hg
  have e : makeTag g maxIdent false false false = 4294443008 + g.code * 2048 + 2047 := by
    unfold makeTag maxIdent
    rw [looseThreshold_eq]
    simp only [Bool.false_eq_true, if_false]
    omega
  refine ⟨?_, hc⟩
  rw [e, norm_loose (isPreplaced_false.2 (by omega)) (by omega)]
  omega

theorem genus_code_iff {t : Nat} {g : Genus} : tag2genus t = g ↔ tag2genusCode t = g.code := by
  have hlt : tag2genusCode t < 32 := by rw [tag2genusCode_eq]; omega
  constructor
  · intro h; rw [← h]; exact (Genus.code_ofCode _ hlt).symm
  · intro h; show Genus.ofCode _ = g; rw [h]; exact Genus.ofCode_code g

/-- The chosen id is above the ids of all loose fields of the type, and is the successor of the largest one. -/
theorem nextLooseId_spec (h : Inv s log) {g : Genus} (hg : g ≠ .hole) :
    (∀ t ∈ s.tokens, isPreplaced t = false → tag2genus t = g → tag2id t < nextLooseId s g) ∧
      (nextLooseId s g = 0 ∨ ∃ t ∈ s.tokens, isPreplaced t = false ∧ tag2genus t = g ∧ tag2id t + 1 = nextLooseId s g) := by
  obtain ⟨hk, hc⟩ := makeTag_max hg
  have hless : ∀ t, (!tagLess (makeTag g maxIdent false false false) t) = decide (normalizeTag t ≤ 4294901760 + g.code * 2048 + 2047) := by
    intro t
    unfold tagLess
    rw [hk, ← decide_not]
    exact decide_eq_decide.2 Nat.not_lt
  have hfun : (fun t => !tagLess (makeTag g maxIdent false false false) t)
      = fun t => decide (normalizeTag t ≤ 4294901760 + g.code * 2048 + 2047) := funext hless
  unfold nextLooseId
  rw [hfun]
  set P := s.tokens.takeWhile (fun t => decide (normalizeTag t ≤ 4294901760 + g.code * 2048 + 2047)) with hP
  have hsub : ∀ t ∈ P, t ∈ s.tokens ∧ normalizeTag t ≤ 4294901760 + g.code * 2048 + 2047 := by
    intro t ht
    refine ⟨(List.takeWhile_prefix _).subset ht, ?_⟩
    have hall := List.all_takeWhile (p := fun t => decide (normalizeTag t ≤ 4294901760 + g.code * 2048 + 2047)) (l := s.tokens)
    exact of_decide_eq_true (List.all_eq_true.1 hall t ht)
  have hin : ∀ t ∈ s.tokens, normalizeTag t ≤ 4294901760 + g.code * 2048 + 2047 → t ∈ P := by
    have : ∀ l : List Nat, l.Pairwise (fun a b => normalizeTag a < normalizeTag b) → ∀ t ∈ l,
        normalizeTag t ≤ 4294901760 + g.code * 2048 + 2047 →
        t ∈ l.takeWhile (fun t => decide (normalizeTag t ≤ 4294901760 + g.code * 2048 + 2047)) := by
      intro l hl
      induction l with
      | nil => intro t ht; cases ht
      | cons x l ih =>
        intro t ht hle
        obtain ⟨h1, h2⟩ := List.pairwise_cons.1 hl
        have hx : normalizeTag x ≤ 4294901760 + g.code * 2048 + 2047 := by
          rcases List.mem_cons.1 ht with rfl | hm
          · exact hle
          · have := h1 t hm; omega
        rw [List.takeWhile_cons, if_pos (decide_eq_true hx)]
        rcases List.mem_cons.1 ht with rfl | hm
        · exact List.mem_cons_self
        · exact List.mem_cons_of_mem _ (ih h2 t hm hle)
    exact this s.tokens h.sorted
  have hnorm : ∀ t ∈ s.tokens, isPreplaced t = false → normalizeTag t = 4294901760 + tag2genusCode t * 2048 + tag2id t := by
    intro t ht hp
    rw [norm_loose hp (h.well t ht).small, tag2genusCode_eq, tag2id_eq]
    omega
  have hidlt : ∀ t, tag2id t < 2048 := fun t => by rw [tag2id_eq]; omega
  have hsorted : P.Pairwise (fun a b => normalizeTag a < normalizeTag b) := h.sorted.sublist (List.takeWhile_prefix _).sublist
  cases hl : P.getLast? with
  | none =>
    have hP0 : P = [] := List.getLast?_eq_none_iff.1 hl
    simp only []
    refine ⟨fun t ht hp hgt => ?_, Or.inl trivial⟩
    have := hin t ht (by rw [hnorm t ht hp, (genus_code_iff.1 hgt)]; have := hidlt t; omega)
    rw [hP0] at this; cases this
  | some l =>
    simp only []
    have hlm : l ∈ P := List.mem_of_getLast? hl
    have hmax : ∀ t ∈ P, normalizeTag t ≤ normalizeTag l := by
      obtain ⟨Q, hQ⟩ : ∃ Q, P = Q ++ [l] := by
        obtain ⟨Q, hQ⟩ := List.getLast?_eq_some_iff.1 hl
        exact ⟨Q, hQ⟩
      intro t ht
      rw [hQ] at ht hsorted
      rcases List.mem_append.1 ht with k | k
      · exact Nat.le_of_lt ((List.pairwise_append.1 hsorted).2.2 t k l List.mem_cons_self)
      · rw [List.mem_singleton] at k; rw [k]
    obtain ⟨hlt, hlle⟩ := hsub l hlm
    have hall : ∀ t ∈ s.tokens, isPreplaced t = false → tag2genus t = g →
        isPreplaced l = false ∧ tag2genus l = g ∧ tag2id t ≤ tag2id l := by
      intro t ht hp hgt
      have ht' := hmax t (hin t ht (by rw [hnorm t ht hp, (genus_code_iff.1 hgt)]; have := hidlt t; omega))
      have hpl : isPreplaced l = false := by
        by_contra hq
        have hq : isPreplaced l = true := by simpa using hq
        rcases Nat.lt_or_eq_of_le ht' with k | k
        · have := order_pre k hq; rw [hp] at this; cases this
        · rw [normalize_preplaced l hq, norm_loose hp (h.well t ht).small] at k
          have := isPreplaced_true.1 hq
          omega
      have e1 := hnorm l hlt hpl
      have e2 := hnorm t ht hp
      have e3 := genus_code_iff.1 hgt
      have b1 := hidlt l
      have b2 := hidlt t
      have : tag2genusCode l = g.code := by omega
      exact ⟨hpl, genus_code_iff.2 this, by omega⟩
    by_cases hcond : (!isPreplaced l && tag2genus l == g) = true
    · rw [if_pos hcond]
      simp only [Bool.and_eq_true, Bool.not_eq_true', beq_iff_eq] at hcond
      exact ⟨fun t ht hp hgt => Nat.lt_succ_of_le (hall t ht hp hgt).2.2, Or.inr ⟨l, hlt, hcond.1, hcond.2, rfl⟩⟩
    · rw [if_neg hcond]
      refine ⟨fun t ht hp hgt => ?_, Or.inl rfl⟩
      obtain ⟨k1, k2, _⟩ := hall t ht hp hgt
      exact absurd (by rw [k1, k2]; simp) hcond

end Fptu.Schemas
