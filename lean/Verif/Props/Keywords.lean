import Verif.Model.Keywords
/-!
# C43: recognizing reserved words
-/
namespace Fptu.Props
open Fptu Fptu.Keywords

/-- The reserved words the recognizer is made for. -/
def reservedWords : List String :=
  ["break", "case", "catch", "class", "const", "continue", "debugger", "default", "delete", "do", "else", "enum", "export", "extends", "finally", "for",
    "function", "if", "implements", "import", "in", "instanceof", "interface", "let", "new", "package", "private", "protected", "public", "return", "static",
    "super", "switch", "this", "throw", "try", "typeof", "var", "void", "while", "with", "yield"]

/-- The bytes `w` lie at address `p`. -/
def Lies (M : Nat → Option Nat) (p : Nat) (w : List Nat) : Prop := ∀ i (h : i < w.length), M (p + i) = some w[i]

/-- The hash of a word, from its bytes. -/
private def hashOf (w : List Nat) : Option Nat :=
  match w with
  | c0 :: c1 :: _ =>
    match asso[c1]?, asso[c0]? with
    | some a1, some a0 => some (w.length + a1 + a0)
    | _, _ => none
  | _ => none

private theorem same_true {M : Nat → Option Nat} : ∀ {w : List Nat} {p : Nat}, sameCString M p w = some true → Lies M p w ∧ M (p + w.length) = some 0
  | [], p, h => by
    refine ⟨fun i hi => absurd hi (Nat.not_lt_zero i), ?_⟩
    unfold sameCString at h
    cases e : M p with
    | none => rw [e] at h; cases h
    | some b =>
      rw [e] at h
      have h := Option.some.inj h
      rw [beq_iff_eq] at h
      rw [h]
  | c :: w, p, h => by
    unfold sameCString at h
    cases e : M p with
    | none => rw [e] at h; cases h
    | some b =>
      rw [e] at h
      dsimp only at h
      by_cases k : b = c
      · rw [if_pos k] at h
        obtain ⟨h1, h2⟩ := same_true h
        refine ⟨fun i hi => ?_, ?_⟩
        · cases i with
          | zero => show M (p + 0) = some c; rw [Nat.add_zero, e, k]
          | succ i =>
            have hi' : i < w.length := Nat.lt_of_succ_lt_succ hi
            have := h1 i hi'
            show M (p + (i + 1)) = some (w[i]'hi')
            rw [← this]; congr 1; omega
        · rw [← h2, List.length_cons]; congr 1; omega
      · rw [if_neg k] at h; cases h

private theorem same_of {M : Nat → Option Nat} : ∀ {w : List Nat} {p : Nat}, Lies M p w → sameCString M p w = (M (p + w.length)).map fun b => b == 0
  | [], p, _ => by unfold sameCString; rw [List.length_nil, Nat.add_zero]
  | c :: w, p, h => by
    have h0 : M p = some c := h 0 (Nat.zero_lt_succ _)
    unfold sameCString
    rw [h0]
    dsimp only
    rw [if_pos rfl, same_of (w := w) (p := p + 1) (fun i hi => by
      have := h (i + 1) (Nat.succ_lt_succ hi)
      rw [List.getElem_cons_succ] at this
      rw [← this]; congr 1; omega), List.length_cons]
    congr 2; omega

private theorem hash_of {M : Nat → Option Nat} {p : Nat} {w : List Nat} (h : Lies M p w) (hl : 2 ≤ w.length) : slotNumber M p w.length = hashOf w := by
  match w, hl with
  | c0 :: c1 :: w, _ =>
    have h0 : M p = some c0 := h 0 (Nat.zero_lt_succ _)
    have h1 : M (p + 1) = some c1 := h 1 (Nat.succ_lt_succ (Nat.zero_lt_succ _))
    unfold slotNumber hashOf
    rw [h0, h1]
    dsimp only
    rfl

/-- Every word in the table has its own slot number as hash. -/
private theorem slot_hash : ∀ k < 56, ∀ s, slots.getD k none = some s → hashOf (bytesOf s) = some k ∧ 2 ≤ (bytesOf s).length ∧ (bytesOf s).length ≤ 10 ∧ s ∈ reservedWords := by
  have h : (List.range 56).all (fun k => match slots.getD k none with
      | none => true
      | some s => decide (hashOf (bytesOf s) = some k ∧ 2 ≤ (bytesOf s).length ∧ (bytesOf s).length ≤ 10 ∧ s ∈ reservedWords)) = true := by decide +kernel
  intro k hk s hs
  have := List.all_eq_true.1 h k (List.mem_range.2 hk)
  rw [hs] at this
  exact of_decide_eq_true this

/-- Every reserved word is in the slot of its hash. -/
private theorem word_slot : ∀ s ∈ reservedWords, ∃ k ≤ 55, hashOf (bytesOf s) = some k ∧ slots.getD k none = some s ∧ 2 ≤ (bytesOf s).length ∧ (bytesOf s).length ≤ 10 := by
  have h : reservedWords.all (fun s => match hashOf (bytesOf s) with
      | none => false
      | some k => decide (k ≤ 55 ∧ slots.getD k none = some s ∧ 2 ≤ (bytesOf s).length ∧ (bytesOf s).length ≤ 10)) = true := by decide +kernel
  intro s hs
  have := List.all_eq_true.1 h s hs
  cases e : hashOf (bytesOf s) with
  | none => rw [e] at this; cases this
  | some k =>
    rw [e] at this
    have := of_decide_eq_true this
    exact ⟨k, this.1, rfl, this.2⟩

/-- **C43 (nothing else).** Whatever is recognized is a reserved word, of the given length, lies at the given address and ends with a zero byte there. -/
theorem C43_only {M : Nat → Option Nat} {p len : Nat} {s : String} (h : inWordSet M p len = some (some s)) :
    s ∈ reservedWords ∧ len = (bytesOf s).length ∧ Lies M p (bytesOf s) ∧ M (p + len) = some 0 := by
  unfold inWordSet at h
  by_cases hl : len ≤ 10 ∧ len ≥ 2
  · rw [if_pos hl] at h
    cases eh : slotNumber M p len with
    | none => rw [eh] at h; cases h
    | some key =>
      rw [eh] at h
      dsimp only at h
      by_cases hk : key ≤ 55
      · rw [if_pos hk] at h
        cases es : slots.getD key none with
        | none => rw [es] at h; cases h
        | some t =>
          rw [es] at h
          dsimp only at h
          cases ec : sameCString M p (bytesOf t) with
          | none => rw [ec] at h; cases h
          | some b =>
            rw [ec] at h
            cases b with
            | false => cases h
            | true =>
              have hst : t = s := Option.some.inj (Option.some.inj h)
              subst hst
              obtain ⟨h1, h2⟩ := same_true ec
              obtain ⟨g1, g2, _, g4⟩ := slot_hash key (by omega) t es
              have e := hash_of h1 g2
              rw [g1] at e
              have hlen : len = (bytesOf t).length := by
                unfold slotNumber at eh e
                cases m1 : M (p + 1) with
                | none => rw [m1] at eh; cases eh
                | some c1 =>
                  cases m0 : M p with
                  | none => rw [m1, m0] at eh; cases eh
                  | some c0 =>
                    rw [m1, m0] at eh e
                    dsimp only at eh e
                    cases n1 : asso[c1]? with
                    | none => rw [n1] at eh; cases eh
                    | some a1 =>
                      cases n0 : asso[c0]? with
                      | none => rw [n1, n0] at eh; cases eh
                      | some a0 =>
                        rw [n1, n0] at eh e
                        have := Option.some.inj eh
                        have := Option.some.inj e
                        omega
              refine ⟨g4, hlen, h1, ?_⟩
              rw [hlen]; exact h2
      · rw [if_neg hk] at h; cases h
  · rw [if_neg hl] at h; cases h

/-- What happens to the bytes of a reserved word: the answer depends on the byte behind them. -/
theorem C43_behind {M : Nat → Option Nat} {p : Nat} {s : String} (hs : s ∈ reservedWords) (h : Lies M p (bytesOf s)) :
    inWordSet M p (bytesOf s).length = (M (p + (bytesOf s).length)).map fun b => if b = 0 then some s else none := by
  obtain ⟨k, hk, e1, e2, l1, l2⟩ := word_slot s hs
  unfold inWordSet
  rw [if_pos ⟨l2, l1⟩, hash_of h l1, e1]
  dsimp only
  rw [if_pos hk, e2]
  dsimp only
  rw [same_of h]
  cases M (p + (bytesOf s).length) with
  | none => rfl
  | some b =>
    by_cases hb : b = 0
    · subst hb; rfl
    · rw [Option.map_some, Option.map_some, if_neg hb, beq_eq_false_iff_ne.2 hb]

/-- **C43 (partial).** Text of seven-bit characters that is followed by a zero byte is recognized exactly when it is a reserved word, and nothing outside it and
that byte is read. Missing: text of other characters (`C43_ascii_refuted`) and text that is not followed by a zero byte (`C43_view_refuted`). -/
theorem C43_reserved_partial {M : Nat → Option Nat} {p : Nat} {w : List Nat} (hm : Lies M p w) (hz : M (p + w.length) = some 0) (ha : ∀ c ∈ w, c < 128) :
    ∃ r, inWordSet M p w.length = some r ∧ ((∃ s, r = some s) ↔ ∃ s ∈ reservedWords, bytesOf s = w) ∧ ∀ s, r = some s → bytesOf s = w := by
  have tot : ∃ r, inWordSet M p w.length = some r := by
    unfold inWordSet
    by_cases hl : w.length ≤ 10 ∧ w.length ≥ 2
    · rw [if_pos hl, hash_of hm hl.2]
      obtain ⟨k, ek⟩ : ∃ k, hashOf w = some k := by
        match w, hl.2 with
        | c0 :: c1 :: w, _ =>
          have h0 : c0 < asso.length := ha c0 (List.mem_cons_self ..)
          have h1 : c1 < asso.length := ha c1 (List.mem_cons_of_mem _ (List.mem_cons_self ..))
          unfold hashOf
          dsimp only
          rw [List.getElem?_eq_getElem h0, List.getElem?_eq_getElem h1]
          exact ⟨_, rfl⟩
      rw [ek]
      dsimp only
      by_cases hk : k ≤ 55
      · rw [if_pos hk]
        cases es : slots.getD k none with
        | none => exact ⟨_, rfl⟩
        | some s =>
          dsimp only
          obtain ⟨g1, g2, _, _⟩ := slot_hash k (by omega) s es
          have hd : ∀ (v u : List Nat) (q : Nat), Lies M q u → M (q + u.length) = some 0 → (0 ∉ v) → ∃ b, sameCString M q v = some b := by
            intro v
            induction v with
            | nil =>
              intro u q hu hz _
              cases u with
              | nil => unfold sameCString; rw [show M q = some 0 from hz]; exact ⟨_, rfl⟩
              | cons c u => unfold sameCString; rw [show M q = some c from hu 0 (Nat.zero_lt_succ _)]; exact ⟨_, rfl⟩
            | cons a v ih =>
              intro u q hu hz h0
              unfold sameCString
              cases u with
              | nil =>
                rw [show M q = some 0 from hz]
                dsimp only
                have hne : ¬ 0 = a := fun k => h0 (k ▸ List.mem_cons_self ..)
                rw [if_neg hne]
                exact ⟨_, rfl⟩
              | cons c u =>
                rw [show M q = some c from hu 0 (Nat.zero_lt_succ _)]
                dsimp only
                by_cases hc : c = a
                · rw [if_pos hc]
                  refine ih u (q + 1) (fun i hi => ?_) ?_ (fun k => h0 (List.mem_cons_of_mem _ k))
                  · have := hu (i + 1) (Nat.succ_lt_succ hi)
                    rw [List.getElem_cons_succ] at this
                    rw [← this]; congr 1; omega
                  · rw [List.length_cons] at hz
                    rw [← hz]; congr 1; omega
                · rw [if_neg hc]; exact ⟨_, rfl⟩
          have hn : ∀ s ∈ reservedWords, (0 : Nat) ∉ bytesOf s := by decide +kernel
          obtain ⟨b, hb⟩ := hd (bytesOf s) w p hm hz (hn s (slot_hash k (by omega) s es).2.2.2)
          rw [hb]
          cases b <;> exact ⟨_, rfl⟩
      · rw [if_neg hk]; exact ⟨_, rfl⟩
    · rw [if_neg hl]; exact ⟨_, rfl⟩
  obtain ⟨r, hr⟩ := tot
  have same : ∀ s, r = some s → bytesOf s = w := fun s e => by
    obtain ⟨_, h2, h3, _⟩ := C43_only (e ▸ hr)
    refine List.ext_getElem h2.symm fun i h1 h2 => ?_
    have a := h3 i h1
    have b := hm i h2
    rw [a] at b
    exact Option.some.inj b
  refine ⟨r, hr, ⟨?_, ?_⟩, same⟩
  · rintro ⟨s, e⟩
    exact ⟨s, (C43_only (e ▸ hr)).1, same s e⟩
  · rintro ⟨s, hs, e⟩
    subst e
    have := C43_behind hs hm
    rw [hz, hr] at this
    exact ⟨s, Option.some.inj this⟩

/-- A text and what follows, from address 0; beyond that nothing may be read. -/
def textMem (s : String) : Nat → Option Nat := fun i => (bytesOf s)[i]?

/-- **C43 (refuted): views.** The length is not respected: a reserved word followed by any other byte than zero is taken for an ordinary one, and the byte behind
a reserved word is read, be it readable or not. -/
theorem C43_view_refuted {M : Nat → Option Nat} {p : Nat} {s : String} (hs : s ∈ reservedWords) (h : Lies M p (bytesOf s)) :
    (∀ b, b ≠ 0 → M (p + (bytesOf s).length) = some b → inWordSet M p (bytesOf s).length = some none) ∧
    (M (p + (bytesOf s).length) = none → inWordSet M p (bytesOf s).length = none) := by
  refine ⟨fun b hb e => ?_, fun e => ?_⟩
  · rw [C43_behind hs h, e, Option.map_some, if_neg hb]
  · rw [C43_behind hs h, e]; rfl

example : inWordSet (textMem "in x") 0 2 = some none ∧ inWordSet (textMem "in\x00") 0 2 = some (some "in") ∧ inWordSet (textMem "in") 0 2 = none ∧
    inWordSet (textMem "int\x00") 0 3 = some none ∧ inWordSet (textMem "instanceof\x00") 0 10 = some (some "instanceof") := by decide +kernel

/-- **C43 (refuted): characters.** A text of 2 to 10 bytes whose first or second byte is above 127 makes the recognizer read behind its table. -/
theorem C43_ascii_refuted {M : Nat → Option Nat} {p len : Nat} (h2 : 2 ≤ len) (h10 : len ≤ 10)
    (h : (∃ c, M p = some c ∧ 128 ≤ c) ∨ ∃ c, M (p + 1) = some c ∧ 128 ≤ c) : inWordSet M p len = none := by
  have key : slotNumber M p len = none := by
    have big : ∀ c, 128 ≤ c → asso[c]? = none := fun c hc => List.getElem?_eq_none hc
    unfold slotNumber
    rcases h with ⟨c, e, hc⟩ | ⟨c, e, hc⟩
    · rw [e]
      cases M (p + 1) with
      | none => rfl
      | some d =>
        dsimp only
        rw [big c hc]
        cases asso[d]? <;> rfl
    · rw [e]
      cases M p with
      | none => rfl
      | some d =>
        dsimp only
        rw [big c hc]
  unfold inWordSet
  rw [if_pos ⟨h10, h2⟩, key]

example : inWordSet (fun i => [0xC3, 0xA9, 0][i]?) 0 2 = none := by decide +kernel

/-- **C43 (refuted): the words.** `null`, `true`, `false` and `await` are reserved in ECMAScript too, but never recognized. -/
theorem C43_words_refuted {M : Nat → Option Nat} {p : Nat} {s : String} (hs : s ∈ ["null", "true", "false", "await"]) (hm : Lies M p (bytesOf s))
    (hz : M (p + (bytesOf s).length) = some 0) : inWordSet M p (bytesOf s).length = some none := by
  have ha : ∀ s ∈ ["null", "true", "false", "await"], ∀ c ∈ bytesOf s, c < 128 := by decide +kernel
  have hn : ∀ s ∈ ["null", "true", "false", "await"], ∀ t ∈ reservedWords, bytesOf t ≠ bytesOf s := by decide +kernel
  obtain ⟨r, e, h1, h2⟩ := C43_reserved_partial hm hz (ha s hs)
  cases r with
  | none => exact e
  | some t =>
    obtain ⟨t, ht, k⟩ := h1.1 ⟨t, rfl⟩
    exact absurd k (hn s hs t ht)

example : inWordSet (textMem "null\x00") 0 4 = some none := by decide +kernel

end Fptu.Props
