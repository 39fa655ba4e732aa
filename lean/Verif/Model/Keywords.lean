/-!
# Model of the recognizer of reserved words (src/gperf_ECMAScript_keywords.h)

Only `json_emit.cxx`, which is switched off by `#if 0`, calls it; it is modelled as a function on its own. Memory is a map from addresses to bytes;
`none` is a byte that must not be read. An outcome `none` of a function is undefined behaviour.
-/
namespace Fptu.Keywords

/-- The bytes of an ASCII text. -/
def bytesOf (s : String) : List Nat := s.toList.map Char.toNat

/-- gperf_ECMAScript_keywords.h:50-58 `asso_values`: 128 entries. -/
def asso : List Nat := [
  56, 56, 56, 56, 56, 56, 56, 56, 56, 56, 56, 56, 56, 56, 56, 56,
  56, 56, 56, 56, 56, 56, 56, 56, 56, 56, 56, 56, 56, 56, 56, 56,
  56, 56, 56, 56, 56, 56, 56, 56, 56, 56, 56, 56, 56, 56, 56, 56,
  56, 56, 56, 56, 56, 56, 56, 56, 56, 56, 56, 56, 56, 56, 56, 56,
  56, 56, 56, 56, 56, 56, 56, 56, 56, 56, 56, 56, 56, 56, 56, 56,
  56, 56, 56, 56, 56, 56, 56, 56, 56, 56, 56, 56, 56, 56, 56, 56,
  56, 10, 15, 0,  0,  0,  10, 56, 30, 0,  56, 56, 15, 40, 0,  20,
  10, 56, 15, 5,  5,  20, 30, 20, 35, 0,  56, 56, 56, 56, 56, 56]

/-- gperf_ECMAScript_keywords.h:62-175 `stringpool_contents`, `wordlist`: the word in each slot, 0 to 55. -/
def slots : List (Option String) := [
  none, none, some "in", some "new", some "enum", some "yield", some "delete", some "default", some "debugger", some "interface",
  some "instanceof", some "typeof", some "if", none, some "case", some "catch", some "static", some "finally", some "let", some "else",
  some "class", some "return", some "do", some "try", some "with", some "const", none, some "package", some "continue", none,
  some "super", some "switch", some "private", some "for", some "protected", some "break", some "public", none, some "function", some "this",
  some "throw", some "export", some "extends", some "var", none, none, some "import", none, none, none,
  some "implements", none, none, none, some "void", some "while"]

/-- gperf_ECMAScript_keywords.h:48-61 `hash`: the index into `asso_values` is the byte, 0 to 255. -/
def slotNumber (M : Nat → Option Nat) (p len : Nat) : Option Nat :=
  match M (p + 1), M p with
  | some c1, some c0 =>
    match asso[c1]?, asso[c0]? with
    | some a1, some a0 => some (len + a1 + a0)
    | _, _ => none
  | _, _ => none

/-- `strcmp(p, w) == 0`, reading up to the first difference; the text `w` is followed by a zero byte. -/
def sameCString (M : Nat → Option Nat) (p : Nat) : List Nat → Option Bool
  | [] => (M p).map fun b => b == 0
  | c :: w =>
    match M p with
    | none => none
    | some b => if b = c then sameCString M (p + 1) w else some false

/-- gperf_ECMAScript_keywords.h:177-191 `in_word_set` (`*str == *s && !strcmp(str + 1, s + 1)` compares from the first byte on). -/
def inWordSet (M : Nat → Option Nat) (p len : Nat) : Option (Option String) :=
  if len ≤ 10 ∧ len ≥ 2 then
    match slotNumber M p len with
    | none => none
    | some key =>
      if key ≤ 55 then
        match slots.getD key none with
        | none => some none
        | some s =>
          match sameCString M p (bytesOf s) with
          | none => none
          | some true => some (some s)
          | some false => some none
      else some none
  else some none

end Fptu.Keywords
