import Mathlib.Data.List.Sort
import Verif.Model.TupleRW
/-!
# Schemas

Model of `src/schema.cxx` and `fast_positive/tuples/schema.h`: definitions of fields, lookups by name, token, offset and
descriptor, and the size estimate.

Simplifications, for the whole file:
* `std::unordered_map` is an association list (the code only uses `count`, `find`, `emplace` of new keys, `at`);
* `std::sort` with the order of tokens is an insertion sort by the normalized tag (no two tokens of a schema are equivalent,
  so the result of sorting is unique), `std::upper_bound` is the length of the prefix that is not greater;
* memory exhaustion (`std::bad_alloc`, and the `catch` of schema.cxx:184-190 it leads to) is not modelled;
* names are lists of bytes.
-/
namespace Fptu.Schemas
open Fptu

abbrev Name := List Nat

/-- schema.h:252-256 and schema.cxx:46-51: the members of `schema` and `schema_impl`. -/
structure Sc where
  tokens : List Nat
  image : List Nat
  npre : Nat
  nstretchy : Nat
  n2t : List (Name × Nat)
  t2n : List (Nat × Name)
  deriving DecidableEq

/-- schema.cxx:29-30, 330-332 `schema::create()`. -/
def Sc.create : Sc := ⟨[], [], 0, 0, [], []⟩

/-- Outcome of a definition: the token, an exception of the library, `std::length_error`, undefined behaviour.
An exception leaves the schema as it is: everything that throws comes before the first modification. -/
inductive Res where
  | ok (tok : Nat) (s : Sc)
  | exc (e : Exc)
  | lengthError
  | ub
  deriving DecidableEq

/-- schema.cxx:90-93 `is_inside`. -/
def isInside (point : Int) (t : Nat) : Bool :=
  decide (point ≥ tag2offset t) && decide (point < (tag2offset t : Int) + tag2indysize t)

/-- schema.cxx:95-98 `is_crossing`. (`offset + size - 1` is computed in `size_t` and converted to `ptrdiff_t`: −1 for 0.) -/
def isCrossing (a b : Nat) : Bool :=
  isInside (tag2offset a) b != isInside ((tag2offset a : Int) + tag2indysize a - 1) b

/-- schema.cxx:100-108 `is_overlapped`. -/
def isOverlapped (a b : Nat) : Bool :=
  if tag2offset a + tag2indysize a ≤ tag2offset b then false
  else if tag2offset a ≥ tag2offset b + tag2indysize b then false
  else true

/-- token.h:129-131 `is_stretchy`. -/
def isStretchy (t : Nat) : Bool := !tagIsFixedSize t

/-- schema.cxx:110-121 `get_next_loose_id`. `g` is below `hole` here. -/
def nextLooseId (s : Sc) (g : Genus) : Nat :=
  match (s.tokens.takeWhile (fun t => !tagLess (makeTag g maxIdent false false false) t)).getLast? with
  | some t => if !isPreplaced t && tag2genus t == g then tag2id t + 1 else 0
  | none => 0

/-- schema.cxx:137-156: the loop over the preplaced fields, `true` when none conflicts. -/
def noConflict (ident : Nat) : List Nat → Bool
  | [] => true
  | t :: ts =>
    if !isPreplaced t then true
    else if isCrossing ident t then false
    else if tag2genus ident != .hole && tag2genus t != .hole && isOverlapped ident t then false
    else noConflict ident ts

/-- Bytes `bs` written at position `at` of a string. -/
def overwrite (l : List Nat) (pos : Nat) (bs : List Nat) : List Nat :=
  l.take pos ++ bs ++ l.drop (pos + bs.length)

/-- meta.h:797-839 `preplaced_erase` of the initial image: DENIL or zeros (`Rw.denilBytes`). -/
def erasedBytes (g : Genus) (discernible : Bool) : List Nat :=
  if discernible then Rw.denilBytes g else List.replicate g.preplacedBytes 0

/-- schema.cxx:160-176: the new image. `none` is undefined behaviour: fewer bytes behind `initial_value` than the field has
(the caller's fault), the `__unreachable()` of `preplaced_erase` for opaque structures (meta.h:801-803), a write past the end
of the image. -/
def newImage (image : List Nat) (ident : Nat) (init : Option (List Nat)) : Option (List Nat) :=
  let img := image ++ List.replicate (tag2offset ident - image.length) 0
  match init with
  | some bytes => if bytes.length < tag2indysize ident then none else some (img ++ bytes.take (tag2indysize ident))
  | none =>
    let img := img ++ List.replicate (tag2indysize ident) 0
    let g := tag2genus ident
    if g = .hole then none
    else if tag2offset ident + g.preplacedBytes > img.length then none
    else some (overwrite img (tag2offset ident) (erasedBytes g (isDiscernible ident)))

/-- libstdc++ `std::string::max_size()` (64 bit). -/
def maxString : Nat := 2 ^ 62

def nat (b : Bool) : Nat := if b then 1 else 0

/-- The order of `std::sort` (schema.cxx:193; token.h:220-224 `operator<`). -/
def sortTokens (l : List Nat) : List Nat := l.insertionSort (fun a b => normalizeTag a ≤ normalizeTag b)

/-- schema.cxx:160-193: the modification of the schema. -/
def commitDefinition (s : Sc) (name : Name) (ident : Nat) (init : Option (List Nat)) : Res :=
  if isPreplaced ident then
    match newImage s.image ident init with
    | none => .ub
    | some img =>
      .ok ident ⟨sortTokens (s.tokens ++ [ident]), img, s.npre + 1, s.nstretchy + nat (isStretchy ident),
        s.n2t ++ [(name, ident)], s.t2n ++ [(ident, name)]⟩
  else
    .ok ident ⟨sortTokens (s.tokens ++ [ident]), s.image, s.npre, s.nstretchy,
      s.n2t ++ [(name, ident)], s.t2n ++ [(ident, name)]⟩

/-- schema.cxx:123-194 `add_definition`. -/
def addDefinition (s : Sc) (name : Name) (ident : Nat) (init : Option (List Nat)) : Res :=
  if name.length > 42 then .exc .invalidArgument
  else if s.n2t.any (fun p => p.1 == name) then .exc .schemaBadDefinition
  else if s.t2n.any (fun p => tagSame p.1 ident) then .exc .schemaBadDefinition
  else if isPreplaced ident && !noConflict ident s.tokens then .exc .schemaBadDefinition
  else if isPreplaced ident &&
      decide (((tag2offset ident + tag2indysize ident : Int) - s.image.length) % (2 ^ 64 : Int) > maxString) then .lengthError
  else commitDefinition s name ident init

/-- schema.cxx:206-210 and 235-238: the next aligned offset (`align` is a power of two). -/
def alignedOffset (size align : Nat) : Nat :=
  size + (((align : Int) - size) % (align : Int)).toNat

/-- schema.cxx:196-217 `define_preplaced`; `typeCode` is any value of the enumeration. -/
def definePreplaced (s : Sc) (name : Name) (typeCode : Nat) (disc sat : Bool) (init : Option (List Nat)) : Res :=
  if typeCode ≥ 31 then .exc .invalidArgument
  else
    let length := (Genus.ofCode typeCode).preplacedBytes
    let align := if length > unitSize then unitSize else length
    let off := alignedOffset s.image.length align
    if off > maxPreplacedOffset then .exc .schemaBadDefinition
    else match tokenPreplaced off typeCode disc sat with
      | .error e => .exc e
      | .ok ident => addDefinition s name ident init

/-- schema.cxx:219-245 `define_preplaced_fixed_opacity`; `alignof(max_align_t)` is 16 (x86-64). -/
def defineOpacity (s : Sc) (name : Name) (size align : Nat) (init : Option (List Nat)) : Res :=
  if size ≥ 2 ^ 11 - 1 then .exc .invalidArgument
  else if size < 1 then .exc .invalidArgument
  else if align ≥ 16 then .exc .invalidArgument
  else if align ≠ 0 ∧ ¬ (align = 1 ∨ align = 2 ∨ align = 4 ∨ align = 8) then .exc .invalidArgument
  else
    let align := if align = 0 then (if size > unitSize then unitSize else size) else align
    if align = 3 then .ub /- the assertion of line 234 -/
    else
      let off := alignedOffset s.image.length align
      if off > maxPreplacedOffset then .exc .schemaBadDefinition
      else match tokenPreplaced off 31 false false with
        | .error e => .exc e
        | .ok ident => addDefinition s name ident init

/-- schema.cxx:247-268 `define_loose`. -/
def defineLoose (s : Sc) (name : Name) (typeCode : Nat) (coll disc sat : Bool) : Res :=
  if typeCode ≥ 31 then .exc .invalidArgument
  else
    let id := nextLooseId s (Genus.ofCode typeCode)
    if id ≥ 1024 then .exc .schemaBadDefinition
    else match tokenLoose typeCode id coll disc sat with
      | .error e => .exc e
      | .ok ident => addDefinition s name ident none

/-- schema.cxx:270-287 `import_definition`. -/
def importDefinition (s : Sc) (name : Name) (ident : Nat) (init : Option (List Nat)) (renominate : Bool) : Res :=
  if !renominate then addDefinition s name ident init
  else if isPreplaced ident then
    if tag2genus ident = .hole then .exc .schemaBadDefinition
    else definePreplaced s name (tag2genusCode ident) (isDiscernible ident) (isSaturated ident) init
  else defineLoose s name (tag2genusCode ident) (isLooseCollection ident) (isDiscernible ident) (isSaturated ident)

/-- The definitions a program may ask for (schema.h:99-140; `define_field` and `define_collection`, schema.cxx:538-551, are
calls of these). -/
inductive Cmd where
  | preplaced (name : Name) (typeCode : Nat) (disc sat : Bool) (init : Option (List Nat))
  | opacity (name : Name) (size align : Nat) (init : Option (List Nat))
  | loose (name : Name) (typeCode : Nat) (coll disc sat : Bool)
  | imported (name : Name) (ident : Nat) (init : Option (List Nat)) (renominate : Bool)
  deriving DecidableEq

def Cmd.name : Cmd → Name
  | .preplaced n .. | .opacity n .. | .loose n .. | .imported n .. => n

def exec (s : Sc) : Cmd → Res
  | .preplaced n t d sa i => definePreplaced s n t d sa i
  | .opacity n sz al i => defineOpacity s n sz al i
  | .loose n t c d sa => defineLoose s n t c d sa
  | .imported n t i r => importDefinition s n t i r

/-- A program defining fields one after the other; the log records the accepted definitions: the name and the token that was
returned. An exception is caught and the program goes on. `none`: undefined behaviour. -/
def runFrom (s : Sc) (log : List (Name × Nat)) : List Cmd → Option (Sc × List (Name × Nat))
  | [] => some (s, log)
  | c :: cs =>
    match exec s c with
    | .ok tok s' => runFrom s' (log ++ [(c.name, tok)]) cs
    | .exc _ => runFrom s log cs
    | .lengthError => runFrom s log cs
    | .ub => none

def define (cs : List Cmd) : Option (Sc × List (Name × Nat)) := runFrom .create [] cs

/-- schema.h `boolean_option`: `none` is `option_default`. -/
abbrev BoolOption := Option Bool

/-- schema.cxx:289-304 `get_token_nothrow`; 0 is the invalid token. -/
def getToken (s : Sc) (name : Name) (disc sat : BoolOption) : Nat :=
  match s.n2t.find? (fun p => p.1 == name) with
  | none => 0
  | some p =>
    let t := match disc with | none => p.2 | some v => enforceDiscernible p.2 v
    match sat with | none => t | some v => enforceSaturation t v

/-- schema.cxx:318-327 `get_name_nothrow`. -/
def getName (s : Sc) (ident : Nat) : Option Name :=
  (s.t2n.find? (fun p => tagSame p.1 ident)).map (·.2)

/-- schema.cxx:325: the assertion of `get_name_nothrow`, `name2token_.at(it->second) == ident`. -/
def getNameAsserts (s : Sc) (ident : Nat) : Bool :=
  match getName s ident with
  | none => true
  | some n => match s.n2t.find? (fun p => p.1 == n) with
    | none => false
    | some p => p.2 == ident

/-- schema.cxx:348-357, 399-408: the halving loop of both searches; `less i` is the comparison with the token at `i`. -/
def narrow (less : Nat → Bool) (iter span : Nat) : Nat × Nat :=
  if span > 3 then
    if less (iter + span / 2) then narrow less (iter + span / 2 + 1) (span - span / 2 - 1)
    else narrow less iter (span / 2)
  else (iter, span)
termination_by span
decreasing_by all_goals omega

/-- schema.cxx:359-383: the rest of `search_preplaced`. -/
def linear (less : Nat → Bool) (iter : Nat) : Nat → Nat
  | 0 => iter
  | n + 1 => if less iter then linear less (iter + 1) n else iter

/-- schema.cxx:335-386 `search_preplaced`: an index into the tokens. `offset` is at most `preplaced_bytes()`. -/
def searchPreplaced (s : Sc) (offset : Nat) : Nat :=
  let less := fun i => decide (s.tokens.getD i 0 < offset <<< 18 % 2 ^ 32)
  let p := narrow less 0 s.npre
  linear less p.1 p.2

/-- schema.cxx:410-437: the rest of `by_loose`; `none` is the fall through to `return token()`. -/
def linearLoose (less : Nat → Bool) (iter : Nat) : Nat → Option Nat
  | 0 => none
  | n + 1 => if less iter then linearLoose less (iter + 1) n else some iter

/-- schema.cxx:388-443 `by_loose` of an entry with the descriptor `gid`. -/
def byLoose (s : Sc) (gid : Nat) : Nat :=
  let span := s.tokens.length - s.npre
  if span = 0 then 0
  else
    let key := normalizeTag (makeTagFromDescriptor gid false false false)
    let less := fun i => decide (normalizeTag (s.tokens.getD i 0) < key)
    let p := narrow less s.npre span
    match linearLoose less p.1 p.2 with
    | none => 0
    | some i => if tag2gid (s.tokens.getD i 0) = gid then s.tokens.getD i 0 else 0

/-- schema.cxx:445-456 `by_offset`. -/
def byOffset (s : Sc) (offset : Int) : Nat :=
  if 0 ≤ offset ∧ offset < s.image.length then
    let i := searchPreplaced s offset.toNat
    if i < s.npre ∧ tag2offset (s.tokens.getD i 0) = offset.toNat then s.tokens.getD i 0 else 0
  else 0

/-- schema.cxx:458-473 `next_by_offset`. -/
def nextByOffset (s : Sc) (offset : Int) : Nat :=
  if 0 ≤ offset ∧ offset < s.image.length then
    let i := searchPreplaced s offset.toNat
    if i < s.npre then
      let i := i + nat (tag2offset (s.tokens.getD i 0) == offset.toNat)
      if i < s.npre then s.tokens.getD i 0 else 0
    else 0
  else 0

/-- schema.cxx:475-486 `prev_by_offset`; `none`: the iterator is decremented before the first token, which is undefined
behaviour. -/
def prevByOffset (s : Sc) (offset : Int) : Option Nat :=
  if 0 < offset ∧ offset ≤ s.image.length then
    let i := searchPreplaced s offset.toNat
    if i = 0 then none else some (s.tokens.getD (i - 1) 0)
  else some 0

/-- schema.cxx:515-536 `estimate_tuple_size`; `sizeof(details::stretchy_value_tuple)` is 4. -/
def estimateStep (avg : Nat) (acc : Nat × Nat) (t : Nat) : Nat × Nat :=
  if isPreplaced t then
    let fixed := max acc.1 (tag2offset t + tag2indysize t)
    if tag2genus t = .hole then (fixed, acc.2)
    else (fixed, acc.2 + if isStretchy t then bytes2units avg else 0)
  else (acc.1, acc.2 + 1 + (tag2genus t).looseUnits + if isStretchy t then bytes2units avg else 0)

def estimateTupleSize (tokens : List Nat) (avg : Nat) : Nat :=
  let r := tokens.foldl (estimateStep avg) (4, 0)
  r.1 + units2bytes r.2

end Fptu.Schemas
