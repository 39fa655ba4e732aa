import Verif.Model.Grow
import Verif.Model.Iterate
/-!
# Scales and default settings

Model of `src/managed.cxx:18-112` and `fast_positive/tuples.h:157-198`: creating and opening of tuples at a scale, and the
settings kept in the static members of `defaults`.
-/
namespace Fptu.Defaults
open Fptu.Gear Fptu.Rw Fptu.Audit Fptu.Serial Fptu.Grow

/-- managed.cxx:34-40, 48-54 `scale2items`, `scale2more`. -/
def scalesMore : List (Nat × Nat) :=
  [(32, (maxBytesNetto - 4 * Audit.maxFields) / 256), (128, (maxBytesNetto - 4 * Audit.maxFields) / 64),
   (512, (maxBytesNetto - 4 * Audit.maxFields) / 16), (2048, (maxBytesNetto - 4 * Audit.maxFields) / 4),
   (8191, maxBytesNetto - 4 * Audit.maxFields)]

/-- managed.cxx:72-80: the constructor of an empty tuple at a scale; `scale2bytes` is passed as it is. An index above `extreme` reads
outside of the tables: `none`. -/
def createScaled (overhead : Nat) (mem : Memory) (scale preBytes extra : Nat) (image : List Cell) : Option (Except Exc RW) :=
  (scales[scale]?).map fun sc => createNew overhead mem sc.1 sc.2 preBytes extra image

/-- managed.cxx:92-104 (and 106-135): opening of the serialized tuple `ro` for changing at a scale. -/
def openScaled (overhead : Nat) (mem : Memory) (hc hv : Nat) (ro : Memory) (scale preBytes extra : Nat) : Option (Except Exc RW) :=
  (scalesMore[scale]?).map fun sc => createFromRo overhead mem hc hv ro sc.1 sc.2 preBytes extra

/-- managed.cxx:55-63 `estimate_space_for_tuple` by the number of the scale. -/
def spaceScaled (overhead scale preBytes : Nat) : Option (Except Exc Nat) :=
  (scales[scale]?).map fun sc => scaleSpace overhead preBytes sc

/-- What a tuple is made with. Schemas are known by numbers, `none` is the null pointer. A tuple keeps the pointer only, rw.h:216. -/
structure Made where
  scale : Nat
  schema : Option Nat
  tag : Nat
deriving DecidableEq, Repr

/-- managed.cxx:22-24, tuples.h:174-186: the static members, the schemas destroyed so far and the tuples made so far. -/
structure Lib where
  now : Made
  dead : List Nat
  tuples : List Made
deriving DecidableEq, Repr

/-- managed.cxx:22-24: the settings before `main`; `dflt` is `hippeus::default_allot_tag()`. -/
def start (dflt : Nat) : Lib := ⟨⟨0, none, dflt⟩, [], []⟩

/-- What a program does. -/
inductive Call where
  /-- `defaults::setup` with a schema handed over by `std::unique_ptr`. -/
  | setup (scale : Nat) (schema : Option Nat) (tag : Nat)
  /-- A tuple with all the default settings. -/
  | byDefault
  /-- A tuple at a scale. -/
  | atScale (scale : Nat)
  /-- A tuple with everything given. -/
  | explicit (m : Made)
  /-- An operation on a tuple which looks into its schema. -/
  | use (i : Nat)
deriving DecidableEq, Repr

/-- `std::unique_ptr::operator=`: the schema held before is destroyed, unless it is the one assigned. -/
def replaced (old new : Option Nat) : List Nat :=
  match old with
  | none => []
  | some k => if new = some k then [] else [k]

/-- A schema which still exists. -/
def exists? (L : Lib) : Option Nat → Bool
  | none => true
  | some k => !L.dead.contains k

/-- managed.cxx:26-32 `setup`, 67-84: the constructors. `none`: use of a destroyed schema. Making a tuple reads the schema
(rw.h:1150-1170, 203-207). -/
def stepLib (dflt : Nat) (L : Lib) : Call → Option Lib
  | .setup scale schema tag =>
    if exists? L schema then
      some { L with now := ⟨scale, schema, if tag ≠ 0 then tag else dflt⟩, dead := replaced L.now.schema schema ++ L.dead }
    else none
  | .byDefault => if exists? L L.now.schema then some { L with tuples := L.tuples ++ [L.now] } else none
  | .atScale scale =>
    if exists? L L.now.schema then some { L with tuples := L.tuples ++ [⟨scale, L.now.schema, L.now.tag⟩] } else none
  | .explicit m => if exists? L m.schema then some { L with tuples := L.tuples ++ [m] } else none
  | .use i => match L.tuples[i]? with
    | none => some L
    | some m => if exists? L m.schema then some L else none

/-- A program, from given settings on. -/
def runFrom (dflt : Nat) : Lib → List Call → Option Lib
  | L, [] => some L
  | L, c :: cs => (stepLib dflt L c).bind fun L => runFrom dflt L cs

/-- tuples.h:338-348 `cbegin()`, `cend()` of a read-only tuple without an argument, and the loop between them: the schema is the default one of the
moment, `dflt`. The tuple `s` is the serialized form, which knows of no schema. -/
def walkDefault (dflt : Option Schemas.Sc) (s : RW) (fuel : Nat) : Option (List Int) :=
  Iter.forward s dflt fuel (Iter.beginPos s dflt)

end Fptu.Defaults
