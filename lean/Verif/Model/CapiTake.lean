import Verif.Model.Compact
import Verif.Model.Audit
/-!
# Legacy C API: room, defragmentation and the serialized form

Model of `src/compat_rw.cxx:67-98`, `src/compat_ro.cxx:20-24`, `details/ro.h:540-553` and the inline functions of
`fast_positive/tuples/legacy.h:385-405`. Tuples of the C API have no schema.
-/
namespace Fptu.CapiTake
open Fptu.Gear Fptu.Rw Fptu.Audit Fptu.Serial Fptu.Compact

/-- compat_rw.cxx:67-69. -/
def space4items (s : RW) : Nat := headSpace s
/-- compat_rw.cxx:71-73. -/
def space4data (s : RW) : Nat := tailSpaceBytes s
/-- compat_rw.cxx:75-77. -/
def junkspace (s : RW) : Nat := junkBytes s

/-- compat_rw.cxx:91-98 `fptu_shrink`: `optimize` with its default flags (rw.h:1063, 1072); an exception is answered by true. `guard` and
`presized` are the two defects of `optimize` (`Model/Compact.lean`). -/
def shrinkWith (guard presized : Bool) (srt : List Item → List Item) (gsrt : List Cell → List Cell) (s : RW) : Out Bool :=
  match optimizeWith guard presized srt gsrt (fun _ => none) ⟨true, true, false⟩ s with
  | .exc _ t => .ok true t
  | r => r

/-- `fptu_shrink` as it is. -/
def shrink (srt : List Item → List Item) (gsrt : List Cell → List Cell) : RW → Out Bool := shrinkWith false true srt gsrt

/-- legacy.h:393-395 `fptu_cond_shrink`. -/
def condShrink (srt : List Item → List Item) (gsrt : List Cell → List Cell) (s : RW) : Out Bool :=
  if junkspace s > 0 then shrink srt gsrt s else .ok false s

/-- compat_rw.cxx:83-89 `fptu_take_noshrink`: the units and the length in bytes, which is `tuple_ro::size`. -/
def takeNoshrink (s : RW) : Memory × Nat := (takeAsis none s, 4 * (takeAsis none s 0).lo)

/-- legacy.h:402-405 `fptu_take`. -/
def take (srt : List Item → List Item) (gsrt : List Cell → List Cell) (s : RW) : Out (Memory × Nat) :=
  (condShrink srt gsrt s).bind fun _ t => .ok (takeNoshrink t) t

/-- compat_ro.cxx:20-24 `fptu_check_ro_ex`: true is the null pointer, no trouble. `none`: the assertion of ro.h:550 fails or the
process ends by an exception out of a `noexcept` function. -/
def checkRoEx (ro : Memory × Nat) (holesAreNotAllowed : Bool) : Option Bool :=
  match auditRo none ro.1 ro.2 with
  | .pass st =>
    if holesAreNotAllowed then
      if st.hc ≠ 0 then some false else if st.hv = 0 then some true else none
    else some true
  | .fail .. => some false
  | .bug _ => none

end Fptu.CapiTake
