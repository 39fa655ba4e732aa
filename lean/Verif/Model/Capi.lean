import Verif.Model.Tags
/-!
# Legacy C API: filters, counting, erasing loops, binary comparison

Model of `src/compat_common.cxx` and of the comparison helpers of
`fast_positive/tuples/details/legacy_compat.h`.

The loose index is a function from positions to `genus_and_id` words (16-bit); positions are unit
addresses, `b`/`e` the begin/end of the index.
-/
namespace Fptu.Capi

/-- essentials.h `descriptor2genus`/`descriptor2id` on a `genus_and_id` word. -/
def dGenus (g : Nat) : Nat := g >>> 11
def dId (g : Nat) : Nat := g &&& maxIdent
def isHole (g : Nat) : Bool := dGenus g == 31

/-- compat_common.cxx:59-61 `is_filter`; `fptu_flag_not_filter = 1 << 31` (legacy.h:255). -/
def isFilter (tf : Nat) : Bool := if (tf &&& 2 ^ 31) != 0 then false else true

/-- compat_common.cxx:63-67 `colid2tag`. -/
def colid2tag (legacyType column : Nat) : Nat := (legacyType + (column <<< 0)) % 2 ^ 32

/-- legacy.h:264-266 `fptu_filter_mask`; legacy_compat.h:33-35 `legacy_type`. -/
def filterMask (g : Nat) : Nat :=
  1 <<< tag2genusCode (makeTag (Genus.ofCode (dGenus g)) 0 true true false)

/-- compat_common.cxx:69-75 `match`. -/
def matchField (g column tf : Nat) : Bool :=
  !isHole g && dId g == column && (tf &&& filterMask g) != 0

/-- details::lookup as its specification (every implementation is proved to compute this, C03):
first position in `[b, e)` whose word equals the low 16 bits of the tag. -/
def lookup (idx : Nat → Nat) (b e tag : Nat) : Option Nat :=
  if b < e then (if idx b = tag % 65536 then some b else lookup idx (b + 1) e tag) else none
termination_by e - b

/-- compat_common.cxx:87-91 the filter loop of `fptu_first`. -/
def firstFilter (idx : Nat → Nat) (pf e column tf : Nat) : Nat :=
  if pf < e then (if matchField (idx pf) column tf then pf else firstFilter idx (pf + 1) e column tf)
  else e
termination_by e - pf

/-- compat_common.cxx:76-92 `fptu_first`. -/
def first (idx : Nat → Nat) (b e column tf : Nat) : Nat :=
  if isFilter tf then firstFilter idx b e column tf
  else (lookup idx b e (colid2tag tf column)).getD e

/-- compat_common.cxx:94-98 `fptu_next`. -/
def next (idx : Nat → Nat) (frm e column tf : Nat) : Nat := first idx (frm + 1) e column tf

/-- compat_common.cxx:100-111 `fptu_first_ex` with a callback. -/
def firstEx (idx : Nat → Nat) (f : Nat → Bool) (pf e : Nat) : Nat :=
  if pf < e then
    (if isHole (idx pf) then firstEx idx f (pf + 1) e
     else if f pf then pf else firstEx idx f (pf + 1) e)
  else e
termination_by e - pf

/-- compat_common.cxx:113-118 `fptu_next_ex`. -/
def nextEx (idx : Nat → Nat) (f : Nat → Bool) (frm e : Nat) : Nat := firstEx idx f (frm + 1) e

/-- The loop `for (pf = first; pf != end; pf = next(pf)) visit(pf)` shared by `count` (122-130),
`fptu_erase` (172-179) and user code, as the list of visited positions; `fuel` bounds the number of
iterations and `none` means the loop ran out of it (it never does, see `visit_fuel`). -/
def visit (nextf : Nat → Nat) (e : Nat) : Nat → Nat → Option (List Nat)
  | _, 0 => none
  | pf, fuel + 1 =>
    if pf = e then some [] else (visit nextf e (nextf pf) fuel).map (pf :: ·)

/-- compat_common.cxx:122-130 `count` (positions visited; the count is the length). -/
def visited (idx : Nat → Nat) (b e column tf fuel : Nat) : Option (List Nat) :=
  visit (fun p => next idx p e column tf) e (first idx b e column tf) fuel

/-- compat_common.cxx:132-141 `count_ex`. -/
def visitedEx (idx : Nat → Nat) (f : Nat → Bool) (b e fuel : Nat) : Option (List Nat) :=
  visit (fun p => nextEx idx f p e) e (firstEx idx f b e) fuel

/-- compat_common.cxx:163-182 `fptu_erase`: positions handed to `fptu_erase_field`, or `-EINVAL`.
Erasing turns the entry at the position into a hole and does not move other live entries. -/
def erased (idx : Nat → Nat) (b e column tf fuel : Nat) : Option (Except Exc (List Nat)) :=
  if column > maxIdent then some (.error .invalidArgument)
  else (visited idx b e column tf fuel).map fun l => .ok (if isFilter tf then l else l.take 1)

/-! ## Binary comparison -/

/-- `std::memcmp` on byte lists: difference of the first unequal bytes (only the sign is used). -/
def memcmp : List Nat → List Nat → Int
  | a :: as, b :: bs => if a = b then memcmp as bs else (a : Int) - b
  | _, _ => 0

/-- legacy_compat.h:155-157 `cmp2int`. -/
def cmp2int (l r : Nat) : Int := if r > l then -1 else if l > r then 1 else 0

inductive Lge where
  | lt | eq | gt
deriving DecidableEq, Repr

/-- legacy_compat.h:127-136 `cmp2lge`, `diff2lge`. -/
def diff2lge (d : Int) : Lge := if d = 0 then .eq else if d < 0 then .lt else .gt

/-- compat_common.cxx:249-256 `fptu_cmp_binary`. -/
def cmpBinary (l r : List Nat) : Lge :=
  let n := min l.length r.length
  let diff := memcmp (l.take n) (r.take n)
  let diff := if diff = 0 then cmp2int l.length r.length else diff
  diff2lge diff

end Fptu.Capi
