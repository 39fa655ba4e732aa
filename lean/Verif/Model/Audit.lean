import Verif.Model.TupleRW
/-!
# Validation of tuples

Model of `src/audit.cxx`. Addresses are unit addresses. Memory outside the validated buffer exists (the process does
not stop when it is read); every unit the validation looks at is recorded in `St.reads`.

Release build: `assert` is absent, `AUDIT_FAILURE(x)` is `(x)` (audit.cxx:33-37).
-/
namespace Fptu.Audit
open Fptu.Gear Fptu.Rw

/-- audit.cxx:41-43 `map_vector`: disjoint intervals of unit offsets in ascending order. -/
abbrev Map := List (Nat × Nat)

/-- audit.cxx:120-168 `map_insert(offset, offset)`. `std::upper_bound(…, end, map_less())` is the first interval that
begins after `end`; the intervals before it are `lo`, and `here` is the last of them. `none` is the result `false`. -/
def mapInsert (M : Map) (b e : Nat) : Option Map :=
  let lo := M.takeWhile fun i => decide (i.1 ≤ e)
  let hi := M.dropWhile fun i => decide (i.1 ≤ e)
  match lo.reverse with
  | [] => some ((b, e) :: hi)
  | here :: before =>
    if here.2 < b then some (lo ++ (b, e) :: hi)
    else if here.1 = e then
      match before with
      | [] => some ((b, here.2) :: hi)
      | prev :: rest =>
        if prev.2 > b then none
        else if prev.2 = b then some (rest.reverse ++ (prev.1, here.2) :: hi)
        else some (before.reverse ++ (b, here.2) :: hi)
    else if b = here.2 then some (before.reverse ++ (here.1, e) :: hi)
    else none

/-- audit.cxx:77-80 `map_begin`, `map_end`. -/
def mapBegin (M : Map) : Nat := match M with | [] => 0 | i :: _ => i.1
def mapEnd (M : Map) : Nat := match M.getLast? with | none => 0 | some i => i.2

/-- State of the validator (audit.cxx:40-113) with the units it has looked at. -/
structure St where
  map : Map
  hc : Nat
  hv : Nat
  reads : List Nat

def St.read (s : St) (a : Nat) : St := { s with reads := a :: s.reads }

/-- Outcome: accepted; rejected with a message; `FPTU_ENSURE` failed (bug.h:131-135). -/
inductive Res where
  | pass (s : St)
  | fail (msg : String) (reads : List Nat)
  | bug (reads : List Nat)

def Res.bind (r : Res) (f : St → Res) : Res :=
  match r with
  | .pass s => f s
  | .fail m r => .fail m r
  | .bug r => .bug r

def Res.reads : Res → List Nat
  | .pass s => s.reads
  | .fail _ r => r
  | .bug r => r

/-- essentials.h:74. -/
def maxFieldBytes : Nat := 4 * 65533
/-- essentials.h:75. -/
def maxFields : Nat := 8191

/-- audit.cxx:170-189 `check_chunk`. -/
def checkChunk (s : St) (cb cu pb pe : Nat) : Res :=
  if cb < pb then .fail "chunk_begin < begin_payload" s.reads
  else if cu > maxFieldBytes then .fail "chunk_units > fptu::max_field_bytes" s.reads
  else if cb + cu > pe then .fail "chunk_end > end_payload" s.reads
  else match mapInsert s.map ((cb - pb) % 65536) ((cb - pb + cu) % 65536) with
    | none => .fail "chunk overlaps with field's payload or hole" s.reads
    | some M => .pass { s with map := M }

/-- audit.cxx:191-225 `check_loose`. -/
def checkLoose (m : Memory) (pb pe : Nat) (a : Nat) (s : St) : Res :=
  let s := s.read a
  let g := cellGenus (m a)
  if g.isInplaced then .pass s
  else if g = .hole then
    let units := Cell.units (m a)
    let s := { s with hc := s.hc + 1 }
    if units = 0 then
      if (m a).lo > 0 then .fail "tuple.pure_hole.payload != null" s.reads else .pass s
    else if (m a).lo = 0 then .fail "tuple.non_pure_hole.payload == null" s.reads
    else checkChunk { s with hv := s.hv + units } (a + (m a).lo) units pb pe
  else if g.isFixed then
    if (m a).lo = 0 then .fail "tuple.fixed_size_loose_field.payload == null" s.reads
    else checkChunk s (a + (m a).lo) g.looseUnits pb pe
  else if (m a).lo > 0 then
    checkChunk (s.read (a + (m a).lo)) (a + (m a).lo) (brutto g m (a + (m a).lo)) pb pe
  else .pass s

/-- audit.cxx:250-254: the entries `lo + n - 1, …, lo`. -/
def scanDown (f : Nat → St → Res) (lo : Nat) : Nat → St → Res
  | 0, s => .pass s
  | n + 1, s => (f (lo + n) s).bind (scanDown f lo n)

/-- The part of `fptu::schema` (schema.h:215-256) the validation uses: `preplaced_bytes()`, `tokens()`.
`number_of_stretchy_preplaced()` is the number of stretchy preplaced tokens (schema.cxx:177). -/
structure Schema where
  bytes : Nat
  tokens : List Nat

def isStretchyPre (t : Nat) : Bool := isPreplaced t && !(tag2genus t).isFixed
def Schema.stretchy (S : Schema) : Nat := (S.tokens.filter isStretchyPre).length

/-- audit.cxx:241, 248-249: `schema ? … : 0`. -/
def preBytesOf (sch : Option Schema) : Nat := match sch with | some S => S.bytes | none => 0
def stretchyOf (sch : Option Schema) : Nat := match sch with | some S => S.stretchy | none => 0

/-- audit.cxx:274-295: the loop over the tokens of the schema. Stretchy preplaced fields are taken to be unit-aligned. -/
def scanPre (m : Memory) (pivot pe : Nat) : List Nat → St → Res
  | [], s => .pass s
  | t :: ts, s =>
    if ¬ isPreplaced t then .pass s
    else if (tag2genus t).isFixed then scanPre m pivot pe ts s
    else
      let a := pivot + tag2offset t / 4
      let s := s.read a
      if (m a).lo = 0 then scanPre m pivot pe ts s
      else (checkChunk (s.read (a + (m a).lo)) (a + (m a).lo) (brutto (tag2genus t) m (a + (m a).lo)) pivot pe).bind
        (scanPre m pivot pe ts)

/-- audit.cxx:324-338: the second pass over the holes; `count` holes were inserted. -/
def scanAdjacent (m : Memory) (lo pb : Nat) : (n : Nat) → (M : Map) → (count : Nat) → St → Res
  | 0, _, _, s => .pass s
  | n + 1, M, count, s =>
    let a := lo + n
    let s := s.read a
    if ¬ Cell.isHole (m a) ∨ Cell.units (m a) = 0 then scanAdjacent m lo pb n M count s
    else
      let b := a + (m a).lo - pb
      let e := b + Cell.units (m a)
      if ¬ (b < e ∧ b ≤ 65535 ∧ e ≤ 65535) then .bug s.reads
      else
        let M' := (mapInsert M b e).getD M
        if count + 1 ≠ M'.length then .fail "tuple have unmerged adjacent holes" s.reads
        else scanAdjacent m lo pb n M' (count + 1) s

/-- `std::is_sorted` of audit.cxx:342-346 over `n` descriptors. -/
def sortedIndex (m : Memory) (lo n : Nat) : Bool :=
  (List.range (n - 1)).all fun i => decide ((m (lo + i)).hi ≤ (m (lo + i + 1)).hi)

/-- audit.cxx:28-33 `audit_flags`. -/
structure Flags where
  sorted : Bool
  havePre : Bool
  adjacent : Bool

/-- audit.cxx:301-310. -/
def presence (fl : Flags) : String :=
  if fl.havePre then "preplaced-flag is ON but corresponding fields absent" else "preplaced-flag is OFF but tuple have hole for ones"

/-- audit.cxx:259-263, 300-350: the checks after the fields were visited. -/
def finish (m : Memory) (ib pivot pe preBytes : Nat) (fl : Flags) (s : St) : Res :=
  (if s.map ≠ [] then
    if fl.havePre ≠ decide (mapBegin s.map > 0) then .fail (presence fl) s.reads
    else if mapBegin s.map ≠ bytes2units preBytes then .fail (presence fl) s.reads
    else if pivot + mapEnd s.map ≠ pe then .fail (if pivot + mapEnd s.map > pe then "allocated beyond end of tuple" else "lose space at the end of tuple") s.reads
    else if s.map.length > 1 then .fail "tuple have unaccounted holes" s.reads
    else if fl.adjacent ∧ s.hc > 1 then scanAdjacent m ib pivot (pivot - ib) [] 0 s
    else .pass s
  else .pass s).bind fun s =>
    if fl.sorted then
      let s := { s with reads := (List.range' ib (pivot - ib)) ++ s.reads }
      if sortedIndex m ib (pivot - ib) then .pass s else .fail "loose fields mis-sorted" s.reads
    else .pass s

/-- audit.cxx:268-296: the preplaced fields. -/
def passPre (sch : Option Schema) (m : Memory) (pivot pe preBytes : Nat) (s : St) : Res :=
  if preBytes ≠ 0 then
    if s.map ≠ [] ∧ bytes2units preBytes > mapBegin s.map then .fail "schema.preplaced > tuple.loose_payload" s.reads
    else if preBytes > 4 * (pe - pivot) then .fail "schema.preplaced > tuple.whole_payload" s.reads
    else match sch with
      | some S => scanPre m pivot pe S.tokens s
      | none => .pass s
  else .pass s

/-- audit.cxx:228-351 `audit_tuple`; on success `hc`, `hv` of the result are `holes_info`. -/
def auditTuple (sch : Option Schema) (m : Memory) (ib pivot pe : Nat) (fl : Flags) : Res :=
  let preBytes := preBytesOf sch
  if pivot - ib + stretchyOf sch > maxFields then .bug []
  else
    (scanDown (checkLoose m pivot pe) ib (pivot - ib) ⟨[], 0, 0, []⟩).bind fun s =>
    if s.hc > 32767 then .fail "tool many holes" s.reads
    else if s.hv > 65535 then .fail "tool large holes volume" s.reads
    else if fl.havePre ∧ sch.isNone then .fail "schema is required for tuples with preplaced fields" s.reads
    else if fl.havePre ≠ decide (preBytes ≠ 0) then .fail "preplaced-fields presence mismatch with schema" s.reads
    else
      (passPre sch m pivot pe preBytes s).bind (finish m ib pivot pe preBytes fl)

/-- audit.cxx:353-378 `inline_lite_checkup` of a buffer of `bytes` bytes at unit 0 (`none` is acceptance). -/
def liteCheckup (m : Memory) (bytes : Nat) : Option String :=
  if bytes < 4 then some "hollow tuple (too short)"
  else if bytes > 4 * 65534 then some "tuple too large"
  else if bytes % 4 ≠ 0 then some "odd tuple size"
  else if bytes ≠ units2bytes (m 0).lo then some "tuple size mismatch"
  else if Nested.indexSize (m 0) > maxFields then some "index too large (many loose fields)"
  else if 1 + Nested.indexSize (m 0) > (m 0).lo then some "tuple.pivot > tuple.end"
  else none

/-- audit.cxx:385-402 `tuple_ro::audit(ptr, bytes, schema, holes_info)`. -/
def auditRo (sch : Option Schema) (m : Memory) (bytes : Nat) : Res :=
  match liteCheckup m bytes with
  | some e => .fail e (if bytes < 4 ∨ bytes > 4 * 65534 ∨ bytes % 4 ≠ 0 then [] else [0])
  | none =>
    (auditTuple sch m 1 (1 + Nested.indexSize (m 0)) (m 0).lo
      ⟨Nested.isSorted (m 0), Nested.havePreplaced (m 0), false⟩).bind fun s => .pass (s.read 0)

/-- audit.cxx:404-449 `tuple_rw::audit`. -/
def auditRw (sch : Option Schema) (s : RW) : Res :=
  if s.head > s.pivot then .fail "tuple.head > tuple.pivot" []
  else if s.pivot > s.tail then .fail "tuple.pivot > tuple.tail" []
  else if s.tail > s.lim then .fail "tuple.tail > tuple.end" []
  else if s.lim > 65534 then .fail "tuple.end > fptu::max_tuple_bytes" []
  else if s.pivot - s.head > maxFields then .fail "tuple.loose_fields > fptu::max_fields" []
  else if s.jc > s.pivot - s.head then .fail "tuple.junk.holes_count > tuple.index_size" []
  else if s.jv > s.tail - s.pivot then .fail "tuple.junk.data_units > tuple.payload_size" []
  else
    (auditTuple sch s.mem s.head s.pivot s.tail
      ⟨false, decide (preBytesOf sch > 0), true⟩).bind fun st =>
    if s.jc ≠ st.hc % 65536 then .fail (if s.jc ≠ 0 then "tuple.holes_count mismatch" else "tuple have holes") st.reads
    else if s.jv ≠ st.hv % 65536 then .fail (if s.jv ≠ 0 then "tuple.junk_volume mismatch" else "tuple have unaccounted holes") st.reads
    else .pass st

end Fptu.Audit
