import Verif.Model.Audit
/-!
# Creation, serialization and re-creation of tuples, size queries

Model of `src/rw.cxx:609-796` and `fast_positive/tuples/details/rw.h:192-209, 1093-1196`.

Simplifications: memory allocation always succeeds; the buffer provided for a request of `n` bytes has any size `≥ n`
(`hippeus::buffer::borrow` may give more). `overhead` is `tuple_rw::pure_tuple_size()` (44 on 64-bit platforms); the
theorems hold for every value.
-/
namespace Fptu.Serial
open Fptu.Gear Fptu.Rw Fptu.Audit

/-- essentials.h:70-79. -/
def maxUnitsNetto : Nat := 65534
def maxBytesNetto : Nat := 4 * 65534
def bufLimit : Nat := 2 * (4 * 65534)

/-- rw.h:1150-1174 `estimate_required_space(items, data_bytes, schema, dont_account_preplaced)`. -/
def estimate (overhead items data preBytes : Nat) (dontAccount : Bool) : Except Exc Nat :=
  if preBytes > maxBytesNetto then .error .schemaBadDefinition
  else if data > maxBytesNetto - preBytes ∨ items > Audit.maxFields then .error .tupleTooLarge
  else .ok (overhead + items * 4 + ((if dontAccount then data else data + preBytes) + 3) / 4 * 4)

/-- rw.h:1177-1196 `estimate_required_space(ro, more_items, more_payload, schema)`. -/
def estimateRo (overhead : Nat) (hdr : Cell) (moreItems moreData preBytes : Nat) : Except Exc Nat :=
  if moreItems > Audit.maxFields then .error .invalidArgument
  else if moreData > maxBytesNetto then .error .invalidArgument
  else estimate overhead (min Audit.maxFields (Nested.indexSize hdr + moreItems))
    (min maxBytesNetto (4 * (hdr.lo - 1 - Nested.indexSize hdr) + moreData)) preBytes true

/-- rw.h:192-209: the constructor in a buffer of `size` bytes. `image` are the units of the preplaced area after copying
the initial image (which may end inside of the last unit). -/
def construct (overhead : Nat) (mem : Memory) (size items preBytes : Nat) (image : List Cell) : Except Exc RW :=
  (estimate overhead items 0 preBytes false).bind fun required =>
  if required > size ∨ size > bufLimit then .error .invalidArgument
  else .ok (create mem items (bytes2units preBytes) (min maxUnitsNetto ((size - overhead) / 4)) image)

/-- rw.cxx:663-684 `create_new`; the allocator hands out `extra` more bytes than requested. -/
def createNew (overhead : Nat) (mem : Memory) (items data preBytes extra : Nat) (image : List Cell) : Except Exc RW :=
  (estimate overhead items data preBytes false).bind fun size =>
  construct overhead mem (size + extra) items preBytes image

/-- rw.cxx:609-626 `reset`. -/
def reset (s : RW) (image : List Cell) : Except Exc RW :=
  if s.pivot < 1 ∨ s.pivot > Audit.maxFields ∨ s.pivot > s.lim ∨ s.lim > bufLimit / 4 then .error .tupleBad
  else if s.pre > s.lim - s.pivot then .error .tupleBad
  else .ok { s with jc := 0, jv := 0, head := s.pivot, tail := s.pivot + s.pre, mem := s.mem.writeCells s.pivot image }

/-- rw.h:192-209: the constructor for a schema with the initial image `image`, byte by byte: `std::memcpy` copies exactly the bytes of
the image, the rest of the last unit of the preplaced area keeps what was in the buffer. (`number_of_preplaced()` is zero only when
the image is empty.) -/
def createFor (mem : Memory) (items lim : Nat) (image : List Nat) : RW :=
  { mem := mem.writeBytes (4 * items) image, head := items, pivot := items, pre := bytes2units image.length,
    tail := items + bytes2units image.length, lim := lim, jc := 0, jv := 0 }

/-- rw.cxx:663-684 `create_new` and rw.h:192-209 for a schema with the initial image `image`. -/
def createNewFor (overhead : Nat) (mem : Memory) (items data extra : Nat) (image : List Nat) : Except Exc RW :=
  (estimate overhead items data image.length false).bind fun size =>
  (estimate overhead items 0 image.length false).bind fun required =>
  if required > size + extra ∨ size + extra > bufLimit then .error .invalidArgument
  else .ok (createFor mem items (min maxUnitsNetto ((size + extra - overhead) / 4)) image)

/-- rw.cxx:609-626 `reset` of a tuple whose schema has the initial image `image`. -/
def resetFor (s : RW) (image : List Nat) : Except Exc RW :=
  if s.pivot < 1 ∨ s.pivot > Audit.maxFields ∨ s.pivot > s.lim ∨ s.lim > bufLimit / 4 then .error .tupleBad
  else if bytes2units image.length > s.lim - s.pivot then .error .tupleBad
  else .ok (createFor s.mem s.pivot s.lim image)

/-- field.h:157-163: `tuple_flags`. -/
def preplacedFlag : Nat := 2

/-- rw.cxx:628-646 `take_asis`: the units of the read-only form, the header being unit 0. The header is stored in front of
the index, at `area_[head_ - 1]`, which for `head_ = 0` is `reserve_for_RO_header`. `is_sorted()` is always false
(rw.h:1140-1143). The size field is cut to 16 bits. -/
def takeAsis (sch : Option Schema) (s : RW) : Memory := fun u =>
  if u = 0 then Nested.header (s.tail - s.head + 1) (s.pivot - s.head) (if preBytesOf sch > 0 then preplacedFlag else 0)
  else s.mem (s.head + (u - 1))

/-- rw.cxx:691-741: the copying constructor from a read-only tuple `ro` (header at unit 0) into a buffer of `size` bytes
whose contents are `mem`; `hc`, `hv` are the reported holes. -/
def constructRo (overhead : Nat) (mem : Memory) (hc hv : Nat) (ro : Memory) (size moreItems preBytes : Nat) : Except Exc RW :=
  if moreItems > Audit.maxFields then .error .invalidArgument
  else if size > bufLimit then .error .invalidArgument
  else
    let have_ := Nested.indexSize (ro 0)
    let payload := (ro 0).lo - 1 - have_
    let reserve := min Audit.maxFields (have_ + moreItems)
    (estimate overhead reserve (4 * payload) preBytes true).bind fun needed =>
    if size < needed then .error (.insufficientSpace reserve needed)
    else .ok { mem := mem.writeCells (reserve - have_) (ro.readCells 1 ((ro 0).lo - 1)),
               head := reserve - have_, pivot := reserve, pre := bytes2units preBytes, tail := reserve + payload,
               lim := min maxUnitsNetto ((size - overhead) / 4), jc := hc % 65536, jv := hv % 65536 }

/-- rw.cxx:743-771 `create_from_ro`. -/
def createFromRo (overhead : Nat) (mem : Memory) (hc hv : Nat) (ro : Memory) (moreItems moreData preBytes extra : Nat) : Except Exc RW :=
  (estimateRo overhead (ro 0) moreItems moreData preBytes).bind fun size =>
  constructRo overhead mem hc hv ro (size + extra) moreItems preBytes

/-- rw.h:1093-1135: size queries. -/
def headSpace (s : RW) : Nat := s.head
def tailSpaceUnits (s : RW) : Nat := s.lim - s.tail
def tailSpaceBytes (s : RW) : Nat := units2bytes (tailSpaceUnits s)
def junkUnits (s : RW) : Nat := s.jv + s.jc
def junkBytes (s : RW) : Nat := units2bytes (junkUnits s)
def isEmpty (s : RW) : Bool := s.head + s.jc == s.tail
def indexSize (s : RW) : Nat := s.pivot - s.head
def payloadUnits (s : RW) : Nat := s.tail - s.pivot
def payloadBytes (s : RW) : Nat := units2bytes (payloadUnits s)
def looseCount (s : RW) : Nat := indexSize s - s.jc
def bruttoSize (s : RW) : Nat := units2bytes (s.tail - s.head + 1)
/-- rw.h:1130-1132: subtracts units from bytes. -/
def nettoSize (s : RW) : Nat := bruttoSize s - junkUnits s
def capacity (s : RW) : Nat := units2bytes s.lim

end Fptu.Serial
