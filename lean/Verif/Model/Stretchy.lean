import Verif.Model.Cells
import Verif.Model.Tags
/-!
# Encodings of variable-length values

Model of `stretchy_value_string`, `stretchy_value_varbin`, `stretchy_value_property` and
`stretchy_value_tuple` from `fast_positive/tuples/details/field.h`. `p` is the unit address of the payload.
Values are byte lists; the source of `memcpy` is assumed not to overlap the destination.
-/
namespace Fptu


namespace Str
def tinyThreshold : Nat := 254
/-- field.h:40 `max_length = UINT16_MAX * 2 + UINT8_MAX`. -/
def maxLength : Nat := 65535 * 2 + 255

/-- `pool_tag`: the unit read as a 32-bit number (field.h:50). -/
def poolTag (m : Memory) (p : Nat) : Nat :=
  m.byte (4 * p) + 256 * m.byte (4 * p + 1) + 65536 * m.byte (4 * p + 2) + 16777216 * m.byte (4 * p + 3)
/-- field.h:53-55. -/
def isPoolTag (m : Memory) (p : Nat) : Bool := m.byte (4 * p) == 0 && decide (poolTag m p > 0)
/-- field.h:56-58. -/
def isTiny (m : Memory) (p : Nat) : Bool := decide (m.byte (4 * p) < tinyThreshold)
/-- `large.length_suffix`: packed 16-bit field at byte 1 (field.h:45-49). -/
def suffix (m : Memory) (p : Nat) : Nat := m.byte (4 * p + 1) + 256 * m.byte (4 * p + 2)
/-- field.h:59-62. -/
def length (m : Memory) (p : Nat) : Nat :=
  if isTiny m p then m.byte (4 * p) else m.byte (4 * p) + suffix m p * 2
/-- field.h:63-67. -/
def bruttoUnits (m : Memory) (p : Nat) : Nat :=
  bytes2units (if isTiny m p then 1 + m.byte (4 * p) else 3 + m.byte (4 * p) + suffix m p * 2)
/-- field.h:69-77. -/
def estimate (n : Nat) : Except Exc Nat :=
  if n > maxLength then .error .valueTooLong
  else .ok (bytes2units (n + if n < tinyThreshold then 1 else 3))
/-- field.h:79-99. -/
def store (m : Memory) (p : Nat) (v : List Nat) : Memory :=
  let n := v.length
  let m := m.set (p + (bytes2units (n + if n < tinyThreshold then 1 else 3) - 1)) .zero
  let m := m.setByte (4 * p) (n % 256)
  if n ≥ tinyThreshold then
    let prefix_ := (tinyThreshold + n % 2) % 256
    let m := m.setByte (4 * p) prefix_
    let suf := ((n - prefix_) / 2) % 65536
    let m := m.setByte (4 * p + 1) (suf % 256)
    let m := m.setByte (4 * p + 2) (suf / 256)
    m.writeBytes (4 * p + 3) v
  else m.writeBytes (4 * p + 1) v
/-- field.h:101-104: byte address of the first character. -/
def begin_ (m : Memory) (p : Nat) : Nat := 4 * p + if isTiny m p then 1 else 3
/-- meta.h:481-487 `genus_traits<text>::read`; `none` is the string-pool placeholder. -/
def read (m : Memory) (p : Nat) : Option (List Nat) :=
  if isPoolTag m p then none else some (m.readBytes (begin_ m p) (length m p))
end Str

namespace Varbin
/-- field.h:120-125 (`constexpr_assert` is absent in release builds; `size_t` wraps around when the header is zero). -/
def length (m : Memory) (p : Nat) : Nat :=
  if (m p).lo = 0 then 2 ^ 64 - 4 + (m p).hi % 4 else units2bytes (m p).lo - 4 + (m p).hi % 4
/-- `brutto_units` member (field.h:115). -/
def bruttoUnits (m : Memory) (p : Nat) : Nat := (m p).lo
/-- field.h:127-132. -/
def estimate (n : Nat) : Except Exc Nat :=
  let brutto := bytes2units n + 1
  if brutto > 65535 then .error .valueTooLong else .ok brutto
/-- field.h:134-147. -/
def store (m : Memory) (p : Nat) (v : List Nat) : Memory :=
  let n := v.length
  let brutto := bytes2units n + 1
  let m := m.set (p + (brutto - 1)) .zero
  let m := m.set p ⟨brutto % 65536, (m p).hi⟩
  let m := m.set p ⟨(m p).lo, n % 4⟩
  m.writeBytes (4 * (p + 1)) v
/-- meta.h:512-517 `genus_traits<varbin>::read`, field.h:149-152 `begin`. -/
def read (m : Memory) (p : Nat) : List Nat := m.readBytes (4 * (p + 1)) (length m p)
end Varbin

namespace Property
/-- field.h:263-270. -/
def wholeLength (m : Memory) (p : Nat) : Nat := 2 + m.byte (4 * p)
def bruttoUnits (m : Memory) (p : Nat) : Nat := bytes2units (wholeLength m p)
/-- field.h:272-277. -/
def estimate (n : Nat) : Except Exc Nat :=
  if n > 255 then .error .valueTooLong else .ok (bytes2units (n + 2))
/-- field.h:279-288. -/
def store (m : Memory) (p : Nat) (v : List Nat) (id : Nat) : Memory :=
  let n := v.length
  let m := m.set (p + (bytes2units (n + 2) - 1)) .zero
  let m := m.setByte (4 * p) (n % 256)
  let m := m.setByte (4 * p + 1) id
  m.writeBytes (4 * p + 2) v
/-- meta.h `genus_traits<property>::read`: the bytes and the identifier. -/
def read (m : Memory) (p : Nat) : List Nat × Nat :=
  (m.readBytes (4 * p + 2) (m.byte (4 * p)), m.byte (4 * p + 1))
end Property

namespace Nested
/-- field.h:181-185 `set_index_size_and_flags` and 186-197 its readers. -/
def header (brutto count flags : Nat) : Cell := ⟨brutto % 65536, (count * 8 + flags) % 65536⟩
def indexSize (c : Cell) : Nat := c.hi / 8
def isSorted (c : Cell) : Bool := c.hi % 2 == 1
def havePreplaced (c : Cell) : Bool := c.hi / 2 % 2 == 1
/-- field.h:199-202. A tuple is given by its units; `none` is `nullptr`. -/
def estimate : Option (List Cell) → Nat
  | none => 0
  | some v => (v.headD .zero).lo
/-- field.h:204-212. -/
def store (m : Memory) (p : Nat) (v : Option (List Cell)) : Memory :=
  let m := m.set p .zero
  match v with
  | none => m
  | some v => m.writeCells p (v.take (v.headD .zero).lo)
/-- `tuple.brutto_units` (field.h:310-311). -/
def bruttoUnits (m : Memory) (p : Nat) : Nat := (m p).lo
/-- field.h:179-181. -/
def length (m : Memory) (p : Nat) : Nat := units2bytes (m p).lo
/-- the units of the stored tuple. -/
def read (m : Memory) (p : Nat) : List Cell := m.readCells p (m p).lo
end Nested

end Fptu
