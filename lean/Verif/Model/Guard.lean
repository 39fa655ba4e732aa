import Verif.Model.Tags
/-!
# Guard marks around buffers

Model of `src/1Hippeus/hipagut.cxx`, `1Hippeus/hipagut.h`, of the allocation and release of the guarded allocator
(`1Hippeus/hipagut_allocator.h`), of the default allocator of buffers (`src/1Hippeus/allot_stdcxx.cxx`) and of the creation,
validation and release of its buffers (`src/1Hippeus/buffer.cxx`). Memory is a function from addresses to bytes; 64-bit
little-endian. The clock is an argument. Not modelled: the counting of references by several owners (Model/Buffer), the page probes of
deep checking, buffers with separate payload, the address returned by `operator new` (an argument).
-/
namespace Fptu.Guard

/-- hipagut.cxx:63-69 `mixup`. -/
def mixup (ticks signature : Nat) : Nat :=
  let mesh := 0xD0C3DFD7 * ((ticks + signature) % 2 ^ 32)
  (mesh ^^^ (mesh >>> 32)) % 2 ^ 32

/-- hipagut.cxx:72-74 `fairly`. -/
def fairly (value : Nat) : Bool := decide (value < 0xFFFF0000 ∧ value > 0x0000FFFF)

/-- hipagut.h:72-77 `hippeus_hipagut`. -/
structure Mark where
  chirp : Nat
  mesh : Nat
  deriving DecidableEq

/-- hipagut.cxx:88, one round of the search. -/
def nextChirp (chirp : Nat) : Nat := (chirp * 1664525 + 1013904223) % 2 ^ 32

/-- hipagut.cxx:79-89, the loop of `hipagut_setup` with at most `rounds` rounds; `none` when it has not finished. -/
def search : Nat → Nat → Nat → Option Mark
  | 0, _, _ => none
  | rounds + 1, chirp, signature =>
    if fairly chirp = true ∧ fairly (mixup chirp signature) = true then some ⟨chirp, mixup chirp signature⟩
    else search rounds (nextChirp chirp) signature

/-- hipagut.cxx:76-90 `hipagut_setup` with the value of the clock; `none` when it does not finish within 2^32 rounds. -/
def setup (ticks signature : Nat) : Option Mark := search (2 ^ 32) (ticks % 2 ^ 32) signature

/-- hipagut.cxx:94-107 `hipagut_probe`; `off` tells whether checks are disabled by `hipagut_nasty_disabled`. -/
def probe (off : Bool) (gizmo : Mark) (signature : Nat) : Bool :=
  if off then true
  else if !fairly gizmo.chirp then false
  else if !fairly gizmo.mesh then false
  else gizmo.mesh == mixup gizmo.chirp signature

/-- hipagut.h:107-112 `hipagut_drown`: the low half of the constant is `random_chirp`. -/
def drowned : Mark := ⟨0xDEADB0D1F % 2 ^ 32, 0xDEADB0D1F / 2 ^ 32⟩

/-- hipagut.h:80-85 `operator"" _hipagut`; characters are below 128. -/
def label (str : List Nat) : Nat := str.foldl (fun h c => c ^^^ ((h * 1664525 + 1013904223) % 2 ^ 32)) 81

/-- Signatures of the labels `chkU`, `chkO` (hipagut_allocator.h:145-146), `head`, `under`, `over` (buffer.cxx:134-137). -/
def chkU : Nat := label [0x63, 0x68, 0x6B, 0x55]
def chkO : Nat := label [0x63, 0x68, 0x6B, 0x4F]
def head : Nat := label [0x68, 0x65, 0x61, 0x64]
def under : Nat := label [0x75, 0x6E, 0x64, 0x65, 0x72]
def over : Nat := label [0x6F, 0x76, 0x65, 0x72]

/-- Bytes by address. -/
abbrev Mem := Nat → Nat

/-- Load of `n` bytes, little-endian. -/
def load (m : Mem) (a : Nat) : Nat → Nat
  | 0 => 0
  | n + 1 => m a % 256 + 256 * load m (a + 1) n

/-- Store of `n` bytes, little-endian. -/
def store (m : Mem) (a n v : Nat) : Mem := fun x => if a ≤ x ∧ x < a + n then v / 256 ^ (x - a) % 256 else m x

/-- The mark at an address. -/
def markAt (m : Mem) (a : Nat) : Mark := ⟨load m a 4, load m (a + 4) 4⟩

/-- Store of a mark. -/
def putMark (m : Mem) (a : Nat) (k : Mark) : Mem := store (store m a 4 k.chirp) (a + 4) 4 k.mesh

/-- hipagut_allocator.h:53-55 `hipagut_gap`, in items of `size` bytes. -/
def gap (size : Nat) : Nat := (8 + size - 1) / size

/-- What a guarded allocation returns: the address and the memory with both marks, and the bytes it took from the base allocator. -/
structure Taken where
  mem : Mem
  ptr : Nat
  rawAt : Nat
  rawBytes : Nat

/-- hipagut_allocator.h:138-150 `allocate` of `n` items of `size` bytes; the base allocator returns `raw`. `none`: the null pointer or
(not reached, see Props/Guard) a search that does not finish. -/
def allocate (m : Mem) (size maxSize n raw ticksU ticksO : Nat) : Option Taken :=
  if n = 0 ∨ n > maxSize - gap size * 2 then none
  else
    let ptr := raw + gap size * size
    match setup ticksU chkU, setup ticksO chkO with
    | some u, some o => some ⟨putMark (putMark m (ptr - 8) u) (ptr + n * size) o, ptr, raw, (n + gap size * 2) * size⟩
    | _, _ => none

/-- Results of a release: the memory and the bytes given back to the base allocator, or a detected violation
(`FPTU_RAISE_BUG`). -/
inductive Released where
  | ok (mem : Mem) (rawAt rawBytes : Nat)
  | bug

/-- hipagut_allocator.h:153-167 `deallocate` of `n > 0` items. -/
def deallocate (off : Bool) (m : Mem) (size p n : Nat) : Released :=
  if !probe off (markAt m (p - 8)) chkU then .bug
  else if !probe off (markAt m (p + n * size)) chkO then .bug
  else .ok (putMark (putMark m (p - 8) drowned) (p + n * size) drowned) (p - gap size * size) ((n + gap size * 2) * size)

/-- buffer.h:313-349: offsets of the fields of `hippeus_buffer_C` (`guard_head` 0, `_data_offset` 8, `simple_msg` 16, `space` 24,
`ref_counter` 28, `host` 32, `guard_under` 40, `_inplace` 48; size 56). -/
def inplace : Nat := 48
def headBytes : Nat := 56
/-- buffer.h:505-507 `space_overhead`. -/
def spaceOverhead : Nat := headBytes + 8

def dataOffset (m : Mem) (b : Nat) : Nat := load m (b + 8) 8
def space (m : Mem) (b : Nat) : Nat := load m (b + 24) 4
def refCounter (m : Mem) (b : Nat) : Nat := load m (b + 28) 4
def host (m : Mem) (b : Nat) : Nat := load m (b + 32) 8

/-- buffer.cxx:121-149 `buffer::init` for a solid buffer with a payload of `bytes`; without enforced deep checking. -/
def init (m : Mem) (b tag bytes ticksU ticksH ticksV : Nat) : Option Mem :=
  let m := store m (b + 24) 4 bytes
  let m := store m (b + 32) 8 tag
  let m := store m (b + 28) 4 1
  let m := store m (b + 8) 8 inplace
  match setup ticksU under, setup ticksH head, setup ticksV over with
  | some u, some h, some v => some (putMark (putMark (putMark m (b + 40) u) b h) (b + inplace + bytes) v)
  | _, _, _ => none

/-- A 32-bit counter that is positive as `int32_t`. -/
def positive (c : Nat) : Bool := decide (0 < c ∧ c < 2 ^ 31)

/-- buffer.cxx:39-83 `validate_buffer`, `buffer::check` without deep checking. -/
def check (off : Bool) (m : Mem) (b : Nat) : Bool :=
  if !positive (refCounter m b) then false
  else if host m b = 0 then false
  else if !probe off (markAt m b) head then false
  else if !probe off (markAt m (b + 40)) under then false
  else if dataOffset m b = inplace ∧ !probe off (markAt m (b + inplace + space m b)) over then false
  else true

/-- buffer.cxx:113-119 `drown`. -/
def drown (m : Mem) (b : Nat) : Mem :=
  let m := store m (b + 28) 4 (2 ^ 32 - 1)
  let m := putMark m b drowned
  let m := putMark m (b + 40) drowned
  if dataOffset m b = inplace then putMark m (b + inplace + space m b) drowned else m

/-- utils.h:205-208 `ceil` for powers of two. -/
def ceil (value align : Nat) : Nat := (value + align - 1) / align * align

/-- allot_stdcxx.cxx:50-55: the bytes allocated for a buffer. -/
def buffBytes (wanna : Nat) : Nat :=
  let overhead := gap 1 * 2 + 16
  ceil (wanna + spaceOverhead + overhead) 64 - overhead

/-- allot_stdcxx.cxx:39-71 `borrow`; `tag` is the tag of the default allocator, `raw` the address from `operator new`. `none`: an exception
for an invalid size. -/
def borrow (m : Mem) (wanna tag raw : Nat) (clock : Nat → Nat) : Option Taken :=
  if wanna < 1 ∨ wanna > bufferLimit then none
  else match allocate m 1 (2 ^ 63 - 1) (buffBytes wanna) raw (clock 0) (clock 1) with
    | none => none
    | some t => match init t.mem t.ptr tag (buffBytes wanna - spaceOverhead) (clock 2) (clock 3) (clock 4) with
      | none => none
      | some m => some { t with mem := m }

/-- allot_stdcxx.cxx:73-81 `repay`. -/
def repay (off : Bool) (m : Mem) (b : Nat) : Released := deallocate off m 1 b (space m b + spaceOverhead)

/-- buffer.cxx:167-206 `buffer::detach` by the only owner, of a buffer of the default allocator. -/
def detach (off : Bool) (m : Mem) (b : Nat) : Released := repay off (drown m b) b

end Fptu.Guard
