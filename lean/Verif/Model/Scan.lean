/-!
# Field search (`fptu_scan`) in all its implementations

Model of `src/scan_portable.cxx`, `src/scan_SSE2.cxx`, `src/scan_AVX.cxx`, `src/scan_AVX2.cxx`,
`src/scan_ifunc.cxx` and of `lookup`/`next` of `fast_positive/tuples/details/scan.h`.

Memory is a partial map from 16-bit half-word addresses to values; `none` is an unmapped address, and
touching it is the outcome `fault`.  The index entry with unit address `i` occupies the half-words `2*i`
(offset or in-place value) and `2*i+1` (`genus_and_id`), as in `field_loose` (field.h:409-420).  The byte
address of entry `i` is `4*i`, pages are 4096 bytes.
-/
namespace Fptu.Scan

abbrev Mem := Nat → Option Nat

/-- Outcome of a search. -/
inductive Out where
  | fault
  | notFound
  | found (i : Nat)
  deriving DecidableEq, Repr

/-- `scan->genus_and_id` of a mapped entry. -/
def gid (m : Mem) (i : Nat) : Nat := (m (2 * i + 1)).getD 0

/-- scan_portable.cxx:31-38 `fptu_scan_referential`; also one `STEP_x1` repeated (43-48). -/
def steps1 (m : Mem) (key : Nat) : Nat → Nat → Out
  | 0, _ => .notFound
  | n + 1, scan =>
    match m (2 * scan + 1) with
    | none => .fault
    | some g => if key = g then .found scan else steps1 m key n (scan + 1)

/-- scan_portable.cxx:31-38: the `for` loop over `[b, e)`. -/
def scanReferential (m : Mem) (key b e : Nat) : Out := steps1 m key (e - b) b

/-- scan_portable.cxx:63-76: `default:` branch; `do { STEP_x1 x8 } while (scan < end - 7)`. -/
def unrollBulk (m : Mem) (key e items scan : Nat) : Out :=
  match steps1 m key 8 scan with
  | .notFound =>
    if scan + 8 + 7 < e then unrollBulk m key e items (scan + 8)
    else
      -- `items &= 7; continue;` re-enters the switch with at most 7 items, cases 7..0 (77-101)
      steps1 m key (items &&& 7) (scan + 8)
  | r => r
termination_by e - scan

/-- scan_portable.cxx:51-103 `fptu_scan_unroll` for `begin <= end`
(`end < begin` is the "hollow tuple" case 63-65, see `scanUnrollInt`). -/
def scanUnroll (m : Mem) (key b e : Nat) : Out :=
  let items := e - b
  if items ≤ 8 then steps1 m key items b else unrollBulk m key e items b

/-- All implementations return `nullptr` at once when `end < begin` (hollow tuple), unroll:63-65,
SSE2:96-98, AVX:94-96, AVX2:89-91. -/
def hollowGuard (b e : Nat) (f : Out) : Out := if e < b then .notFound else f

/-- Number of trailing zero bits, `__builtin_ctz` (argument nonzero). -/
def ctz (n : Nat) : Nat :=
  if n = 0 then 0 else if n % 2 = 1 then 0 else 1 + ctz (n / 2)
termination_by n
decreasing_by omega

/-- The bit mask with bit `s*j + p` set exactly for the lanes `j` that compare equal.
For SSE2/AVX2: `0x44.. & movemask_epi8(cmpeq_epi16(pattern, load))`, `s = 4`, `p = 2`: byte `4*j+2` of
the vector is the low byte of half-word `2*j+1`, the `genus_and_id` of the `j`-th entry.
For AVX: `movemask_ps(cmp_ps(pattern, and_ps(even, load(scan + 2 bytes))))`, `s = 1`, `p = 0`. -/
def maskOf (s p : Nat) : List Bool → Nat
  | [] => 0
  | b :: l => 2 ^ s * maskOf s p l + (if b then 2 ^ p else 0)

/-- Parameters of one vectorised implementation. -/
structure Impl where
  /-- entries per vector -/
  W : Nat
  /-- mask stride (bits per entry) -/
  s : Nat
  /-- mask phase -/
  p : Nat
  /-- first half-word of a load, relative to `2*scan` -/
  lead : Nat
  /-- minimal on-page entry offset for the "read backwards" short path -/
  pageMin : Nat

/-- scan_SSE2.cxx: 4 entries per 16-byte vector, `0xff0 & scan`. -/
def sse2 : Impl := ⟨4, 4, 2, 0, 4⟩
/-- scan_AVX.cxx: 8 entries per 32-byte vector loaded from `scan + 2` bytes, `0xfe0 & scan`. -/
def avx : Impl := ⟨8, 1, 0, 1, 8⟩
/-- scan_AVX2.cxx: 8 entries per 32-byte vector, `0xfe0 & scan`. -/
def avx2 : Impl := ⟨8, 4, 2, 0, 8⟩

/-- `cmp2mask` (SSE2:40-44, AVX:43-52, AVX2 likewise): loads `2*W` half-words starting at
`2*scan + lead`, faulting if one of them is unmapped, and compares the `genus_and_id` lanes.
AVX compares them as (denormal) floats; with the default MXCSR (no denormals-are-zero) this is equality
of the 16-bit values (`C03_avx_lanes`; the other mode is in `Model/ScanFloat`). -/
def cmp2mask (I : Impl) (m : Mem) (key scan : Nat) : Option Nat :=
  if (List.range (2 * I.W)).all (fun j => (m (2 * scan + I.lead + j)).isSome) then
    some (maskOf I.s I.p ((List.range I.W).map (fun j => decide (key = gid m (scan + j)))))
  else none

/-- `mask2ptr` (SSE2:60-74, AVX:54-66): the pointer is advanced by the lane of the lowest bit;
SSE2/AVX2 compute `(char*)ptr + ctz - 2` (bytes, 4 per entry), AVX `ptr + ctz`. -/
def mask2ptr (I : Impl) (mask scan : Nat) : Option Nat :=
  if mask = 0 then none else some (scan + (ctz mask - I.p) / I.s)

/-- `STEP_x4` / `STEP_x8` at one position. -/
def stepW (I : Impl) (m : Mem) (key scan : Nat) : Out :=
  match cmp2mask I m key scan with
  | none => .fault
  | some mask =>
    match mask2ptr I mask scan with
    | some i => .found i
    | none => .notFound

/-- `n` consecutive steps. -/
def stepsW (I : Impl) (m : Mem) (key : Nat) : Nat → Nat → Out
  | 0, _ => .notFound
  | n + 1, scan =>
    match stepW I m key scan with
    | .notFound => stepsW I m key n (scan + I.W)
    | r => r

/-- `case 8 .. case 0` (SSE2:134-161): `chunks - 1` steps forward, then the last one at `end - W`. -/
def tailW (I : Impl) (m : Mem) (key e chunks scan : Nat) : Out :=
  match chunks with
  | 0 => .notFound
  | c + 1 =>
    match stepsW I m key c scan with
    | .notFound => stepW I m key (e - I.W)
    | r => r

/-- `default:` (SSE2:117-132): 8 steps `while (scan < end - (8*W-1))`, then
`chunks = ((bytes & (32*W-1)) + (4*W-1)) / (4*W)` and back to the switch (which is then in 0..8). -/
def bulkW (I : Impl) (m : Mem) (key bytes e : Nat) (scan : Nat) : Out :=
  match stepsW I m key 8 scan with
  | .notFound =>
    if h : scan + 8 * I.W + (8 * I.W - 1) < e ∧ 0 < I.W then
      bulkW I m key bytes e (scan + 8 * I.W)
    else tailW I m key e ((bytes % (32 * I.W) + (4 * I.W - 1)) / (4 * I.W)) (scan + 8 * I.W)
  | r => r
termination_by e - scan
decreasing_by omega

/-- The short path (SSE2:95-115, AVX:93-112, AVX2:88-107) for `1 ≤ n < W` entries.  If the page offset of
`scan` is large enough the vector ending at `end` is loaded and the mask shifted down, otherwise the vector
starting at `scan` is loaded and the mask restricted to the first `n` lanes. -/
def shortW (I : Impl) (m : Mem) (key b e : Nat) : Out :=
  let n := e - b
  if b % 1024 ≥ I.pageMin then
    match cmp2mask I m key (e - I.W) with
    | none => .fault
    | some mask =>
      match mask2ptr I (mask >>> (I.s * (I.W - n))) b with
      | some i => .found i
      | none => .notFound
  else
    match cmp2mask I m key b with
    | none => .fault
    | some mask =>
      match mask2ptr I ((maskOf I.s I.p (List.replicate I.W true) >>> (I.s * (I.W - n))) &&& mask) b with
      | some i => .found i
      | none => .notFound

/-- `fptu_scan_SSE2` (85-163), `fptu_scan_AVX` (77-162), `fptu_scan_AVX2` (79-157). -/
def scanW (I : Impl) (m : Mem) (key b e : Nat) : Out :=
  let bytes := 4 * (e - b)
  if bytes < 4 * I.W then
    if bytes < 4 then .notFound else shortW I m key b e
  else
    let chunks := (bytes + (4 * I.W - 1)) / (4 * I.W)
    if chunks ≤ 8 then tailW I m key e chunks b else bulkW I m key bytes e b

/-- The selectable implementations, scan_ifunc.cxx:37-52. -/
inductive Cpu where
  | portable | sse2 | avx | avx2
  deriving DecidableEq, Repr

/-- scan_ifunc.cxx:37-52 `fptu_scan_resolver` followed by the call. -/
def fptuScan (c : Cpu) (m : Mem) (key b e : Nat) : Out :=
  hollowGuard b e <|
    match c with
    | .portable => scanUnroll m key b e
    | .sse2 => scanW Scan.sse2 m key b e
    | .avx => scanW Scan.avx m key b e
    | .avx2 => scanW Scan.avx2 m key b e

/-- scan.h:79-87 `lookup(sorted, begin, end, tag)`. -/
def lookup (c : Cpu) (m : Mem) (b e tag : Nat) : Out := fptuScan c m (tag % 65536) b e

/-- scan.h:89-95 `next(current, end, tag)`, with a null `current` giving null. -/
def next (c : Cpu) (m : Mem) (current : Option Nat) (e tag : Nat) : Out :=
  match current with
  | none => .notFound
  | some i => fptuScan c m (tag % 65536) (i + 1) e

end Fptu.Scan
