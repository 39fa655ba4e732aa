/-!
# Replacements of C functions on Elbrus

Model of `src/misc.cxx:97-209`: `memcmp`, `strcmp`, `strncmp`, `strlen`, `strnlen`, which replace those of the C library there.
Memory is a function from addresses to bytes, numbers below 256. The machine is little-endian and reads numbers at any address.
-/
namespace Fptu.Elbrus

/-- A little-endian number of `k` bytes at `p`: `*(uint16_t *)p`, `*(uint32_t *)p`, `*(uint64_t *)p`. -/
def load (m : Nat → Nat) (p : Nat) : Nat → Nat
  | 0 => 0
  | k + 1 => m p + 256 * load m (p + 1) k

/-- `__builtin_bswap16`, `__builtin_bswap32`, `__builtin_bswap64` of a number of `k` bytes. -/
def bswap : Nat → Nat → Nat
  | 0, _ => 0
  | k + 1, x => x % 256 * 256 ^ k + bswap k (x / 256)

/-- misc.cxx:115-118, 125-128, 136-139, 146-149, 155-158: the result when two numbers of `k` bytes differ. -/
def differ (m : Nat → Nat) (k s1 s2 : Nat) : Option Int :=
  let a := load m s1 k
  let b := load m s2 k
  if a ≠ b then some (if bswap k a > bswap k b then 1 else -1) else none

/-- misc.cxx:145-163: less than eight bytes are left. -/
def finish (m : Nat → Nat) (s1 s2 n : Nat) : Int :=
  match (if n &&& 4 ≠ 0 then differ m 4 s1 s2 else none) with
  | some r => r
  | none =>
    let d := if n &&& 4 ≠ 0 then 4 else 0
    match (if n &&& 2 ≠ 0 then differ m 2 (s1 + d) (s2 + d) else none) with
    | some r => r
    | none =>
      let e := d + if n &&& 2 ≠ 0 then 2 else 0
      if n &&& 1 ≠ 0 then (m (s1 + e) : Int) - m (s2 + e) else 0

/-- misc.cxx:135-163: the loop over eight bytes, then what is left. The counter `n` is kept as `8 * words + rest`. -/
def loop (m : Nat → Nat) (rest : Nat) : Nat → Nat → Nat → Int
  | 0, s1, s2 => finish m s1 s2 rest
  | words + 1, s1, s2 =>
    match differ m 8 s1 s2 with
    | some r => r
    | none => loop m rest words (s1 + 8) (s2 + 8)

/-- misc.cxx:135-163 for any `n`. -/
def tail (m : Nat → Nat) (s1 s2 n : Nat) : Int := loop m (n % 8) (n / 8) s1 s2

/-- misc.cxx:124-132: `s1 & 4`. -/
def align4 (m : Nat → Nat) (s1 s2 n : Nat) : Int :=
  if s1 &&& 4 ≠ 0 then
    match differ m 4 s1 s2 with
    | some r => r
    | none => tail m (s1 + 4) (s2 + 4) (n - 4)
  else tail m s1 s2 n

/-- misc.cxx:114-122: `s1 & 2`. -/
def align2 (m : Nat → Nat) (s1 s2 n : Nat) : Int :=
  if s1 &&& 2 ≠ 0 then
    match differ m 2 s1 s2 with
    | some r => r
    | none => align4 m (s1 + 2) (s2 + 2) (n - 2)
  else align4 m s1 s2 n

/-- misc.cxx:99-164 `mdbx_e2k_memcmp_bug_workaround`. -/
def memcmp (m : Nat → Nat) (s1 s2 n : Nat) : Int :=
  if n > 42 ∧ s1 &&& 7 ≠ 0 ∧ s1 &&& 7 = s2 &&& 7 then
    if s1 &&& 1 ≠ 0 then
      let diff := (m s1 : Int) - m s2
      if diff ≠ 0 then diff else align2 m (s1 + 1) (s2 + 1) (n - 1)
    else align2 m s1 s2 n
  else tail m s1 s2 n

/-- misc.cxx:166-175 `mdbx_e2k_strcmp_bug_workaround`. The first argument bounds the number of rounds; without a result the loop
goes on. -/
def strcmp (m : Nat → Nat) : Nat → Nat → Nat → Option Int
  | 0, _, _ => none
  | k + 1, s1, s2 =>
    let diff := (m s1 : Int) - m s2
    if diff ≠ 0 ∨ m s1 = 0 then some diff else strcmp m k (s1 + 1) (s2 + 1)

/-- misc.cxx:177-188 `mdbx_e2k_strncmp_bug_workaround`. -/
def strncmp (m : Nat → Nat) : Nat → Nat → Nat → Int
  | 0, _, _ => 0
  | n + 1, s1, s2 =>
    let diff := (m s1 : Int) - m s2
    if diff ≠ 0 ∨ m s1 = 0 then diff else strncmp m n (s1 + 1) (s2 + 1)

/-- misc.cxx:190-198 `mdbx_e2k_strlen_bug_workaround`; rounds as for `strcmp`. -/
def strlen (m : Nat → Nat) : Nat → Nat → Nat → Option Nat
  | 0, _, _ => none
  | k + 1, s, n => if m s = 0 then some n else strlen m k (s + 1) (n + 1)

/-- misc.cxx:200-208 `mdbx_e2k_strnlen_bug_workaround`; the first argument is `maxlen - n`, which the loop compares with zero. -/
def strnlen (m : Nat → Nat) : Nat → Nat → Nat → Nat
  | 0, _, n => n
  | left + 1, s, n => if m s ≠ 0 then strnlen m left (s + 1) (n + 1) else n

end Fptu.Elbrus
