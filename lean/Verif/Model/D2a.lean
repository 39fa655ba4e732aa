import Verif.Model.Arith
/-!
# Text of floating-point numbers

Model of `fast_positive/erthink/erthink_d2a.h`: `grisu::convert` and the three printers. Unsigned 64-bit values are `Nat` with
explicit `% 2 ^ 64`, `int` values are `Int`; `none` is undefined behaviour or a violated assertion the code relies on. Not modelled:
the branch `ERTHINK_D2A_AVOID_MUL` (off by default), printers other than the three of this file (so `mantissa_digit` always
returns `true`), the assertion of `cached_power` that compares with a floating-point logarithm.
-/
namespace Fptu.D2a
open Fptu.Arith

/-- erthink_d2a.h:85-106 `dec_digits`. -/
def decDigits (n : Nat) : Nat :=
  if n < 100000 then
    if n < 10 then 1 else if n < 100 then 2 else if n < 1000 then 3 else if n < 10000 then 4 else 5
  else if n < 1000000 then 6 else if n < 10000000 then 7 else if n < 100000000 then 8 else if n < 1000000000 then 9 else 10

/-- erthink_d2a.h:152-154 `diy_fp`: `f · 2 ^ e`. -/
structure Diy where
  f : Nat
  e : Int
  deriving DecidableEq

/-- erthink_d2a.h:156-164 `diy_fp(int64_t)`; the masks are written with `/` and `%`. -/
def Diy.ofBits (i : Nat) : Diy :=
  let expo : Nat := i / 2 ^ 52 % 2 ^ 11
  let mantissa : Nat := i % 2 ^ 52
  ⟨mantissa + (if expo ≠ 0 then 0x10000000000000 else 0), (expo : Int) - (if expo ≠ 0 then 1075 else 1074)⟩

/-- erthink_d2a.h:171-187 `diy_fp::fixedpoint(value, exp2)`. A shift by a negative amount is undefined; `lazy` computes
the rounding term only where it is used. -/
def fixedpointWith (lazy : Bool) (value : Nat) (exp2 : Int) : Option Diy :=
  if ¬ (exp2 < 1032 ∧ exp2 > -1127) then none
  else if value = 0 then some (Diy.ofBits 0)
  else
    let shift : Int := (clz64 value : Int) - 3
    let top := (2 ^ 64 - 1) / 2 ^ 3
    if ¬ lazy ∧ shift > 1 then none
    else
      let rounding := 2 ^ (1 - shift).toNat
      let v := if shift ≥ 0 then value * 2 ^ shift.toNat
        else (if value < top - rounding then value + rounding else top) / 2 ^ (-shift).toNat
      if top ≥ v ∧ v > 0 then some ⟨v, exp2 - shift⟩ else none

/-- erthink_d2a.h:220-222: `static_cast<int64_t>(2^52 / 3.3219...)`, a constant expression of type `double`. -/
def log10Factor : Int := 1355718576299647

/-- erthink_d2a.h:235-243 `power10_exp2`. -/
def power10Exp2 : List Int := [
  -1193, -1166, -1140, -1113, -1087, -1060, -1034, -1007, -980, -954, -927, -901, -874, -847,
  -821, -794, -768, -741, -715, -688, -661, -635, -608, -582, -555, -529, -502, -475,
  -449, -422, -396, -369, -343, -316, -289, -263, -236, -210, -183, -157, -130, -103,
  -77, -50, -24, 3, 30, 56, 83, 109, 136, 162, 189, 216, 242, 269,
  295, 322, 348, 375, 402, 428, 455, 481, 508, 534, 561, 588, 614, 641,
  667, 694, 720, 747, 774, 800, 827, 853, 880, 907, 933, 960, 986, 1013,
  1039, 1066]

/-- erthink_d2a.h:246-289 `power10_mas`. -/
def power10Mas : List Nat := [
  0xBAAEE17FA23EBF76, 0x8B16FB203055AC76, 0xCF42894A5DCE35EA, 0x9A6BB0AA55653B2D, 0xE61ACF033D1A45DF,
  0xAB70FE17C79AC6CA, 0xFF77B1FCBEBCDC4F, 0xBE5691EF416BD60C, 0x8DD01FAD907FFC3C, 0xD3515C2831559A83,
  0x9D71AC8FADA6C9B5, 0xEA9C227723EE8BCB, 0xAECC49914078536D, 0x823C12795DB6CE57, 0xC21094364DFB5637,
  0x9096EA6F3848984F, 0xD77485CB25823AC7, 0xA086CFCD97BF97F4, 0xEF340A98172AACE5, 0xB23867FB2A35B28E,
  0x84C8D4DFD2C63F3B, 0xC5DD44271AD3CDBA, 0x936B9FCEBB25C996, 0xDBAC6C247D62A584, 0xA3AB66580D5FDAF6,
  0xF3E2F893DEC3F126, 0xB5B5ADA8AAFF80B8, 0x87625F056C7C4A8B, 0xC9BCFF6034C13053, 0x964E858C91BA2655,
  0xDFF9772470297EBD, 0xA6DFBD9FB8E5B88F, 0xF8A95FCF88747D94, 0xB94470938FA89BCF, 0x8A08F0F8BF0F156B,
  0xCDB02555653131B6, 0x993FE2C6D07B7FAC, 0xE45C10C42A2B3B06, 0xAA242499697392D3, 0xFD87B5F28300CA0E,
  0xBCE5086492111AEB, 0x8CBCCC096F5088CC, 0xD1B71758E219652C, 0x9C40000000000000, 0xE8D4A51000000000,
  0xAD78EBC5AC620000, 0x813F3978F8940984, 0xC097CE7BC90715B3, 0x8F7E32CE7BEA5C70, 0xD5D238A4ABE98068,
  0x9F4F2726179A2245, 0xED63A231D4C4FB27, 0xB0DE65388CC8ADA8, 0x83C7088E1AAB65DB, 0xC45D1DF942711D9A,
  0x924D692CA61BE758, 0xDA01EE641A708DEA, 0xA26DA3999AEF774A, 0xF209787BB47D6B85, 0xB454E4A179DD1877,
  0x865B86925B9BC5C2, 0xC83553C5C8965D3D, 0x952AB45CFA97A0B3, 0xDE469FBD99A05FE3, 0xA59BC234DB398C25,
  0xF6C69A72A3989F5C, 0xB7DCBF5354E9BECE, 0x88FCF317F22241E2, 0xCC20CE9BD35C78A5, 0x98165AF37B2153DF,
  0xE2A0B5DC971F303A, 0xA8D9D1535CE3B396, 0xFB9B7CD9A4A7443C, 0xBB764C4CA7A44410, 0x8BAB8EEFB6409C1A,
  0xD01FEF10A657842C, 0x9B10A4E5E9913129, 0xE7109BFBA19C0C9D, 0xAC2820D9623BF429, 0x80444B5E7AA7CF85,
  0xBF21E44003ACDD2D, 0x8E679C2F5E44FF8F, 0xD433179D9C8CB841, 0x9E19DB92B4E31BA9, 0xEB96BF6EBADF77D9,
  0xAF87023B9BF0EE6B]

/-- erthink_d2a.h:213-293 `cached_power`: the power and the decimal exponent. -/
def cachedPower (e : Int) : Option (Diy × Int) :=
  if ¬ (e < 1096 ∧ e > -1191) then none
  else
    let unbiased := ((-61 - e) * log10Factor + 348 * 0x10000000000000 - 1) / 2 ^ 52
    let index := (unbiased / 8).toNat
    match power10Mas[index]?, power10Exp2[index]? with
    | some m, some x => some (⟨m, x⟩, 340 - (unbiased - unbiased % 8))
    | _, _ => none

/-- erthink_d2a.h:300-303: the condition of the loop of `adjust`. -/
def closer (delta tk upper rest : Nat) : Bool :=
  decide (delta ≥ (tk + rest) % 2 ^ 64) && (decide ((rest + tk) % 2 ^ 64 < upper) ||
    (decide (rest < upper) && decide (upper - rest ≥ (rest + tk + 2 ^ 64 - upper) % 2 ^ 64)))

/-- erthink_d2a.h:300-309: the loop of `adjust` with `adjust_last_digit` (579-587) on the last digit; `none`: the digit is dropped. -/
def adjustLoop (delta tk upper : Nat) : Nat → Nat → Option Nat
  | 0, rest => if closer delta tk upper rest then none else some 0
  | d + 1, rest =>
    if closer delta tk upper rest then
      if d = 0 then none else adjustLoop delta tk upper d ((rest + tk) % 2 ^ 64)
    else some (d + 1)

/-- erthink_d2a.h:295-311 `adjust`; `ds` are the digits printed so far, last digit first. -/
def adjust (accurate : Bool) (ds : List Nat) (delta rest tk upper : Nat) (exp10 : Int) : Option (List Nat × Int) :=
  if accurate then
    match ds with
    | [] => none
    | d :: ds =>
      match adjustLoop delta tk upper d rest with
      | some d' => some (d' :: ds, exp10)
      | none => some (ds, exp10 + 1)
  else some (ds, exp10)

/-- erthink_d2a.h:326-369: the loop that skips leading zeros: `(digit, body, kappa)`; the argument is `kappa` after
its decrement. -/
def skipZeros (body : Nat) : Nat → Nat × Nat × Nat
  | 0 => (body, body, 0)
  | k + 1 =>
    if body / 10 ^ (k + 1) = 0 then skipZeros (body % 10 ^ (k + 1)) k
    else (body / 10 ^ (k + 1), body % 10 ^ (k + 1), k + 1)

/-- erthink_d2a.h:379-394: the loop that skips zeros after the point: `(digit, tail, delta, -kappa)`. More than nineteen
rounds violate an assertion of the caller. -/
def skipTail (shift : Nat) : Nat → Nat → Nat → Nat → Nat → Option (Nat × Nat × Nat × Nat)
  | 0, digit, tail, delta, n => if digit ≠ 0 then some (digit, tail, delta, n) else none
  | fuel + 1, digit, tail, delta, n =>
    if digit ≠ 0 then some (digit, tail, delta, n)
    else
      let t := tail * 10 % 2 ^ 64
      skipTail shift fuel (t / 2 ^ shift) (t % 2 ^ shift) (delta * 10 % 2 ^ 64) (n + 1)

/-- How the digits before the point end. -/
inductive Body where
  /-- `goto done` with this last digit. -/
  | done (digit : Nat) (ds : List Nat)
  /-- `goto early_last` or `early_skip`, with `kappa`. -/
  | early (ds : List Nat) (kappa : Nat)

/-- erthink_d2a.h:398-453: the digits before the point; the first argument is `kappa` of the digit to be printed. -/
def bodyLoop (shift tail delta : Nat) : Nat → Nat → Nat → List Nat → Body
  | 0, digit, _, ds => .done digit ds
  | k + 1, digit, body, ds =>
    if k = 0 then .done body (digit :: ds)
    else
      let d := body / 10 ^ k
      let b := body % 10 ^ k
      if (b * 2 ^ shift + tail) % 2 ^ 64 < delta then
        if d ≠ 0 then .early (d :: digit :: ds) k else .early (digit :: ds) (k + 1)
      else bodyLoop shift tail delta k d b (digit :: ds)

/-- erthink_d2a.h:455-470: the digits after the point: `(digits, tail, delta, -kappa)`. -/
def tailLoop (shift : Nat) : Nat → Nat → Nat → Nat → Nat → List Nat → Option (List Nat × Nat × Nat × Nat)
  | 0, digit, tail, delta, n, ds => if tail > delta then none else some (digit :: ds, tail, delta, n)
  | fuel + 1, digit, tail, delta, n, ds =>
    if tail > delta then
      let t := tail * 10 % 2 ^ 64
      tailLoop shift fuel (t / 2 ^ shift) (t % 2 ^ shift) (delta * 10 % 2 ^ 64) (n + 1) (digit :: ds)
    else some (digit :: ds, tail, delta, n)

/-- erthink_d2a.h:455-476: after `done`; `kappa ≥ -19` is asserted. -/
def finishTail (accurate : Bool) (shift gap : Nat) (exp10 : Int) (digit tail delta n : Nat) (ds : List Nat) :
    Option (List Nat × Int) :=
  match tailLoop shift (19 - n) digit tail delta n ds with
  | none => none
  | some (ds, tail, delta, n) =>
    adjust accurate ds delta tail (2 ^ shift) (gap * 10 ^ n % 2 ^ 64) (exp10 - n)

/-- erthink_d2a.h:372-376: after `early_skip`. The remainder given to `adjust` is `tail`, whatever is left of the body. -/
def finishEarly (accurate : Bool) (shift gap tail delta : Nat) (exp10 : Int) (ds : List Nat) (kappa : Nat) :
    Option (List Nat × Int) :=
  adjust accurate ds delta tail (10 ^ kappa * 2 ^ shift % 2 ^ 64) gap (exp10 + kappa)

/-- erthink_d2a.h:313-476 `make_digits`: the digits, last first, and the decimal exponent. -/
def makeDigits (accurate : Bool) (top delta : Nat) (exp10 : Int) (value shift : Nat) : Option (List Nat × Int) :=
  let gap := (top + 2 ^ 64 - value) % 2 ^ 64
  if shift = 0 ∨ shift ≥ 64 ∨ top / 2 ^ shift > 10 ^ 9 then none
  else
    let body := top / 2 ^ shift
    let tail := top % 2 ^ shift
    match skipZeros body (decDigits body - 1) with
    | (digit, _, 0) =>
      if tail < delta then finishEarly accurate shift gap tail delta exp10 [digit] 0
      else
        match skipTail shift 19 digit tail delta 0 with
        | none => none
        | some (digit, tail, delta, n) => finishTail accurate shift gap exp10 digit tail delta n []
    | (digit, body, k + 1) =>
      match bodyLoop shift tail delta (k + 1) digit body [] with
      | .early ds kappa => finishEarly accurate shift gap tail delta exp10 ds kappa
      | .done digit ds => finishTail accurate shift gap exp10 digit tail delta 0 ds

/-- What a printer is told by `convert`. -/
inductive Parts where
  | nan | inf | zero
  | integer (n : Nat)
  | digits (ds : List Nat) (exp10 : Int)
  deriving DecidableEq

/-- erthink_d2a.h:499-521: the part of `convert` for numbers printed digit by digit. -/
def generate (accurate : Bool) (x : Diy) : Option (List Nat × Int) :=
  let lz := clz64 x.f
  if ¬ (x.f ≤ (2 ^ 64 - 1) / 2 ∧ lz > 1) then none
  else
    let e := x.e - lz
    let f := x.f * 2 ^ lz % 2 ^ 64
    match cachedPower e with
    | none => none
    | some (c, exp10) =>
      let mojo := if f > 0x80000000000007ff then 64 else 65
      if mojo - lz ≥ 64 then none
      else
        let delta := c.f / 2 ^ (mojo - lz)
        if delta < 2 then none
        else
          let p := mul64x64_128 f c.f
          if ¬ (p.2 < 2 ^ 64 - 1 - (2 ^ 31 - 1)) then none
          else
            let lsb := p.1 / 2 ^ 63
            let shift := -(e + c.e + 64)
            if shift < 0 then none
            else
              makeDigits accurate ((p.2 + (delta + lsb - 1) / 2) % 2 ^ 64) (delta - 2) exp10
                (if accurate then (p.2 + lsb) % 2 ^ 64 else p.2) shift.toNat

/-- erthink_d2a.h:478-522 `convert(printer, diy_fp)`; `ordinals`: the printer accepts integers (`integer()` returns `true`). -/
def convert (accurate ordinals : Bool) (x : Diy) : Option Parts :=
  if x.e = 0x7ff - 1075 then some (if x.f ≠ 0x10000000000000 then .nan else .inf)
  else if x.f = 0 then some .zero
  else if accurate = false ∧ ordinals = true ∧ -52 ≤ x.e ∧ x.e ≤ clz64 x.f ∧ (x.e ≥ 0 ∨ x.f * 2 ^ (64 + x.e).toNat % 2 ^ 64 = 0) then
    some (.integer (if x.e < 0 then x.f / 2 ^ (-x.e).toNat else x.f * 2 ^ x.e.toNat % 2 ^ 64))
  else (generate accurate x).map fun p => .digits p.1 p.2

/-- Characters of digits given last first. -/
def chars (ds : List Nat) : List Nat := ds.reverse.map (48 + ·)

/-- erthink_d2a.h:589-597 `exponenta` of the default printer: `e`, the sign, up to three digits. -/
def exponenta (x : Int) (out : List Nat) : Option (List Nat) :=
  if x = 0 then some out
  else if x.natAbs ≥ 1000 then none
  else some (dec3 x.natAbs (out ++ [101, if x < 0 then 45 else 43]) false)

/-- erthink_d2a.h:531-602 `ieee754_default_printer`. -/
def defaultText (negative : Bool) (p : Parts) : Option (List Nat) :=
  let out := put [] 45 negative
  match p with
  | .nan => some (out ++ [110, 97, 110])
  | .inf => some (out ++ [105, 110, 102])
  | .zero => some (out ++ [48])
  | .integer n => some (u2a64 n out)
  | .digits ds x => exponenta x (out ++ chars ds)

/-- The sign bit. -/
def isNegative (bits : Nat) : Bool := decide (bits / 2 ^ 63 % 2 = 1)

/-- erthink_d2a.h:524-529, 726-746 `d2a<accurate>`; `bits` are the bits of the value. `finalize_and_get` (599-602) asserts a non-empty
text of at most 23 characters. -/
def d2a (accurate : Bool) (bits : Nat) : Option (List Nat) :=
  (convert accurate true (Diy.ofBits bits)).bind fun p =>
  (defaultText (isNegative bits) p).bind fun t =>
  if t ≠ [] ∧ t.length ≤ 23 then some t else none

/-- erthink_d2a.h:640-682: `exponenta` of `shodan_printer`: the text without the sign. The gap before and after the digits
is 16 characters; `none`: characters outside of the buffer, or never written, belong to the text. `fixed`: a digit is appended
after the point if there is none, as intended. -/
def shodanText (fixed : Bool) (minExp maxExp : Int) (ds : List Nat) (x : Int) : Option (List Nat) :=
  let text := chars ds
  let canon : Int := text.length + x - 1
  if canon ≥ minExp ∧ canon ≤ maxExp then
    if x < 0 then
      if canon ≥ 0 then
        if x < -16 then none
        else some (text.take (text.length + x).toNat ++ [46] ++ text.drop (text.length + x).toNat)
      else if canon < -14 then none
      else some ([48, 46] ++ List.replicate (-canon - 1).toNat 48 ++ text)
    else if x > 14 then none
    else some (text ++ List.replicate x.toNat 48 ++ [46, 48])
  else
    exponenta canon (text.take 1 ++ [46] ++ text.drop 1 ++ (if fixed ∧ text.length = 1 then [48] else []))

/-- erthink_d2a.h:604-683 `shodan_printer<accurate, minExp, maxExp, forceSign>`: the text. -/
def shodan (fixed accurate : Bool) (minExp maxExp : Int) (forceSign : Bool) (bits : Nat) : Option (List Nat) :=
  let sign := if isNegative bits then [45] else if forceSign then [43] else []
  (convert accurate false (Diy.ofBits bits)).bind fun p =>
  (match p with
    | .nan => some [110, 97, 110]
    | .inf => some [105, 110, 102]
    | .zero => some [48, 46, 48]
    | .integer _ => none
    | .digits ds x => shodanText fixed minExp maxExp ds x).map (sign ++ ·)

/-- erthink_d2a.h:685-724 `fractional_printer` after `convert(printer, diy_fp::fixedpoint(value, exp2))`: the text. -/
def fractional (lazy : Bool) (value : Nat) (exp2 : Int) : Option (List Nat) :=
  (fixedpointWith lazy value exp2).bind fun d =>
  (convert true true d).bind fun p =>
  match p with
  | .nan => some [46, 110, 97, 110]
  | .inf => some [46, 105, 110, 102]
  | .zero => some [46, 48]
  | .integer _ => none
  | .digits ds x =>
    let zeros := -x - ds.length
    if ds = [] ∨ ¬ (0 ≤ zeros ∧ zeros < 31 - ds.length) then none
    else if zeros > 0 then some (46 :: List.replicate zeros.toNat 48 ++ chars ds)
    else some (46 :: chars (ds.dropWhile (· = 0)))

end Fptu.D2a
