import Verif.Model.Numeric
/-!
# Model of the operations on tokens (`fast_positive/tuples/token.h`)

A token is its 32-bit tag. The constructors and the switches of modes are in `Model/Tags.lean`.
-/
namespace Fptu
namespace Token
open Fptu.Num

/-- token.h:198, 390 the token made by default. -/
def absentToken : Nat := 0
/-- token.h:54 `is_valid`. -/
def isValid (a : Nat) : Bool := a != 0

/-- token.h:214-218 `operator==`. -/
def eq (a b : Nat) : Bool := a == b
/-- token.h:219-223 `operator!=`. -/
def ne (a b : Nat) : Bool := !eq a b
/-- token.h:224-228 `operator<`. -/
def lt (a b : Nat) : Bool := tagLess a b
/-- token.h:229-233 `operator>=`. -/
def ge (a b : Nat) : Bool := !lt a b
/-- token.h:234-238 `operator>`. -/
def gt (a b : Nat) : Bool := lt b a
/-- token.h:239-243 `operator<=`. -/
def le (a b : Nat) : Bool := !gt a b

/-- What the casts of token.h:414-452 answer about the placement of a token. -/
structure Placement where
  preplaced : Bool
  loose : Bool
  inlay : Bool
  collection : Bool
  deriving DecidableEq, Repr

/-- token.h:74-76, 135-143 the answers of the token itself. -/
def placement (a : Nat) : Placement := ⟨isPreplaced a, isLoose a, isLooseInlay a, isLooseCollection a⟩

/-- token.h:425-437 `cast_preplaced`: the tag and the overridden answers. -/
def castPreplaced (a : Nat) : Except Exc (Nat × Placement) :=
  if !isPreplaced a then .error .typeMismatch else .ok (a, ⟨true, false, false, false⟩)

/-- token.h:439-449 `cast_loose`; `is_inlay` and `is_collection` are inherited. -/
def castLoose (a : Nat) : Except Exc (Nat × Placement) :=
  if !isLoose a then .error .typeMismatch else .ok (a, ⟨false, true, isLooseInlay a, isLooseCollection a⟩)

/-- token.h:414-423 `cast_typecheck`: the tag and the overridden `type()`. -/
def castTypecheck (g : Genus) (a : Nat) : Except Exc (Nat × Genus) :=
  if tag2genus a ≠ g then .error .typeMismatch else .ok (a, g)

/-- essentials.h:337-350 `tag_from_offset` with its assertions: `none` is a violated one. -/
def tagFromOffsetChecked (offset : Nat) (g : Genus) (indysize : Nat) (discernible saturated : Bool) : Option Nat :=
  if offset ≤ maxPreplacedOffset ∧ 0 < indysize ∧ indysize ≤ maxIdent then some (tagFromOffset offset g indysize discernible saturated)
  else none

/-- token.h:398-403 the constructor of a preplaced token with the assertions of `tag_from_offset`. -/
def preplacedChecked (offset : Int) (typeCode : Nat) (discernible saturated : Bool) : Except Exc (Option Nat) :=
  if (offset % (2 ^ 64 : Int)).toNat > maxPreplacedOffset then .error .invalidArgument
  else if typeCode > 31 then .error .invalidArgument
  else .ok (tagFromOffsetChecked (offset % (2 ^ 64 : Int)).toNat (Genus.ofCode typeCode)
              (Genus.ofCode typeCode).preplacedBytes discernible saturated)

/-- token.h:317-330 `token_native`: `bytes` is `sizeof(FIELD_TYPE)`; a violated assertion in a constant expression does not compile. -/
def native (offset : Nat) (g : Genus) (bytes : Nat) (discernible saturated : Bool) : Option Nat :=
  tagFromOffsetChecked offset g bytes discernible saturated

/-- token.h:151-153. -/
def isBool (a : Nat) : Bool := tag2genus a == .i8
/-- token.h:154-156. -/
def isEnum (a : Nat) : Bool := tag2genus a == .i16
/-- token.h:157. -/
def isText (a : Nat) : Bool := tag2genus a == .text
/-- token.h:158-160. -/
def isNumber (a : Nat) : Bool := maskNumber.testBit (tag2genusCode a)
/-- token.h:161-163. -/
def isInteger (a : Nat) : Bool := maskInteger.testBit (tag2genusCode a)
/-- token.h:164-166. -/
def isSigned (a : Nat) : Bool := maskSigned.testBit (tag2genusCode a)
/-- token.h:167-169. -/
def isUnsigned (a : Nat) : Bool := maskUnsigned.testBit (tag2genusCode a)
/-- token.h:170-172. -/
def isFloat (a : Nat) : Bool := maskFloat.testBit (tag2genusCode a)
/-- token.h:173-175. -/
def isDecimal (a : Nat) : Bool := tag2genus a == .d64
/-- token.h:147-149. -/
def isStretchy (a : Nat) : Bool := !tagIsFixedSize a

end Token
end Fptu
