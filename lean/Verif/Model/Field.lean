import Verif.Lib.Primes
import Verif.Model.Basic
import Verif.Model.BigInt

/-!
Model of /repo/ch/core/services/signatures/secp256k1/field.go. A non-nil `*fieldElt` is the value of its backing
`big.Int`, an `Int`; possibly nil results are `Option Int`.
-/
namespace Verif.Field

/-- `q` (field.go:23). -/
def q : Int := secp256k1P

/-- `modQ` (field.go:34-44): reduces only when out of range. -/
def modQ (f : Int) : Int :=
  if BigInt.cmp f q ≠ -1 ∨ BigInt.cmp f 0 = -1 then BigInt.mod f q else f

/-- `fieldEltFromBigInt` (field.go:47). -/
def fromBigInt (v : Int) : Int := modQ v

/-- `fieldEltFromInt` (field.go:49-51). -/
def fromInt (v : Int) : Int := modQ (fromBigInt v)

/-- `Sub` (field.go:82-85). -/
def sub (a b : Int) : Int := modQ (a - b)

/-- `Add` (field.go:76-79). -/
def add (a b : Int) : Int := modQ (a + b)

/-- `Equal` on non-nil elements (field.go:62-73, last line). -/
def equal (f g : Int) : Bool := sub f g == 0

/-- `Equal` on possibly nil elements (field.go:62-73). -/
def equalPtr : Option Int → Option Int → Bool
  | none, none => true
  | none, some _ => false
  | some _, none => false
  | some f, some g => equal f g

/-- `Set` (field.go:88-91). -/
def set (v : Int) : Int := modQ v

/-- `SetInt` (field.go:94-97). -/
def setInt (v : Int) : Int := modQ v

/-- `Neg` (field.go:105-108). -/
def neg (g : Int) : Int := modQ (-g)

/-- `Clone` (field.go:111). -/
def clone (f : Int) : Int := set (modQ f)

/-- `SetBytes` (field.go:115-118); `buf` is a 32-byte array in the code. -/
def setBytes (buf : List UInt8) : Int := modQ (BigInt.setBytes buf)

/-- `Bytes` (field.go:121-129): big-endian, left padded to 32 bytes. -/
def bytes (f : Int) : Outcome (List UInt8) :=
  let b := BigInt.bytes (modQ f)
  if 32 < b.length then .panic
  else .ok (List.replicate (32 - b.length) 0 ++ b)

/-- `fieldSquare` (field.go:134-136). -/
def square (y : Int) : Int := fromBigInt (BigInt.exp y 2 secp256k1P)

/-- `sqrtPower` (field.go:144): btcec's `QPlus1Div4`. -/
def sqrtPower : Nat := (secp256k1P + 1) / 4

/-- `maybeSqrtInField` (field.go:147-154). -/
def maybeSqrt (v : Int) : Option Int :=
  let s := BigInt.exp v sqrtPower secp256k1P
  if !equal (square s) v then none else some s

/-- `seven` (field.go:157). -/
def seven : Int := fromInt 7

/-- `rightHandSide` (field.go:160-164). -/
def rightHandSide (x : Int) : Int := add (BigInt.exp x 3 secp256k1P) seven

/-- `isEven` (field.go:167-169). -/
def isEven (f : Int) : Bool := BigInt.mod f 2 == 0

end Verif.Field
