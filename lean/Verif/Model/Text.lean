import Verif.Model.Encoding
import Verif.Model.PublicKey

/-!
Model of the text forms, sizes and conversions of /repo/ch/core/services/signatures/secp256k1 (`String`, `MarshalSize`, `ScalarToHash`,
`Coordinates`, `IsSecp256k1Scalar` and others). Texts are lists of characters.
-/
namespace Verif.Text
open Verif.Point Verif.PublicKey

/-- `%x` of a `*big.Int` in `fmt` (external): a sign if it is negative, and lower case digits without leading zeros. -/
def hex (v : Int) : List Char := if v < 0 then '-' :: Nat.toDigits 16 v.natAbs else Nat.toDigits 16 v.natAbs

/-- The beginnings of the texts (scalar.go:60, field.go:58, point.go:40). -/
def scalarHead : List Char := "scalar{".toList
def fieldHead : List Char := "fieldElt{".toList
def pointHead : List Char := "Secp256k1{X: ".toList
def pointMid : List Char := ", Y: ".toList

/-- `String` of a scalar (scalar.go:59-61). -/
def scalarText (s : Int) : List Char := scalarHead ++ hex s ++ ['}']

/-- `String` of a field element (field.go:57-59). -/
def fieldText (f : Int) : List Char := fieldHead ++ hex f ++ ['}']

/-- `String` of a point (point.go:39-41); `%s` calls the `String` of the coordinates. -/
def pointText (P : Pt) : List Char := pointHead ++ fieldText P.X ++ pointMid ++ fieldText P.Y ++ ['}']

/-- `ScalarLen` (curve.go:29, 33; scalar.go:160). -/
def scalarLen : Nat := Scalar.marshalSize

/-- `PointLen` (curve.go:30, 39; point.go:225). -/
def pointLen : Nat := 33

/-- `MarshalID` of a scalar and of a point (scalar.go:163-165, point.go:228-230). -/
def scalarId : List Char := "sp256.sc".toList
def pointId : List Char := "sp256.po".toList

/-- `ScalarToHash` (scalar.go:222-224): `common.BigToHash` (external) is `BytesToHash` of `Bytes`. -/
def scalarToHash (s : Int) : List UInt8 := rightAlign 32 (BigInt.bytes s)

/-- `Coordinates` (point.go:311-313). -/
def coordinates (P : Pt) : Int × Int := (P.X, P.Y)

/-- A value of the interface type `kyber.Scalar` or `kyber.Point`: one of this package, or of another type. -/
inductive Value where
  | scalar (s : Int)
  | point (P : Pt)
  | other
  deriving DecidableEq

/-- `IsSecp256k1Scalar` (scalar.go:205-213): the result, and the value after the call, which reduces it. -/
def isSecp256k1Scalar : Value → Bool × Value
  | .scalar s => (true, .scalar (Scalar.modG s))
  | v => (false, v)

/-- `IsSecp256k1Point` (point.go:301-308). -/
def isSecp256k1Point : Value → Bool
  | .point _ => true
  | _ => false

/-- `AllowVarTime` (scalar.go:34-40). -/
def allowVarTime (allowed : Bool) : Outcome Unit := if !allowed then .panic else .ok ()

/-- The check in `init` (public_key.go:23-27). -/
def initCheck : Outcome Unit := if compressedLength ≠ pointLen then .panic else .ok ()

/-- `Set` of a public key (public_key.go:30-34): the new value; `copy` gives the smaller length. -/
def pkSet (k l : List UInt8) : Outcome (List UInt8) :=
  let n := min k.length l.length
  if n ≠ compressedLength then .panic else .ok (l.take n ++ k.drop n)

end Verif.Text
