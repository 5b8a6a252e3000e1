import Verif.Spec.Keccak
import Verif.Model.Schnorr
import Verif.Model.Text

/-!
Tests of the model, not proofs of anything about the code: unit tests in /repo/ch/core/services/signatures whose values are written out
there, run on the model with the real hash function.
-/
namespace Verif.Props.RepoTests
open Verif Verif.Point Verif.Spec.Keccak

/-- The hash of the empty string (secp256k1/suite_test.go:10-14). -/
theorem empty_hash : BigInt.setBytes (keccak256 []) = 0xc5d2460186f7233c927e7db2dcc703c0e500b653ca82273b7bfad8045d85a470 := by
  decide +kernel

/-- The address of an Ethereum account (`TestPoint_EthereumAddress`, secp256k1/point_test.go). -/
def addressB : Bool :=
  match mulBase (Scalar.newScalar 0x3a1076bf45ab87712ad64ccb3b10217737f7faacbf2872e88fdd9a537d8fe266) >>= ethereumAddress keccak256 with
  | .ok a => decide (a.length = 20 ∧ BigInt.setBytes a = 0xc2d7cf95645d33006175b78989035c7c9061d3f9)
  | _ => false

theorem address_test : addressB = true := by decide +kernel

/-- `TestField_RightHandSide`, `TestFieldEltFromInt`, `TestField_Equal`, `TestField_String` and the first line of
`TestField_MaybeSquareRootInField` (secp256k1/field_test.go), `TestNewScalar` (secp256k1/scalar_test.go). -/
def fieldB : Bool :=
  decide (Field.rightHandSide (Field.fromInt 1) = Field.fromInt 8) &&
  decide (Field.rightHandSide (Field.fromInt 2) = Field.fromInt 15) &&
  decide (Field.fromInt 1 = Field.fromBigInt (Field.q + 1)) &&
  Field.equalPtr none none && !Field.equalPtr none (some 0) && !Field.equalPtr (some 0) none &&
  decide (Text.fieldText 0 = "fieldElt{0}".toList) &&
  decide (Field.maybeSqrt (Field.fromInt (-1)) = none) &&
  decide (Scalar.newScalar 1 = Scalar.newScalar (1 + Scalar.GroupOrder))

theorem field_test : fieldB = true := by decide +kernel

/-- 34 bytes, all zero but for the last coordinate byte and the sign byte. -/
def bytes34 (x sign : UInt8) : List UInt8 := List.replicate 31 0 ++ [x, sign, 0]

/-- The errors of `TestPoint_Marshal`, `TestValidPublicKey`, `TestCoordinates` (secp256k1/point_test.go), and of `TestScalar_Marshal`
(secp256k1/scalar_test.go). -/
def pointB : Bool :=
  decide (marshalBinary ⟨0, base.Y⟩ = .err) && decide (marshalBinary ⟨1, base.Y⟩ = .err) &&
  decide (unmarshalBinary (bytes34 0 0) = .err) && decide (unmarshalBinary ((bytes34 0 0).take 32) = .err) &&
  decide (unmarshalBinary ((bytes34 0 2).take 33) = .err) && decide (unmarshalBinary ((bytes34 5 0).take 33) = .err) &&
  !validPublicKey (.pt newPoint) && validPublicKey (.pt base) && decide (Text.coordinates newPoint = (0, 0)) &&
  decide (Scalar.unmarshalBinary (List.replicate 33 0) = .err) &&
  decide (Text.pointId = "sp256.po".toList) && decide (Text.scalarId = "sp256.sc".toList)

theorem point_test : pointB = true := by decide +kernel

/-- `TestShortSchnorr_SignAndVerify` (ethschnorr/ethschnorr2_test.go) with the private key 3 and the nonce 5: the signature is accepted;
it is not with a message that is too large or negative, nor with a key of another group. -/
def schnorrB (msg : Int) : Bool :=
  match Schnorr.signWith keccak256 5 3 msg, mulBase 3 with
  | .ok sig, .ok pub =>
    decide ((Schnorr.verifyFull keccak256 (.pt pub) msg sig).1 = .ok ()) &&
    decide ((Schnorr.verifyFull keccak256 (.pt pub) Schnorr.u256Cardinality sig).1 = .err) &&
    decide ((Schnorr.verifyFull keccak256 (.pt pub) (-1) sig).1 = .err) &&
    decide ((Schnorr.verifyFull keccak256 .foreign msg sig).1 = .err)
  | _, _ => false

theorem schnorr_test : schnorrB 0xAA = true := by decide +kernel

end Verif.Props.RepoTests
