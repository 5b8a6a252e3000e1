import Verif.Model.Point

/-!
Model of /repo/ch/core/services/signatures/ethschnorr/ethschnorr.go. The hash (legacy Keccak-256, suite.go:31-34) is
a parameter `H`. Writing to a hash does not fail. `msg` is a non-nil `*big.Int`.
-/
namespace Verif.Schnorr
open Verif.Point

/-- `signature` (ethschnorr.go:31-34) with a non-nil `Signature` field. -/
structure Sig where
  addr : List UInt8
  s : Int
  deriving DecidableEq, Repr

variable (H : List UInt8 → List UInt8)

/-- `u256Cardinality` (ethschnorr.go:43). -/
def u256Cardinality : Int := 2 ^ 256

/-- `maxUint256` (ethschnorr.go:44). -/
def maxUint256 : Int := u256Cardinality - 1

/-- `ValidSignature` (ethschnorr.go:52-55). -/
def validSignature (s : Int) : Bool :=
  BigInt.cmp s Scalar.GroupOrder == -1 && BigInt.cmp s 0 != -1

/-- `ChallengeHash` (ethschnorr.go:64-88). The test of the message range (line 71) is only reached with an error
already set, so it never has an effect on success. -/
def challengeHash (P : Pt) (addr : List UInt8) (msg : Int) : Outcome Int := do
  let pb ← marshalBinary P
  return Scalar.setBytes (H (pb ++ BigInt.bytes msg ++ addr))

/-- `Sign` (ethschnorr.go:92-112) after the nonce `k` has been drawn (line 97); `private` is a secp256k1 scalar,
reduced in place by `IsSecp256k1Scalar`. -/
def signWith (k priv msg : Int) : Outcome Sig := do
  let priv := Scalar.modG priv
  let R ← mulBase k
  let addr ← ethereumAddress H R
  let pub ← mulBase priv
  let e ← challengeHash H pub addr msg
  let s := Scalar.sub k (Scalar.mul priv e)
  return ⟨addr, s⟩

/-- `Sign` (ethschnorr.go:92-112) with the random stream `R`; `none` if the nonce has not been drawn within the
fuel. -/
def sign (R : CStream) (fuel : Nat) (st : R.State) (priv msg : Int) : Option (R.State × Outcome Sig) :=
  (scalarPick R fuel st).map fun r => (r.1, signWith H r.2 priv msg)

/-- `Verify` (ethschnorr.go:116-153): the outcome, and the value of `s.Signature` after the call (`IntToScalar`,
line 141, reduces it in place). -/
def verifyFull (pub : KPoint) (msg : Int) (sig : Sig) : Outcome Unit × Int :=
  if !validSignature sig.s then (.err, sig.s)
  else match pub with
  | .nil => (.err, sig.s)
  | .foreign => (.err, sig.s)
  | .pt P =>
    if !validPublicKey (.pt P) then (.err, sig.s)
    else if BigInt.cmp msg 0 == -1 || BigInt.cmp msg maxUint256 == 1 then (.err, sig.s)
    else
      let sigScalar := Scalar.intToScalar sig.s
      (do
        let e ← challengeHash H P sig.addr msg
        let sG ← mulBase sigScalar
        let eP ← mul e P
        let addr ← ethereumAddress H (add sG eP)
        if sig.addr ≠ addr then .err else .ok (),
      if (challengeHash H P sig.addr msg).isOk then sigScalar else sig.s)

/-- The outcome of `Verify`. -/
def verify (pub : KPoint) (msg : Int) (sig : Sig) : Outcome Unit := (verifyFull H pub msg sig).1

/-- `Verify` on possibly nil pointers: `none` is a nil signature, `some (_, none)` one with a nil scalar. Both are
dereferenced by `ValidSignature` (line 53). -/
def verifyPtr (pub : KPoint) (msg : Int) : Option (List UInt8 × Option Int) → Outcome Unit
  | some (addr, some s) => verify H pub msg ⟨addr, s⟩
  | _ => .panic

end Verif.Schnorr
