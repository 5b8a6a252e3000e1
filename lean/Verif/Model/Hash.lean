import Verif.Spec.Keccak
import Verif.Model.Dss
import Verif.Model.PublicKey

/-!
Model of the hash object of `golang.org/x/crypto/sha3.NewLegacyKeccak256` (external: its source is not in the repository; this is the
published algorithm, with the buffer of one block that the object keeps) and of the functions of /repo/ch that call it. In the rest of
the model a hash is a function of all the bytes; here the bytes are written to the object piece by piece, as the code does. The
permutation itself is the one in `Spec/Keccak`.
-/
namespace Verif.Hash
open Verif.Point

/-- The state of the object: the lanes, and the bytes that do not fill a block yet. -/
structure Obj where
  a : List Nat
  buf : List UInt8
  deriving DecidableEq

/-- The size of a block (`rateK512`, external). -/
def rate : Nat := 136

/-- `Hash` of the suite (suite.go:31-34): `sha3.NewLegacyKeccak256` (external). -/
def new : Obj := ⟨List.replicate 25 0, []⟩

/-- `xorIn` (external): the words of a block, the least significant byte first, onto the first lanes. -/
def xorIn (a : List Nat) (b : List UInt8) : List Nat :=
  a.mapIdx fun i v => if i < rate / 8 then v ^^^ Spec.Keccak.word ((b.drop (8 * i)).take 8) else v

/-- `permute` while writing (external): the buffer is used and empty afterwards. -/
def permute (d : Obj) : Obj := ⟨Spec.Keccak.keccakF (xorIn d.a d.buf), []⟩

/-- The loop of `Write` (external). Each round takes a byte at least, so that there are at most as many as there are bytes. -/
def writeLoop : Nat → Obj → List UInt8 → Obj
  | 0, d, _ => d
  | n + 1, d, p =>
    if p.length = 0 then d
    else if d.buf.length = 0 ∧ rate ≤ p.length then
      writeLoop n ⟨Spec.Keccak.keccakF (xorIn d.a (p.take rate)), d.buf⟩ (p.drop rate)
    else
      let todo := min (rate - d.buf.length) p.length
      let d' : Obj := ⟨d.a, d.buf ++ p.take todo⟩
      writeLoop n (if d'.buf.length = rate then permute d' else d') (p.drop todo)

/-- `Write` (external); its error is always nil. -/
def write (d : Obj) (p : List UInt8) : Obj := writeLoop p.length d p

/-- The last block, made by `padAndPermute` in a copy of the object (external): 1, zeros, and 0x80 onto the last byte. -/
def lastBlock (buf : List UInt8) : List UInt8 :=
  let b := buf ++ [0x01]
  let b := b ++ List.replicate (rate - b.length) 0
  b.set (rate - 1) (b.getD (rate - 1) 0 ^^^ 0x80)

/-- `Sum(in)` (external): the object stays as it is. -/
def sum (d : Obj) (i : List UInt8) : List UInt8 :=
  i ++ ((Spec.Keccak.keccakF (xorIn d.a (lastBlock d.buf))).flatMap Spec.Keccak.unword).take 32

/-- `Keccak256` (core/utils/utils.go:14-18). -/
def keccak256 (b : List UInt8) : Outcome (List UInt8) := .ok (sum (write new b) [])

/-- `MustHash` (core/utils/utils.go:21-27). -/
def mustHash (b : List UInt8) : Outcome (List UInt8) := do
  let out ← (keccak256 b).orPanic
  return PublicKey.rightAlign 32 out

/-- `MarshalTo(h)` of a point (point.go:267-273): the object and whether there is no error. -/
def pointTo (d : Obj) (P : Pt) : Outcome (Obj × Bool) :=
  match marshalBinary P with
  | .ok b => .ok (write d b, true)
  | .err => .ok (d, false)
  | .panic => .panic

/-- `EthereumAddress` (point.go:287-298). -/
def ethereumAddress (P : Pt) : Outcome (List UInt8) := do
  let m ← longMarshal P
  return copyInto 20 ((sum (write new m) []).drop 12)

/-- `ChallengeHash` (ethschnorr.go:64-88). -/
def challengeHash (P : Pt) (addr : List UInt8) (msg : Int) : Outcome Int := do
  let (h, fine) ← pointTo new P
  if !fine then .err
  else
    let h := write h (BigInt.bytes msg)
    let h := write h addr
    return Scalar.setBytes (sum h [])

/-- One of the loops of `sessionID` (ethdss.go:307-309, 311-313). -/
def pointsTo (d : Obj) : List Pt → Outcome Obj
  | [] => .ok d
  | P :: l => do
    let (d, _) ← pointTo d P
    pointsTo d l

/-- `sessionID` (ethdss.go:305-316). -/
def sessionID (a b : Dss.KeyShare) : Outcome (List UInt8) := do
  let h ← pointsTo new a.commits
  let h ← pointsTo h b.commits
  return sum h []

/-- `Hash` of a `PartialSig` (ethdss.go:291-296); `SH` is the hash of a share (kyber, external). -/
def psHash (SH : Dss.Share → List UInt8) (part : Dss.Share) (sessionID : List UInt8) : Int :=
  let h := write new (SH part)
  let h := write h sessionID
  BigInt.setBytes (sum h [])

/-- `Hash` of a `PublicKey` (public_key.go:91-97). -/
def keyHash (k : List UInt8) : Outcome (List UInt8) := do
  let p ← PublicKey.point k
  let m ← longMarshal p
  mustHash m

end Verif.Hash
