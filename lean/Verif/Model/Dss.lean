import Verif.Model.Schnorr
import Mathlib.Data.List.Sort

/-!
Model of /repo/ch/core/services/signatures/ethdss/ethdss.go and of the kyber `share` functions it calls (external;
contract stated here). `H` is the hash, `SH` the hash of a share (`PriShare.Hash`); both arbitrary functions.
-/
namespace Verif.Dss
open Verif.Point

/-- kyber `share.PriShare` with a non-nil scalar. -/
structure Share where
  I : Int
  V : Int
  deriving DecidableEq, Repr

/-- `DistKeyShare` (ethdss.go:46-49): the private share and the commitments. -/
structure KeyShare where
  share : Share
  commits : List Pt
  deriving DecidableEq, Repr

/-- A `ethschnorr.Signature` pointer: nil, or a struct whose scalar may be nil. -/
abbrev SigPtr := Option (List UInt8 × Option Int)

/-- The pointer to a complete signature. -/
def sigPtr (s : Schnorr.Sig) : SigPtr := some (s.addr, some s.s)

/-- `PartialSig` (ethdss.go:104-108) with a non-nil `Partial`. -/
structure PartialSig where
  part : Share
  sessionID : List UInt8
  signature : SigPtr
  deriving DecidableEq, Repr

/-- `DSS` (ethdss.go:53-89). The polynomials are determined by the commitments; `partialsIdx` is the list of keys. -/
structure DSS where
  secret : Int
  pub : Pt
  index : Nat
  participants : List Pt
  T : Int
  long : KeyShare
  random : KeyShare
  H2 : List Int
  msg : Int
  partials : List Share
  partialsIdx : List Int
  signed : Bool
  sessionID : List UInt8
  deriving DecidableEq, Repr

/-- `DSSArgs` (ethdss.go:92-100). -/
structure Args where
  secret : Int
  participants : List Pt
  long : KeyShare
  random : KeyShare
  H2 : List Int
  msg : Int
  T : Int
  deriving DecidableEq, Repr

section Kyber
/-- kyber `PubPoly.Eval(i)`: Horner's rule at `i + 1`, from the last commitment. -/
def evalCommits (cs : List Pt) (i : Int) : Outcome Pt :=
  cs.foldr (fun c acc => do
    let v ← acc
    let v ← mul (Scalar.setInt64 (1 + i)) v
    return add v c) (.ok null)

/-- Assignment to a Go map given as an association list. -/
def mapSet (m : List (Int × Int)) (k v : Int) : List (Int × Int) :=
  if m.any (fun p => p.1 == k) then m.map (fun p => if p.1 == k then (k, v) else p) else m ++ [(k, v)]

/-- kyber `xyScalar` after sorting: index to value, stopping at `t` entries; the abscissa of index `i` is `i + 1`. -/
def xyScalar (t : Int) : List (Int × Int) → List Share → List (Int × Int)
  | m, [] => m
  | m, s :: ss =>
    if s.I < 0 then xyScalar t m ss
    else
      let m' := mapSet m s.I s.V
      if (m'.length : Int) = t then m' else xyScalar t m' ss

/-- The abscissa of a share index. -/
def abscissa (i : Int) : Int := Scalar.setInt64 (i + 1)

/-- The inner loop of kyber `RecoverSecret`: numerator and denominator for one share, and their quotient. -/
def lagrangeTerm (m : List (Int × Int)) (p : Int × Int) : Outcome Int :=
  let r := m.foldl (fun (nd : Int × Int) q =>
    if q.1 = p.1 then nd
    else (Scalar.mul nd.1 (abscissa q.1), Scalar.mul nd.2 (Scalar.sub (abscissa q.1) (abscissa p.1))))
    (Scalar.set p.2, Scalar.one)
  Scalar.div r.1 r.2

/-- kyber `RecoverSecret`: Lagrange interpolation at 0 of the first `t` shares by index. The sort is stable here; for
shares with equal indices Go's order is unspecified. -/
def recoverSecret (shares : List Share) (t : Int) : Outcome Int :=
  let m := xyScalar t [] (shares.insertionSort (fun a b => a.I ≤ b.I))
  if (m.length : Int) < t then .err
  else m.foldl (fun acc p => do
    let a ← acc
    let d ← lagrangeTerm m p
    return Scalar.add a d) (.ok Scalar.zero)
end Kyber

variable (H : List UInt8 → List UInt8) (SH : Share → List UInt8)

/-- The bytes written by `MarshalTo` with the error ignored. -/
def marshalOrNothing (p : Pt) : List UInt8 :=
  match marshalBinary p with
  | .ok b => b
  | _ => []

/-- `sessionID` (ethdss.go:305-316). -/
def sessionIDOf (a b : KeyShare) : List UInt8 :=
  H ((a.commits ++ b.commits).flatMap marshalOrNothing)

/-- `NewDSS` (ethdss.go:115-146). -/
def newDSS (a : Args) : Outcome DSS := do
  let pub ← mulBase a.secret
  let i ← Outcome.ofOption (a.participants.findIdx? fun p => equal p pub)
  return ⟨a.secret, pub, i, a.participants, a.T, a.long, a.random, a.H2, a.msg, [], [], false,
    sessionIDOf H a.long a.random⟩

/-- `hashSig` (ethdss.go:272-281); `Commitments()[0]` panics on an empty list. -/
def hashSig (d : DSS) : Outcome Int := do
  let v ← (Outcome.ofOption d.random.commits.head?).orPanic
  let vAddress ← ethereumAddress H v
  let publicKey ← (Outcome.ofOption d.long.commits.head?).orPanic
  (Schnorr.challengeHash H publicKey vAddress d.msg).orPanic

/-- `PartialSig.Hash` (ethdss.go:291-296). -/
def psHash (part : Share) (sessionID : List UInt8) : Int := BigInt.setBytes (H (SH part ++ sessionID))

/-- The own share computed by `PartialSig` (ethdss.go:155-166). -/
def ownShare (d : DSS) : Outcome Share := do
  let h ← hashSig H d
  return ⟨d.index, Scalar.sub d.random.share.V (Scalar.mul h d.long.share.V)⟩

/-- `PartialSig` (ethdss.go:154-176) with nonce `k` for the signature on the share: new state and result. If signing
fails the share is still recorded. -/
def partialSig (k : Int) (d : DSS) : DSS × Outcome PartialSig :=
  match ownShare H d with
  | .ok sh =>
    let d' := if d.signed then d
      else { d with partialsIdx := (d.index : Int) :: d.partialsIdx, partials := d.partials ++ [sh], signed := true }
    (d', do
      let sig ← Schnorr.signWith H k d.secret (psHash H SH sh d.sessionID)
      return ⟨sh, d.sessionID, sigPtr sig⟩)
  | _ => (d, .panic)

/-- `findPub` (ethdss.go:298-303): a negative index panics. -/
def findPub (list : List Pt) (i : Int) : Outcome Pt :=
  if (list.length : Int) ≤ i then .err
  else if i < 0 then .panic
  else (Outcome.ofOption list[i.toNat]?).orPanic

/-- The tests of `ProcessPartialSig` (ethdss.go:185-233). -/
def checkPartialSig (d : DSS) (ps : PartialSig) : Outcome Unit := do
  let pub ← findPub d.participants ps.part.I
  let _ ← Outcome.require (ps.sessionID == d.sessionID)
  let _ ← Schnorr.verifyPtr H (.pt pub) (psHash H SH ps.part ps.sessionID) ps.signature
  let _ ← Outcome.require (d.H2.any fun idx => ps.part.I == idx)
  let _ ← Outcome.require (!d.partialsIdx.contains ps.part.I)
  let hash ← hashSig H d
  let randShare ← evalCommits d.random.commits ps.part.I
  let longShare ← evalCommits d.long.commits ps.part.I
  let challengeSummand ← mul hash longShare
  let maybe := sub randShare challengeSummand
  let commitment ← mulBase ps.part.V
  Outcome.require (equal commitment maybe)

/-- `ProcessPartialSig` (ethdss.go:185-237). -/
def processPartialSig (d : DSS) (ps : PartialSig) : DSS × Outcome Unit :=
  match checkPartialSig H SH d ps with
  | .ok () => ({ d with partialsIdx := ps.part.I :: d.partialsIdx, partials := d.partials ++ [ps.part] }, .ok ())
  | .err => (d, .err)
  | .panic => (d, .panic)

/-- `EnoughPartialSig` (ethdss.go:242-244). -/
def enoughPartialSig (d : DSS) : Bool := decide (d.T ≤ (d.partials.length : Int))

/-- `Signature` (ethdss.go:251-267). -/
def signature (d : DSS) : Outcome Schnorr.Sig :=
  if !enoughPartialSig d then .err
  else do
    let s ← recoverSecret d.partials d.T
    let c ← (Outcome.ofOption d.random.commits.head?).orPanic
    let addr ← ethereumAddress H c
    return ⟨addr, s⟩

/-- A call on a DSS: `PartialSig` with a nonce, or `ProcessPartialSig`. -/
inductive Call where
  | partialSig (k : Int)
  | process (ps : PartialSig)
  deriving DecidableEq, Repr

/-- The state after a call. -/
def step (d : DSS) : Call → DSS
  | .partialSig k => (partialSig H SH k d).1
  | .process ps => (processPartialSig H SH d ps).1

/-- The state after a history of calls. -/
def run (d : DSS) (cs : List Call) : DSS := cs.foldl (step H SH) d

end Verif.Dss
