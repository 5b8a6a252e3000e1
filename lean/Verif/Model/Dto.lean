import Verif.Model.Layout
import Verif.Model.Dss

/-!
Model of /repo/siggy/src/protocol/{dkg_dto.go, dss_dto.go} and /repo/siggy/src/signode/longterm_db.go. Pointers inside
the kyber structs are non-nil, as the kyber library makes them. Type assertions on the DTOs are checked by the caller
(prot.go). gob encoding and decoding gives back the same value (external).
-/
namespace Verif.Dto
open Verif.Point Verif.Layout

/-- kyber `vss.EncryptedDeal`. -/
structure EncryptedDeal where
  dhKey : Pt
  signature : List UInt8
  nonce : List UInt8
  cipher : List UInt8
  deriving DecidableEq, Repr

/-- kyber `dkg.Deal`. -/
structure Deal where
  index : Nat
  deal : EncryptedDeal
  deriving DecidableEq, Repr

/-- `DealDTO` (dkg_dto.go:8-14). -/
structure DealDTO where
  index : Nat
  dhKey : List UInt8
  signature : List UInt8
  nonce : List UInt8
  cipher : List UInt8
  deriving DecidableEq, Repr

/-- `deal_to_dto` (dkg_dto.go:16-25). -/
def dealToDto (d : Deal) : Outcome DealDTO := do
  let k ← marshalBinary d.deal.dhKey
  return ⟨d.index, k, d.deal.signature, d.deal.nonce, d.deal.cipher⟩

/-- `dto_to_deal` (dkg_dto.go:27-38). -/
def dtoToDeal (d : DealDTO) : Outcome Deal := do
  let p ← unmarshalBinary d.dhKey
  return ⟨d.index, ⟨p, d.signature, d.nonce, d.cipher⟩⟩

/-- `pri_share_dto` (dkg_dto.go:40). -/
structure PriShareDTO where
  I : Int
  V : List UInt8
  deriving DecidableEq, Repr

/-- `pri_share_to_dto` (dkg_dto.go:42-45). -/
def priShareToDto (s : Dss.Share) : Outcome PriShareDTO := do
  let v ← Scalar.marshalBinary s.V
  return ⟨s.I, v⟩

/-- `dto_to_pri_share` (dkg_dto.go:47-51). -/
def dtoToPriShare (d : PriShareDTO) : Outcome Dss.Share := do
  let v ← Scalar.unmarshalBinary d.V
  return ⟨d.I, v⟩

/-- kyber `vss.Deal`. -/
structure VssDeal where
  sessionID : List UInt8
  secShare : Dss.Share
  rndShare : Dss.Share
  T : Nat
  commitments : List Pt
  deriving DecidableEq, Repr

/-- `_vss_deal_dto` (dkg_dto.go:53-57). -/
structure VssDealDTO where
  sessionID : List UInt8
  secShare : PriShareDTO
  rndShare : PriShareDTO
  T : Nat
  commitments : List (List UInt8)
  deriving DecidableEq, Repr

/-- `_vss_deal_to_dto` (dkg_dto.go:59-70). -/
def vssDealToDto (d : VssDeal) : Outcome VssDealDTO := do
  let sp ← priShareToDto d.secShare
  let rp ← priShareToDto d.rndShare
  let cbs ← mapO marshalBinary d.commitments
  return ⟨d.sessionID, sp, rp, d.T, cbs⟩

/-- `_dto_to_vss_deal` (dkg_dto.go:72-83). -/
def dtoToVssDeal (d : VssDealDTO) : Outcome VssDeal := do
  let sec ← dtoToPriShare d.secShare
  let rnd ← dtoToPriShare d.rndShare
  let cs ← mapO unmarshalBinary d.commitments
  return ⟨d.sessionID, sec, rnd, d.T, cs⟩

/-- kyber `vss.Justification` inside `dkg.Justification`. -/
structure Justification where
  index : Nat
  jSessionID : List UInt8
  jIndex : Nat
  jDeal : VssDeal
  jSignature : List UInt8
  deriving DecidableEq, Repr

/-- `JustificationDTO` (dkg_dto.go:85-91). -/
structure JustificationDTO where
  index : Nat
  jSessionID : List UInt8
  jIndex : Nat
  jDeal : VssDealDTO
  jSignature : List UInt8
  deriving DecidableEq, Repr

/-- `justification_to_dto` (dkg_dto.go:93-102). -/
def justificationToDto (j : Justification) : Outcome JustificationDTO := do
  let jd ← vssDealToDto j.jDeal
  return ⟨j.index, j.jSessionID, j.jIndex, jd, j.jSignature⟩

/-- `dto_to_justification` (dkg_dto.go:104-115). -/
def dtoToJustification (d : JustificationDTO) : Outcome Justification := do
  let deal ← dtoToVssDeal d.jDeal
  return ⟨d.index, d.jSessionID, d.jIndex, deal, d.jSignature⟩

/-- kyber `dkg.SecretCommits`. -/
structure SecretCommits where
  index : Nat
  commitments : List Pt
  sessionID : List UInt8
  signature : List UInt8
  deriving DecidableEq, Repr

/-- `CommitsDTO` (dkg_dto.go:117-122). -/
structure CommitsDTO where
  index : Nat
  commitments : List (List UInt8)
  sessionID : List UInt8
  signature : List UInt8
  deriving DecidableEq, Repr

/-- `commits_to_dto` (dkg_dto.go:124-134). -/
def commitsToDto (sc : SecretCommits) : Outcome CommitsDTO := do
  let cs ← mapO marshalBinary sc.commitments
  return ⟨sc.index, cs, sc.sessionID, sc.signature⟩

/-- `dto_to_commits` (dkg_dto.go:136-147). -/
def dtoToCommits (d : CommitsDTO) : Outcome SecretCommits := do
  let cs ← mapO unmarshalBinary d.commitments
  return ⟨d.index, cs, d.sessionID, d.signature⟩

/-- kyber `dkg.ComplaintCommits`. -/
structure ComplaintCommits where
  index : Nat
  dealerIndex : Nat
  deal : VssDeal
  signature : List UInt8
  deriving DecidableEq, Repr

/-- `ComplCommitsDTO` (dkg_dto.go:149-154). -/
structure ComplCommitsDTO where
  index : Nat
  dealerIndex : Nat
  deal : VssDealDTO
  signature : List UInt8
  deriving DecidableEq, Repr

/-- `compl_commits_to_dto` (dkg_dto.go:156-164). -/
def complCommitsToDto (c : ComplaintCommits) : Outcome ComplCommitsDTO := do
  let d ← vssDealToDto c.deal
  return ⟨c.index, c.dealerIndex, d, c.signature⟩

/-- `dto_to_compl_commits` (dkg_dto.go:166-175). -/
def dtoToComplCommits (d : ComplCommitsDTO) : Outcome ComplaintCommits := do
  let deal ← dtoToVssDeal d.deal
  return ⟨d.index, d.dealerIndex, deal, d.signature⟩

/-- kyber `dkg.ReconstructCommits`. -/
structure ReconsCommits where
  sessionID : List UInt8
  index : Nat
  dealerIndex : Nat
  share : Dss.Share
  signature : List UInt8
  deriving DecidableEq, Repr

/-- `ReconsCommitsDTO` (dkg_dto.go:177-183). -/
structure ReconsCommitsDTO where
  sessionID : List UInt8
  index : Nat
  dealerIndex : Nat
  share : PriShareDTO
  signature : List UInt8
  deriving DecidableEq, Repr

/-- `recons_commits_to_dto` (dkg_dto.go:185-194). -/
def reconsCommitsToDto (r : ReconsCommits) : Outcome ReconsCommitsDTO := do
  let s ← priShareToDto r.share
  return ⟨r.sessionID, r.index, r.dealerIndex, s, r.signature⟩

/-- `dto_to_recons_commits` (dkg_dto.go:196-206). -/
def dtoToReconsCommits (d : ReconsCommitsDTO) : Outcome ReconsCommits := do
  let s ← dtoToPriShare d.share
  return ⟨d.sessionID, d.index, d.dealerIndex, s, d.signature⟩

/-- `PartSigDTO` (dss_dto.go:7-11). -/
structure PartSigDTO where
  part : PriShareDTO
  sessionID : List UInt8
  signature : Dss.SigPtr
  deriving DecidableEq, Repr

/-- `partsig_to_dto` (dss_dto.go:13-18). -/
def partsigToDto (s : Dss.PartialSig) : Outcome PartSigDTO := do
  let p ← priShareToDto s.part
  return ⟨p, s.sessionID, s.signature⟩

/-- `dto_to_partsig` (dss_dto.go:20-25). -/
def dtoToPartsig (d : PartSigDTO) : Outcome Dss.PartialSig := do
  let p ← dtoToPriShare d.part
  return ⟨p, d.sessionID, d.signature⟩

/-- `_DKSDTO` (longterm_db.go:6). -/
structure DksDTO where
  commits : List (List UInt8)
  share : PriShareDTO
  deriving DecidableEq, Repr

/-- `_dks_to_dto` (longterm_db.go:20-26). -/
def dksToDto (s : Dss.KeyShare) : Outcome DksDTO := do
  let cs ← mapO marshalBinary s.commits
  let p ← priShareToDto s.share
  return ⟨cs, p⟩

/-- `_dto_to_dks` (longterm_db.go:33-39). -/
def dtoToDks (d : DksDTO) : Outcome Dss.KeyShare := do
  let cs ← mapO unmarshalBinary d.commits
  let s ← dtoToPriShare d.share
  return ⟨s, cs⟩

/-- `_lts_to_dto` (longterm_db.go:13-18); the order of iteration does not matter for the resulting map. -/
def ltsToDto (lts : GoMap Int Dss.KeyShare) : Outcome (GoMap Int DksDTO) :=
  mapO (fun (p : Int × Dss.KeyShare) => do
    let d ← dksToDto p.2
    return (p.1, d)) lts

/-- `_dto_to_lts` (longterm_db.go:28-31). -/
def dtoToLts (d : GoMap Int DksDTO) : Outcome (GoMap Int Dss.KeyShare) :=
  mapO (fun (p : Int × DksDTO) => do
    let s ← dtoToDks p.2
    return (p.1, s)) d

/-- `save_longterms` (longterm_db.go:8-11): the map written to the file. -/
def saveLongterms (lts : GoMap Int Dss.KeyShare) : Outcome (GoMap Int DksDTO) := (ltsToDto lts).orPanic

/-- `_verify_keys_subset` (longterm_db.go:50-53). -/
def verifyKeysSubset {Q R : Type} (xs : GoMap Int Q) (ys : GoMap Int R) : Outcome Unit :=
  Outcome.require (xs.keys.all fun k => (ys.get? k).isSome)

/-- `load_longterms` (longterm_db.go:42-48) on the decoded file. -/
def loadLongterms {Q : Type} (guests : GoMap Int Q) (file : GoMap Int DksDTO) : Outcome (GoMap Int Dss.KeyShare) := do
  let lts ← (dtoToLts file).orPanic
  let _ ← (verifyKeysSubset guests lts).orPanic
  return lts

end Verif.Dto
