import Verif.Model.Prot
import Verif.Model.Dto

/-!
Model of /repo/siggy/src/protocol/dkg.go and dss.go: the two protocols as stages for prot.go. The distributed key generator
of the kyber library is a parameter with arbitrary behaviour (`Kyb`). The globals that dss.go reads (long-term share,
document) are the environment of a run (`Env`).
-/
namespace Verif.Dkg
open Verif.Prot Verif.Dto Verif.Dss

/-- kyber `vss.Response`. -/
structure VssResponse where
  sessionID : List UInt8
  index : Nat
  approved : Bool
  signature : List UInt8
  deriving DecidableEq, Repr

/-- kyber `dkg.Response`; the inner pointer is nil if the sender left it out. -/
structure Response where
  index : Nat
  response : Option VssResponse
  deriving DecidableEq, Repr

/-- A received DTO, by its Go type. `other` is any further type that gob can decode. -/
inductive Dto where
  | deal (d : DealDTO)
  | response (r : Response)
  | justification (j : JustificationDTO)
  | commits (c : CommitsDTO)
  | complCommits (c : ComplCommitsDTO)
  | reconsCommits (r : ReconsCommitsDTO)
  | partsig (s : PartSigDTO)
  | other
  deriving DecidableEq, Repr

/-- An unmarshalled object, by its Go type. -/
inductive Obj where
  | deal (d : Deal)
  | response (r : Response)
  | justification (j : Justification)
  | commits (c : SecretCommits)
  | complCommits (c : ComplaintCommits)
  | reconsCommits (r : ReconsCommits)
  | partsig (s : PartialSig)
  deriving DecidableEq, Repr

/-- The methods of kyber's `DistKeyGenerator` (external), on its state `K`. -/
structure Kyb (K : Type) where
  deals : K → K × Outcome (List (Int × Deal))
  processDeal : K → Deal → K × Outcome (Option Response)
  processResponse : K → Response → K × Outcome (Option Justification)
  processJustification : K → Justification → K × Outcome Unit
  setTimeout : K → K
  certified : K → Bool
  qual : K → List Int
  secretCommits : K → K × Outcome SecretCommits
  processSecretCommits : K → SecretCommits → K × Outcome (Option ComplaintCommits)
  processComplaintCommits : K → ComplaintCommits → K × Outcome (Option ReconsCommits)
  processReconstructCommits : K → ReconsCommits → K × Outcome Unit
  finished : K → Bool
  distKeyShare : K → Outcome KeyShare

/-- What a run pushes as its output (`push_output`): `dks` (dkg.go:129-132) or a signature. -/
inductive Output where
  | key (share : KeyShare) (qual : List Int)
  | sig (s : Schnorr.Sig)
  deriving DecidableEq, Repr

/-- What the steps and processors of a run work on: `kyber_dat`, `prot_dat` (`_dkg_prot_dat`, nil at first), the entry of
`dss_kdats` for the run, and what was pushed as output. -/
structure Data (K : Type) where
  kyb : K
  qual : Option (List Int)
  dss : Option DSS
  out : List Output

/-- The data dss.go gets for a run: `kdat_args` (dss.go:50-54), the long-term share of the guest and the document of the run,
both nil if missing, and the nonce that `PartialSig` draws. -/
structure Env where
  secret : Int
  participants : List Point.Pt
  threshold : Int
  long : Option KeyShare
  doc : Option Int
  nonce : Int

variable {K : Type} (y : Kyb K)

/-- `_op_deal` and the others (dkg.go:6-8, dss.go:15). -/
def opDeal : Int := 1
@[inherit_doc opDeal] def opResponse : Int := 2
@[inherit_doc opDeal] def opJustification : Int := 3
@[inherit_doc opDeal] def opCommits : Int := 5
@[inherit_doc opDeal] def opComplCommits : Int := 6
@[inherit_doc opDeal] def opReconsCommits : Int := 7
@[inherit_doc opDeal] def opDkgFinal : Int := 8
@[inherit_doc opDeal] def opDssPartsig : Int := opDkgFinal + 2

/-- `broadcast_qual` (dkg.go:45-50): nothing is sent when marshalling fails; `_dkg_pdat` panics on nil. -/
def broadcastQual {T S : Type} (u : Data K) (op : Int) (wrap : S → Dto) (marshal : T → Outcome S) (data : T) :
    Outcome (List (Act Dto)) :=
  match marshal data with
  | .panic => .panic
  | .err => .ok []
  | .ok dto => match u.qual with
    | none => .panic
    | some q => .ok [.multicast q op (wrap dto)]

/-- `step_init` (dkg.go:54). -/
def stepInit (u : Data K) : Outcome (Data K × List (Act Dto)) := .ok ({ u with qual := some [] }, [])

/-- A call whose error is only reported. -/
def attempt {T : Type} : Outcome T → Outcome (Option T)
  | .ok a => .ok (some a)
  | .err => .ok none
  | .panic => .panic

/-- The loop of `step_deal` (dkg.go:60-63). -/
def sendDeals : List (Int × Deal) → Outcome (List (Act Dto))
  | [] => .ok []
  | p :: ps => do
    let dto ← attempt (dealToDto p.2)
    let as ← sendDeals ps
    return dto.toList.map (fun dto => .send p.1 opDeal (.deal dto)) ++ as

/-- `step_deal` (dkg.go:56-63). -/
def stepDeal (u : Data K) : Outcome (Data K × List (Act Dto)) :=
  let u' := { u with kyb := (y.deals u.kyb).1 }
  match (y.deals u.kyb).2 with
  | .panic => .panic
  | .err => .ok (u', [.abandon])
  | .ok ds => sendDeals ds >>= fun as => .ok (u', as)

/-- `process_deal` (dkg.go:65-70). -/
def processDeal (u : Data K) : Obj → Outcome (Data K × List (Act Dto))
  | .deal d =>
    let u' := { u with kyb := (y.processDeal u.kyb d).1 }
    match (y.processDeal u.kyb d).2 with
    | .panic => .panic
    | .err => .ok (u', [])
    | .ok none => .ok (u', [])
    | .ok (some resp) => .ok (u', [.broadcast opResponse (.response resp)])
  | _ => .panic

/-- `process_response` (dkg.go:72-80). -/
def processResponse (u : Data K) : Obj → Outcome (Data K × List (Act Dto))
  | .response r =>
    let u' := { u with kyb := (y.processResponse u.kyb r).1 }
    match (y.processResponse u.kyb r).2 with
    | .panic => .panic
    | .err => .ok (u', [])
    | .ok none => .ok (u', [])
    | .ok (some j) => match justificationToDto j with
      | .panic => .panic
      | .err => .ok (u', [])
      | .ok dto => .ok (u', [.broadcast opJustification (.justification dto)])
  | _ => .panic

/-- `process_justification` (dkg.go:82-83). -/
def processJustification (u : Data K) : Obj → Outcome (Data K × List (Act Dto))
  | .justification j =>
    match (y.processJustification u.kyb j).2 with
    | .panic => .panic
    | _ => .ok ({ u with kyb := (y.processJustification u.kyb j).1 }, [])
  | _ => .panic

/-- `step_vss_done` (dkg.go:85-89). -/
def stepVssDone (u : Data K) : Outcome (Data K × List (Act Dto)) := .ok ({ u with kyb := y.setTimeout u.kyb }, [])

/-- `step_commits` (dkg.go:91-98) with `_cache_qual` (dkg.go:52). -/
def stepCommits (u : Data K) : Outcome (Data K × List (Act Dto)) :=
  match u.qual with
  | none => .panic
  | some _ =>
    let u1 := { u with qual := some (y.qual u.kyb) }
    if !y.certified u.kyb then .ok (u1, [.abandon])
    else
      let u2 := { u1 with kyb := (y.secretCommits u.kyb).1 }
      match (y.secretCommits u.kyb).2 with
      | .panic => .panic
      | .err => .ok (u2, [.abandon])
      | .ok sc => broadcastQual u2 opCommits .commits commitsToDto sc >>= fun as => .ok (u2, as)

/-- `process_commits` (dkg.go:100-105). -/
def processCommits (u : Data K) : Obj → Outcome (Data K × List (Act Dto))
  | .commits c =>
    let u' := { u with kyb := (y.processSecretCommits u.kyb c).1 }
    match (y.processSecretCommits u.kyb c).2 with
    | .panic => .panic
    | .err => .ok (u', [])
    | .ok none => .ok (u', [])
    | .ok (some cc) => broadcastQual u' opComplCommits .complCommits complCommitsToDto cc >>= fun as => .ok (u', as)
  | _ => .panic

/-- `process_compl_commits` (dkg.go:107-112). -/
def processComplCommits (u : Data K) : Obj → Outcome (Data K × List (Act Dto))
  | .complCommits c =>
    let u' := { u with kyb := (y.processComplaintCommits u.kyb c).1 }
    match (y.processComplaintCommits u.kyb c).2 with
    | .panic => .panic
    | .err => .ok (u', [])
    | .ok none => .ok (u', [])
    | .ok (some rc) => broadcastQual u' opReconsCommits .reconsCommits reconsCommitsToDto rc >>= fun as => .ok (u', as)
  | _ => .panic

/-- `process_recons_commits` (dkg.go:114-116). -/
def processReconsCommits (u : Data K) : Obj → Outcome (Data K × List (Act Dto))
  | .reconsCommits r =>
    match (y.processReconstructCommits u.kyb r).2 with
    | .panic => .panic
    | _ => .ok ({ u with kyb := (y.processReconstructCommits u.kyb r).1 }, [])
  | _ => .panic

/-- `step_final` (dkg.go:118-127). -/
def stepFinal (u : Data K) : Outcome (Data K × List (Act Dto)) :=
  if y.finished u.kyb then
    match y.distKeyShare u.kyb with
    | .panic => .panic
    | .err => .ok (u, [.abandon])
    | .ok share => match u.qual with
      | none => .panic
      | some q => .ok ({ u with out := u.out ++ [.key share q] }, [])
  else .ok (u, [.abandon])

/-! Validators. A `uint32` is a natural number below 2^32. -/

/-- `uint32(sender)`. -/
def uint32 (i : Int) : Nat := (i % 2 ^ 32).toNat

/-- `_dkg_deal_v` (dkg.go:136-137). -/
def dealV : Obj → Int → Outcome Bool
  | .deal d, i => .ok (decide (d.index = uint32 i))
  | _, _ => .panic
/-- `_dkg_response_v` (dkg.go:138-139): dereferences the inner pointer. -/
def responseV : Obj → Int → Outcome Bool
  | .response r, i => match r.response with
    | none => .panic
    | some v => .ok (decide (v.index = uint32 i))
  | _, _ => .panic
/-- `_dkg_justification_v` (dkg.go:140-142). -/
def justificationV : Obj → Int → Outcome Bool
  | .justification j, i => .ok (decide (j.index = uint32 i) && decide (j.jIndex = uint32 i))
  | _, _ => .panic
/-- `_dkg_commits_v` (dkg.go:143-144). -/
def commitsV : Obj → Int → Outcome Bool
  | .commits c, i => .ok (decide (c.index = uint32 i))
  | _, _ => .panic
/-- `_dkg_compl_commits_v` (dkg.go:145-146). -/
def complCommitsV : Obj → Int → Outcome Bool
  | .complCommits c, i => .ok (decide (c.index = uint32 i))
  | _, _ => .panic
/-- `_dkg_recons_commits_v` (dkg.go:147-148). -/
def reconsCommitsV : Obj → Int → Outcome Bool
  | .reconsCommits c, i => .ok (decide (c.index = uint32 i))
  | _, _ => .panic
/-- `dss_partsig_v` (dss.go:110-111). -/
def partsigV : Obj → Int → Outcome Bool
  | .partsig s, i => .ok (decide (s.part.I = i))
  | _, _ => .panic

/-- The type registered for a stage (`dto_type`, prot.go:35). -/
inductive Kind where
  | deal
  | response
  | justification
  | commits
  | complCommits
  | reconsCommits
  | partsig
  deriving DecidableEq, Repr

/-- `reflect.TypeOf(dto) == dto_type`. -/
def hasKind : Kind → Dto → Bool
  | .deal, .deal _ => true
  | .response, .response _ => true
  | .justification, .justification _ => true
  | .commits, .commits _ => true
  | .complCommits, .complCommits _ => true
  | .reconsCommits, .reconsCommits _ => true
  | .partsig, .partsig _ => true
  | _, _ => false

/-- The unmarshallers of the stages, with the type assertions in them. -/
def unmarshal : Kind → Dto → Outcome Obj
  | .deal, .deal d => dtoToDeal d >>= fun o => .ok (.deal o)
  | .response, .response r => .ok (.response r)
  | .justification, .justification d => dtoToJustification d >>= fun o => .ok (.justification o)
  | .commits, .commits d => dtoToCommits d >>= fun o => .ok (.commits o)
  | .complCommits, .complCommits d => dtoToComplCommits d >>= fun o => .ok (.complCommits o)
  | .reconsCommits, .reconsCommits d => dtoToReconsCommits d >>= fun o => .ok (.reconsCommits o)
  | .partsig, .partsig d => dtoToPartsig d >>= fun o => .ok (.partsig o)
  | _, _ => .panic

/-- `ps` (prot.go:30-35) without a processor. -/
def psStep (step : Data K → Outcome (Data K × List (Act Dto))) : Stage Dto Obj (Data K) :=
  ⟨some step, none, fun _ => .panic, fun _ _ => .panic, fun _ => false, 25⟩

/-- `ps` (prot.go:30-35) with a processor. -/
def psProc (step : Option (Data K → Outcome (Data K × List (Act Dto))))
    (proc : Data K → Obj → Outcome (Data K × List (Act Dto))) (kind : Kind) (v : Obj → Int → Outcome Bool) :
    Stage Dto Obj (Data K) := ⟨step, some proc, unmarshal kind, v, hasKind kind, 75⟩

/-- The stages of the DKG protocol (dkg.go:15-31). -/
def dkgStages : List (Stage Dto Obj (Data K)) :=
  [ psStep stepInit,
    psProc (some (stepDeal y)) (processDeal y) .deal dealV,
    psProc none (processResponse y) .response responseV,
    psProc none (processJustification y) .justification justificationV,
    psStep (stepVssDone y),
    psProc (some (stepCommits y)) (processCommits y) .commits commitsV,
    psProc none (processComplCommits y) .complCommits complCommitsV,
    psProc none (processReconsCommits y) .reconsCommits reconsCommitsV,
    psStep (stepFinal y) ]

variable (H : List UInt8 → List UInt8) (SH : Share → List UInt8) (env : Env)

/-- `st_init` (dss.go:78-89). With a nil long-term share `NewDSS` panics; a nil document makes the next step panic, which is
modelled here already. -/
def stInit (u : Data K) : Outcome (Data K × List (Act Dto)) :=
  match y.distKeyShare u.kyb with
  | .panic => .panic
  | .err => .ok (u, [.abandon])
  | .ok random => match env.long, env.doc with
    | some long, some doc => match newDSS H ⟨env.secret, env.participants, long, random, y.qual u.kyb, doc, env.threshold⟩ with
      | .panic => .panic
      | .err => .ok ({ u with dss := none }, [.abandon])
      | .ok d => .ok ({ u with dss := some d }, [])
    | _, _ => .panic

/-- `st_partsig` (dss.go:91-94). -/
def stPartsig (u : Data K) : Outcome (Data K × List (Act Dto)) :=
  match u.dss with
  | none => .panic
  | some d =>
    let u' := { u with dss := some (partialSig H SH env.nonce d).1 }
    match (partialSig H SH env.nonce d).2 with
    | .panic => .panic
    | .err => .ok (u', [.abandon])
    | .ok sig => broadcastQual u' opDssPartsig .partsig partsigToDto sig >>= fun as => .ok (u', as)

/-- `pr_partsig` (dss.go:96-97). -/
def prPartsig (u : Data K) : Obj → Outcome (Data K × List (Act Dto))
  | .partsig s => match u.dss with
    | none => .panic
    | some d => match (processPartialSig H SH d s).2 with
      | .panic => .panic
      | _ => .ok ({ u with dss := some (processPartialSig H SH d s).1 }, [])
  | _ => .panic

/-- `dss_st_final` (dss.go:99-106). -/
def dssStFinal (u : Data K) : Outcome (Data K × List (Act Dto)) :=
  match u.dss with
  | none => .panic
  | some d =>
    if !enoughPartialSig d then .ok (u, [.abandon])
    else match signature H d with
      | .panic => .panic
      | .err => .ok (u, [.abandon])
      | .ok s => .ok ({ u with out := u.out ++ [.sig s] }, [])

/-- `dss_stages` (dss.go:40-48). -/
def dssStages : List (Stage Dto Obj (Data K)) :=
  dkgStages y ++ [ psStep (stInit y H env), psProc (some (stPartsig H SH env)) (prPartsig H SH) .partsig partsigV,
    psStep (dssStFinal H) ]

/-- `_new_run` for the DKG protocol (prot.go:174-183, dkg.go:13-14). -/
def dkgConf (id : String) (self : Int) (members : Nat) : Conf Dto Obj (Data K) := ⟨0, id, self, members, dkgStages y⟩

/-- `_new_run` for the DSS protocol (prot.go:174-183, dss.go:19). -/
def dssConf (id : String) (self : Int) (members : Nat) : Conf Dto Obj (Data K) := ⟨1, id, self, members, dssStages y H SH env⟩

/-- The data of a new run. -/
def newData (k : K) : Data K := ⟨k, none, none, []⟩

end Verif.Dkg
