import Verif.Model.Kdats

/-! What is said about the tables of dss.go: what a run has in them, and what it would do if it had that to itself. -/
namespace Verif.Spec.Kdats
open Verif.Prot Verif.Dto Verif.Dss Verif.Dkg Verif.Tables Verif.Kdats
variable {K : Type}

/-- The data of a run, wherever they are. -/
def view (M : Mem K) (r : Nat) : Option (Data K) :=
  M.runs[r]?.bind fun o => M.gens[o.gen]?.map fun k => ⟨k, o.qual, (M.kdats.get? r).join.bind fun p => M.dsss[p]?, o.out⟩

/-- The environment for a guest and a run id at this time. -/
def envOf (c : World K) (M : Mem K) (guest : Int) (id : String) (nonce : Int) : Env :=
  ⟨c.secret guest, c.pubs, c.threshold, c.longterms.get? guest, docFor M.docs guest id, nonce⟩

/-- A call of a protocol with these stages, with the data at hand. -/
def solo (st : List (Stage Dto Obj (Data K))) (u : Data K) : Kdats.Call → Outcome (Data K × List (Act Dto))
  | .step n => match st[n]?.bind (·.step) with
    | none => .err
    | some f => f u
  | .proc n x => match st[n]?.bind (·.proc) with
    | none => .err
    | some f => f u x

/-- The stages of the protocol that signs or of the other. -/
def stagesOf (c : World K) (signs : Bool) (env : Env) : List (Stage Dto Obj (Data K)) :=
  if signs then dssStages c.y c.H c.SH env else dkgStages c.y

/-- How many generators were made to verify the configuration. -/
def verified (h : List (Kdats.Ev K)) : Nat := h.countP fun e => match e with
  | .verify _ _ => true
  | _ => false

/-- The runs that sign and have not been cleaned up. -/
def signing (M : Mem K) : List RunObj := M.runs.filter fun o => o.signs && !o.terminated

end Verif.Spec.Kdats
