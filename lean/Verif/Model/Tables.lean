import Verif.Model.Basic
import Verif.Model.GoMap

/-!
Model of the tables of documents (/repo/siggy/src/protocol/dss.go) and of outputs (/repo/siggy/src/protocol/prot.go). Every
function holds the lock of its table from beginning to end, so a history of calls is a sequence, whatever the threads.
-/
namespace Verif.Tables

/-- `_docs` (dss.go:12): guest index to run id to document. -/
abbrev Docs := GoMap Int (GoMap String Int)

/-- The calls that change `_docs`. -/
inductive DocOp where
  | register (guest : Int) (runId : String) (doc : Int)
  | deregister (guest : Int) (runId : String)
  deriving DecidableEq, Repr

/-- `dss_init` (dss.go:22-26). -/
def dssInit (docs : Docs) (guests : List Int) : Docs := guests.foldl (fun d g => d.set g []) docs

/-- `dss_register_doc` (dss.go:28-29), which panics (assignment to a nil map) for an unknown guest, and
`dss_deregister_doc` (dss.go:30-31). -/
def docStep (docs : Docs) : DocOp → Outcome Docs
  | .register g id doc => match docs.get? g with
    | none => .panic
    | some m => .ok (docs.set g (m.set id doc))
  | .deregister g id => match docs.get? g with
    | none => .ok docs
    | some m => .ok (docs.set g (m.delete id))

/-- A history of calls. -/
def docExec (docs : Docs) : List DocOp → Outcome Docs
  | [] => .ok docs
  | op :: ops => docStep docs op >>= fun d => docExec d ops

/-- `_doc_for` (dss.go:36-38): nil if there is none. -/
def docFor (docs : Docs) (guest : Int) (runId : String) : Option Int := (docs.get? guest).bind fun m => m.get? runId

/-- `_outputs` (prot.go:315): protocol and guest index to run id to output. -/
abbrev Outputs (V : Type) := GoMap (Int × Int) (GoMap String V)

/-- The calls on `_outputs`. -/
inductive OutOp (V : Type) where
  | push (pc guest : Int) (runId : String) (value : V)
  | pop (pc guest : Int) (runId : String)
  deriving DecidableEq, Repr

variable {V : Type}

/-- `_init_outputs` (prot.go:318-325) for `n` protocols. -/
def initOutputs (V : Type) (n : Nat) (guests : List Int) : Outputs V :=
  ((List.range n).flatMap fun (pc : Nat) => guests.map fun g => ((pc : Int), g)).foldl (fun o k => o.set k []) []

/-- `push_output` (prot.go:327-329). For an unknown protocol or guest there is no lock, and it panics. -/
def pushOutput (o : Outputs V) (pc guest : Int) (runId : String) (v : V) : Outcome (Outputs V) :=
  match o.get? (pc, guest) with
  | none => .panic
  | some m => .ok (o.set (pc, guest) (m.set runId v))

/-- `pop_output` (prot.go:331-336). -/
def popOutput (o : Outputs V) (pc guest : Int) (runId : String) : Outcome (Outputs V × Option V) :=
  match o.get? (pc, guest) with
  | none => .panic
  | some m => .ok (o.set (pc, guest) (m.delete runId), m.get? runId)

/-- A history of calls, with the results of the pops. -/
def outExec (o : Outputs V) : List (OutOp V) → Outcome (Outputs V × List (Option V))
  | [] => .ok (o, [])
  | .push pc g id v :: ops => do
    let o ← pushOutput o pc g id v
    outExec o ops
  | .pop pc g id :: ops => do
    let (o, v) ← popOutput o pc g id
    let (o, vs) ← outExec o ops
    return (o, v :: vs)

end Verif.Tables
