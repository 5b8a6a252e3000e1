import Verif.Model.Node
import Verif.Model.Signode

/-!
Model of the signing tool as it signs (/repo/siggy/src/signode/signode.go in the mode with a file of long-term keys): the node
of `Verif.Model.Node` together with what goes on inside its protocol runs (`Verif.Model.Dkg`), the tables of documents and of
outputs, and the goroutines `_run_sig`, one for each request read from standard input. Events come in any order. Times are in
milliseconds.
-/
namespace Verif.Program
open Verif.Prot Verif.Dto Verif.Dss Verif.Dkg Verif.Tables Verif.Signode

/-- What is fixed when the program has started (signode.go:11-29, prot.go:87-90): the members, the guests in this process with
their secrets and long-term shares, and the threshold. The generator that `make_kyber_dat` gives to the r-th run belongs to the
guest of the run, has the guest's secret in it and draws its own random numbers, so its behaviour may depend on the guest and on the
run. `allow` is the allowance that
`_runner_run_guest` asks for (runner.go:42-44), and `nonce r` what `PartialSig` draws in the r-th run. -/
structure Cfg (K : Type) where
  y : Int → Nat → Kyb K
  gen : Int → Nat → K
  H : List UInt8 → List UInt8
  SH : Share → List UInt8
  members : Nat
  guests : List Int
  secret : Int → Int
  participants : List Point.Pt
  threshold : Int
  longterms : GoMap Int KeyShare
  nonce : Nat → Int
  allow : Job → Firewall.Allowance
  dropUntil : Int
  started : Int

/-- Where a goroutine `_run_sig` is (run_sig.go:32-40, runner.go:13-20). -/
inductive JobPc where
  /-- in the loop of `run_dss` that registers the document for each guest -/
  | registering
  /-- about to start the runners of the guests -/
  | launching
  /-- waiting for them -/
  | waiting
  /-- in the loop of `run_dss` that deregisters the document -/
  | deregistering
  /-- in the loop of `_run_sig` that prints -/
  | printing
  | ended
  deriving DecidableEq, Repr

/-- A goroutine `_run_sig`: the guests that its loop has dealt with, its runners, and what it has printed per guest. -/
structure JobSt where
  job : Job
  pc : JobPc
  done : List Int
  runners : List Nat
  lines : List (Int × Option Schnorr.Sig)

/-- The state of the program. `runs` are the `*protocol_run` objects, numbered as in the registry; `found q` is the one that the
consumer of queue `q` got from `ensure_active_run` (prot.go:232). -/
structure Sys (K : Type) where
  node : Node.Sys Dto
  runs : List (Run Dto Obj (Data K))
  found : Int × Int → Nat
  docs : Docs
  outs : Outputs Output
  jobs : List JobSt

/-- What can happen next. -/
inductive Ev where
  | tick (t : Int)
  | latch
  /-- a message arrives from the network -/
  | net (m : Message Dto)
  /-- the thread of the i-th allowance of the firewall -/
  | fwStep (i : Nat)
  /-- the consumer of a queue -/
  | cons (q : Int × Int)
  /-- the stepping thread of a run -/
  | thread (r : Nat)
  /-- a task of the registry -/
  | task (i : Nat)
  /-- the j-th runner -/
  | runner (j : Nat)
  /-- a request is read and its goroutine started -/
  | request (j : Job)
  /-- the i-th of these goroutines; in its loops over the guests it deals with guest `g` next -/
  | job (i : Nat) (g : Int)

variable {K : Type}

/-- The data that dss.go uses in the r-th run, which is for guest `g`, while the document of the run is `doc`. -/
def env (c : Cfg K) (r : Nat) (g : Int) (doc : Option Int) : Env :=
  ⟨c.secret g, c.participants, c.threshold, c.longterms.get? g, doc, c.nonce r⟩

/-- The protocol of a run with indices `k` (prot.go:50, 174-183), when the document for it is `doc`. -/
def conf (c : Cfg K) (r : Nat) (k : RunKey) (doc : Option Int) : Conf Dto Obj (Data K) :=
  if k.pc = 0 then dkgConf (c.y k.gidx r) k.runId k.gidx c.members
  else dssConf (c.y k.gidx r) c.H c.SH (env c r k.gidx doc) k.runId k.gidx c.members

/-- The number of stages of a protocol (dkg.go:15-31, dss.go:40-48). -/
def stageCount (pc : Int) : Nat := if pc = 0 then 9 else 12

/-- The program when it has started: `dss_init` and `protocol_start` (signode.go:23-25). -/
def init (c : Cfg K) : Sys K :=
  { node := Node.make stageCount .other 2 (fun g => decide (g ∈ c.guests)) c.dropUntil c.started
    runs := [], found := fun _ => 0, docs := dssInit [] c.guests, outs := initOutputs Output 2 c.guests, jobs := [] }

/-- An event of the node; a run created by it gets its data (`_new_run`, prot.go:174-183). -/
def nodeEvent (c : Cfg K) (s : Sys K) (e : Node.Ev Dto) : Outcome (Sys K) :=
  Node.step s.node e >>= fun n =>
    .ok { s with
      node := n
      runs := s.runs ++ (n.reg.objs.drop s.runs.length).map fun o =>
        newRun Dto Obj (newData (c.gen o.key.gidx s.runs.length)) n.fw.now }

/-- The protocol code under which an output is pushed: `step_final` pushes under that of the key generation in a signing run too
(dkg.go:123, dss.go:103). -/
def outputCode : Output → Int
  | .key _ _ => 0
  | .sig _ => 1

/-- The calls of `push_output` in a section. -/
def pushAll (o : Outputs Output) (k : RunKey) : List Output → Outcome (Outputs Output)
  | [] => .ok o
  | v :: vs => pushOutput o (outputCode v) k.gidx k.runId v >>= fun o => pushAll o k vs

/-- A section of code that holds the lock of the r-th run; `_doc_for` reads the table of documents as it is now (dss.go:36-38). -/
def runEvent (c : Cfg K) (s : Sys K) (r : Nat) (e : Prot.Ev Dto) : Outcome (Sys K) :=
  match s.runs[r]?, s.node.reg.objs[r]? with
  | some u, some o =>
    let cf := conf c r o.key (docFor s.docs o.key.gidx o.key.runId)
    Prot.exec cf u [.tick s.node.fw.now, e] >>= fun u' =>
      pushAll s.outs o.key (u'.user.out.drop u.user.out.length) >>= fun outs =>
        .ok { s with runs := s.runs.set r u', outs := outs }
  | _, _ => .err

/-- The phase of the stepping thread of the r-th run. -/
def phaseOf (s : Sys K) (r : Nat) : Option Phase := s.runs[r]?.map Run.phase

/-- The next section of the stepping thread of the r-th run (prot.go:193-212): once it has been started, and up to the observers. -/
def threadStep (c : Cfg K) (s : Sys K) (r : Nat) : Outcome (Sys K) :=
  match s.node.reg.objs[r]? with
  | none => .err
  | some o =>
    if o.started = 0 then .err
    else runEvent c s r .thread >>= fun s' =>
      if phaseOf s' r = some .done then nodeEvent c s' (.finish r) else .ok s'

/-- The next section of the consumer of a queue (prot.go:227-245). -/
def consStep (c : Cfg K) (s : Sys K) (q : Int × Int) : Outcome (Sys K) :=
  match s.node.cons q with
  | .idle => nodeEvent c s (.cons q)
  | .got m => nodeEvent c s (.cons q) >>= fun s' =>
      .ok { s' with found := Node.update s'.found q ((s'.node.reg.runs.get? m.key).getD 0) }
  | .found m => runEvent c s (s.found q) (.msg m) >>= fun s' => nodeEvent c s' (.cons q)

/-- The start of a goroutine `_runner_run_guest` for each guest (runner.go:29-30); each of them runs at any later time. -/
def launchAll (c : Cfg K) (s : Sys K) (j : Job) : List Int → Outcome (Sys K)
  | [] => .ok s
  | g :: gs => nodeEvent c s (.launch ⟨1, g, jobId j⟩ (c.allow j)) >>= fun s => launchAll c s j gs

/-- A runner is past its `wg.Done` (runner.go:36, 48). -/
def released (s : Sys K) (j : Nat) : Bool := (s.node.runners[j]?.map fun u => decide (6 ≤ u.pos)).getD false

/-- The next section of the i-th `_run_sig` (run_sig.go:32-40, runner.go:13-20). -/
def jobStep (c : Cfg K) (s : Sys K) (i : Nat) (g : Int) : Outcome (Sys K) :=
  match s.jobs[i]? with
  | none => .err
  | some b =>
    let over := c.guests.all fun g => decide (g ∈ b.done)
    let mine := decide (g ∈ c.guests) && decide (g ∉ b.done)
    match b.pc with
    | .registering =>
      if over then .ok { s with jobs := s.jobs.set i { b with pc := .launching, done := [] } }
      else if mine then docStep s.docs (.register g (jobId b.job) b.job.doc) >>= fun d =>
        .ok { s with docs := d, jobs := s.jobs.set i { b with done := g :: b.done } }
      else .err
    | .launching => launchAll c s b.job c.guests >>= fun s' =>
        .ok { s' with jobs := s'.jobs.set i { b with
          pc := .waiting, runners := (List.range c.guests.length).map (s.node.runners.length + ·) } }
    | .waiting =>
      if b.runners.all (released s) then .ok { s with jobs := s.jobs.set i { b with pc := .deregistering } } else .err
    | .deregistering =>
      if over then .ok { s with jobs := s.jobs.set i { b with pc := .printing, done := [] } }
      else if mine then docStep s.docs (.deregister g (jobId b.job)) >>= fun d =>
        .ok { s with docs := d, jobs := s.jobs.set i { b with done := g :: b.done } }
      else .err
    | .printing =>
      if over then .ok { s with jobs := s.jobs.set i { b with pc := .ended, done := [] } }
      else if mine then popOutput s.outs 1 g (jobId b.job) >>= fun x => printed x.2 >>= fun l =>
        .ok { s with outs := x.1, jobs := s.jobs.set i { b with done := g :: b.done, lines := b.lines ++ [(g, l)] } }
      else .err
    | .ended => .err

/-- One event; `err` when it cannot happen now. -/
def step (c : Cfg K) (s : Sys K) : Ev → Outcome (Sys K)
  | .tick t => nodeEvent c s (.tick t)
  | .latch => nodeEvent c s .latch
  | .net m => nodeEvent c s (.net m)
  | .fwStep i => nodeEvent c s (.fwStep i)
  | .cons q => consStep c s q
  | .thread r => threadStep c s r
  | .task i => nodeEvent c s (.task i)
  | .runner j => nodeEvent c s (.runner j)
  | .request j => .ok { s with jobs := s.jobs ++ [⟨j, .registering, [], [], []⟩] }
  | .job i g => jobStep c s i g

/-- A history of events. -/
def run (c : Cfg K) (s : Sys K) : List Ev → Outcome (Sys K)
  | [] => .ok s
  | e :: es => step c s e >>= fun s' => run c s' es

end Verif.Program
