import Verif.Model.NetCaller
import Verif.Model.KeyProgram
import Verif.Model.Start

/-!
Model of several processes of the tool with the network between them: each process is one of `Verif.Model.Program` or
`Verif.Model.KeyProgram`, what its runs send goes through the queues of `Verif.Model.NetCaller`, and a call of
`SigServer.Receive` is an arrival in a process that listens on the address of the queue. The events of all processes, queues and connectors come in any
order. Others may call a process too.
-/
namespace Verif.Network
open Verif.Prot Verif.Dkg

/-- A process, as far as the network is concerned: how it goes on, the event of an arriving message (net_listener.go:20-24), and the messages that its
runs have given to `try_send` so far (prot.go:272-275, 282-286), for each run with the protocol and guest whose callers it uses
(prot.go:179). -/
structure Prog (S E : Type) where
  init : S
  step : S → E → Outcome S
  arrive : Message Dto → E
  arrival : E → Bool
  logs : S → List ((Int × Int) × List (Message Dto))

/-- Processes; with the addresses of their queues (prot.go:112-117) and the addresses on which they listen (prot.go:127-131). -/
structure Net (ι S E : Type) where
  prog : ι → Prog S E
  routes : ι → GoMap (Int × Int) (List (Option String))
  listen : ι → List String

/-- The queues of a process, by protocol and guest, and by member (net_caller.go:7-9). -/
abbrev Callers := Int × Int → Int → NetCaller.St (Message Dto)

/-- The state; `hist` records what has happened in each process. -/
structure Sys (ι S E : Type) where
  procs : ι → S
  callers : ι → Callers
  hist : ι → List E

/-- What can happen next. -/
inductive Ev (ι E : Type) where
  /-- something in a process, but not the arrival of a message -/
  | prog (p : ι) (e : E)
  /-- somebody else calls a process -/
  | outside (p : ι) (m : Message Dto)
  /-- something in a queue of process `p`, or in its connectors, but not a call -/
  | caller (p : ι) (k : Int × Int) (x : Int) (e : NetCaller.Ev (Message Dto))
  /-- the call of a queue returns; it has reached the process `dest`, if any -/
  | call (p : ι) (k : Int × Int) (x : Int) (ok : Bool) (dest : Option ι)

variable {ι S E : Type}

/-- `f` with another value for `a`. -/
def put {α β : Type} [DecidableEq α] (f : α → β) (a : α) (b : β) : α → β := fun x => if x = a then b else f x

/-- What the runs have given to `try_send` between two states. -/
def given (l l' : List ((Int × Int) × List (Message Dto))) : List ((Int × Int) × Message Dto) :=
  (List.range l'.length).flatMap fun i => match l'[i]? with
    | none => []
    | some r => (r.2.drop ((l[i]?.map fun r => r.2.length).getD 0)).map fun m => (r.1, m)

/-- `try_send` (net_caller.go:11-14) with the caller of the run; a channel that is nil takes nothing. -/
def give (routes : GoMap (Int × Int) (List (Option String))) (cs : Callers) (g : (Int × Int) × Message Dto) : Outcome Callers :=
  match routes.get? g.1 with
  | none => .panic
  | some qs => Start.queueOf qs g.2.rcpt >>= fun a => match a with
    | none => .ok cs
    | some _ => .ok (put cs g.1 (put (cs g.1) g.2.rcpt (NetCaller.trySend (cs g.1 g.2.rcpt) g.2)))

/-- The same for several messages. -/
def giveAll (routes : GoMap (Int × Int) (List (Option String))) (cs : Callers) : List ((Int × Int) × Message Dto) → Outcome Callers
  | [] => .ok cs
  | g :: gs => give routes cs g >>= fun cs => giveAll routes cs gs

variable [DecidableEq ι] (N : Net ι S E)

/-- Something happens in process `p`, and what its runs send gets into its queues. -/
def progStep (s : Sys ι S E) (p : ι) (e : E) : Outcome (Sys ι S E) :=
  (N.prog p).step (s.procs p) e >>= fun x =>
    giveAll (N.routes p) (s.callers p) (given ((N.prog p).logs (s.procs p)) ((N.prog p).logs x)) >>= fun cs =>
      .ok ⟨put s.procs p x, put s.callers p cs, put s.hist p (s.hist p ++ [e])⟩

/-- The address of a queue, if there is such a queue (net_caller.go:19-21). -/
def addr (p : ι) (k : Int × Int) (x : Int) : Option String :=
  match (N.routes p).get? k with
  | none => none
  | some qs => match Start.queueOf qs x with
    | .ok a => a
    | _ => none

/-- The queues after a queue of `p` has changed. -/
def putCaller (s : Sys ι S E) (p : ι) (k : Int × Int) (x : Int) (c : NetCaller.St (Message Dto)) : Sys ι S E :=
  { s with callers := put s.callers p (put (s.callers p) k (put (s.callers p k) x c)) }

/-- One event; `err` when it cannot happen now. A call that returns without an error has reached a process. -/
def step (s : Sys ι S E) : Ev ι E → Outcome (Sys ι S E)
  | .prog p e => if (N.prog p).arrival e then .err else progStep N s p e
  | .outside p m => progStep N s p ((N.prog p).arrive m)
  | .caller p k x e =>
    match addr N p k x, e with
    | none, _ => .err
    | _, .send _ => .err
    | _, .call _ => .err
    | some _, e => NetCaller.step (s.callers p k x) e >>= fun c => .ok (putCaller s p k x c)
  | .call p k x ok dest =>
    match addr N p k x, (s.callers p k x).msg with
    | some a, some m => NetCaller.step (s.callers p k x) (.call ok) >>= fun c =>
      match dest with
      | none => if ok then .err else .ok (putCaller s p k x c)
      | some r => if a ∈ N.listen r then progStep N (putCaller s p k x c) r ((N.prog r).arrive m) else .err
    | _, _ => .err

/-- A history of events. -/
def run (s : Sys ι S E) : List (Ev ι E) → Outcome (Sys ι S E)
  | [] => .ok s
  | e :: es => step N s e >>= fun s' => run s' es

/-- The processes when they have started. -/
def init : Sys ι S E := ⟨fun p => (N.prog p).init, fun _ _ _ => NetCaller.init, fun _ => []⟩

/-- The message that an entry of a trace says was sent. -/
def handedOver : Entry Dto Obj → Option (Message Dto)
  | .sent m => some m
  | _ => none

/-- What the runs of the program have given to `try_send`. -/
def sentLogs {K : Type} (s : Program.Sys K) : List ((Int × Int) × List (Message Dto)) :=
  (s.runs.zip s.node.reg.objs).map fun x => ((x.2.key.pc, x.2.key.gidx), x.1.log.filterMap handedOver)

/-- The program as it signs. -/
def signProg {K : Type} (c : Program.Cfg K) : Prog (Program.Sys K) Program.Ev where
  init := Program.init c
  step := Program.step c
  arrive := .net
  arrival e := match e with | .net _ => true | _ => false
  logs := sentLogs

/-- The program as it makes long-term keys. -/
def keyProg {K : Type} (c : KeyProgram.Cfg K) : Prog (KeyProgram.Sys K) KeyProgram.Ev where
  init := KeyProgram.init c
  step := KeyProgram.step c
  arrive m := .prog (.net m)
  arrival e := match e with | .prog (.net _) => true | _ => false
  logs s := sentLogs s.prog

/-- Processes that sign. -/
def signNet {K : Type} (c : ι → Program.Cfg K) (routes : ι → GoMap (Int × Int) (List (Option String))) (listen : ι → List String) :
    Net ι (Program.Sys K) Program.Ev := ⟨fun p => signProg (c p), routes, listen⟩

/-- Processes that make long-term keys. -/
def keyNet {K : Type} (c : ι → KeyProgram.Cfg K) (routes : ι → GoMap (Int × Int) (List (Option String))) (listen : ι → List String) :
    Net ι (KeyProgram.Sys K) KeyProgram.Ev := ⟨fun p => keyProg (c p), routes, listen⟩

end Verif.Network
