import Verif.Model.Firewall

/-!
Model of one protocol run of /repo/siggy/src/protocol/prot.go: the thread of timed steps, the handling of received
messages, and sending. A section that holds the lock of the run is one atomic event. The functions of a protocol (steps,
processors, unmarshallers, validators) are arbitrary; what a step or processor does to the run is the list of `Act`s it
performs, in order. `U` is the type of the data it works on (`kyber_dat`, `prot_dat`), `D` of DTOs and `A` of unmarshalled
objects.
-/
namespace Verif.Prot

/-- What a step or a processor asks of prot.go. -/
inductive Act (D : Type) where
  | send (index op : Int) (dto : D)
  | broadcast (op : Int) (dto : D)
  | multicast (midxs : List Int) (op : Int) (dto : D)
  | abandon

/-- `protocol_stage` (prot.go:21-35). `typeOk` is the comparison with `dto_type`. -/
structure Stage (D A U : Type) where
  step : Option (U → Outcome (U × List (Act D)))
  proc : Option (U → A → Outcome (U × List (Act D)))
  unmarshal : D → Outcome A
  senderValid : A → Int → Outcome Bool
  typeOk : D → Bool
  timeout : Int

/-- The final part of `protocol_run` (prot.go:136-142): the protocol, the run id, the guest and the number of members. -/
structure Conf (D A U : Type) where
  pc : Int
  id : String
  self : Int
  members : Nat
  stages : List (Stage D A U)

/-- Where the thread `_run_timed_steps` is: not started; started but not yet locked; asleep in a stage; asleep in the pause
after a stage; finished. -/
inductive Phase where
  | fresh
  | started
  | staged
  | pausing
  | done
  deriving DecidableEq, Repr

/-- What a run has done, in order. -/
inductive Entry (D A : Type) where
  /-- `_state` became `n` -/
  | entered (n : Int)
  /-- the pause after a stage began -/
  | paused
  /-- the step of stage `n` was called -/
  | stepped (n : Int)
  /-- the queue consumer got the message -/
  | received (m : Message D)
  /-- `_process_msg` was called -/
  | handled (m : Message D)
  /-- the processor was called -/
  | invoked (m : Message D) (a : A)
  /-- `send` was called -/
  | request (m : Message D)
  /-- `try_send` was called -/
  | sent (m : Message D)
  | abandoned
  | cleanup

/-- The mutable part of `protocol_run` (prot.go:143-151), and the state of its thread. -/
structure Run (D A U : Type) where
  state : Int
  paused : Bool
  rcvbuf : GoMap Int (List (Message D))
  sndbuf : GoMap Int (List (Message D))
  abandon : Bool
  terminated : Bool
  user : U
  phase : Phase
  /-- the variable `t` of `_run_timed_steps` -/
  deadline : Int
  pauseEnd : Int
  now : Int
  log : List (Entry D A)

variable {D A U : Type}

/-- `_pause` (prot.go:16), in milliseconds. -/
def pauseMs : Int := 5

/-- `_new_run` (prot.go:174-183). -/
def newRun (D A : Type) {U : Type} (u : U) (now : Int) : Run D A U :=
  { state := -1, paused := false, rcvbuf := [], sndbuf := [], abandon := false, terminated := false, user := u,
    phase := .fresh, deadline := 0, pauseEnd := 0, now := now, log := [] }

/-- `stages[n]`. -/
def Conf.stage? (c : Conf D A U) (n : Int) : Option (Stage D A U) := if n < 0 then none else c.stages[n.toNat]?

/-- `_make_msg` (prot.go:277-280). -/
def makeMsg (c : Conf D A U) (rcpt op : Int) (dto : D) : Message D := ⟨c.self, c.pc, rcpt, c.id, op, dto⟩

/-- `send` (prot.go:272-275). -/
def send (c : Conf D A U) (r : Run D A U) (index op : Int) (dto : D) : Run D A U :=
  let m := makeMsg c index op dto
  if op > r.state then
    { r with sndbuf := r.sndbuf.set op ((r.sndbuf.get? op).getD [] ++ [m]), log := r.log ++ [.request m] }
  else { r with log := r.log ++ [.request m, .sent m] }

/-- `_send1` (prot.go:269-270). -/
def send1 (c : Conf D A U) (r : Run D A U) (index op : Int) (dto : D) : Run D A U :=
  if index ≠ c.self then send c r index op dto else r

/-- `multicast` (prot.go:266-267). -/
def multicast (c : Conf D A U) (r : Run D A U) (midxs : List Int) (op : Int) (dto : D) : Run D A U :=
  midxs.foldl (fun r i => send1 c r i op dto) r

/-- `broadcast` (prot.go:262-263). -/
def broadcast (c : Conf D A U) (r : Run D A U) (op : Int) (dto : D) : Run D A U :=
  multicast c r ((List.range c.members).map Int.ofNat) op dto

/-- One act. -/
def doAct (c : Conf D A U) (r : Run D A U) : Act D → Run D A U
  | .send i op dto => send c r i op dto
  | .broadcast op dto => broadcast c r op dto
  | .multicast is op dto => multicast c r is op dto
  | .abandon => { r with abandon := true, log := r.log ++ [.abandoned] }

/-- The effect of a step or processor. -/
def doActs (c : Conf D A U) (r : Run D A U) (as : List (Act D)) : Run D A U := as.foldl (doAct c) r

/-- `_process_msg` (prot.go:247-259). -/
def processMsg (c : Conf D A U) (r : Run D A U) (m : Message D) : Outcome (Run D A U) :=
  let r : Run D A U := { r with log := r.log ++ [.handled m] }
  if r.abandon then .ok r
  else match c.stage? m.op with
    | none => .panic
    | some stage => match stage.proc with
      | none => .ok r
      | some proc =>
        if !stage.typeOk m.dto then .ok r
        else match stage.unmarshal m.dto with
          | .panic => .panic
          | .err => .ok r
          | .ok arg =>
            if !(decide (0 ≤ m.sender) && decide (m.sender < c.members)) then .ok r
            else match stage.senderValid arg m.sender with
              | .ok true => do
                let r : Run D A U := { r with log := r.log ++ [.invoked m arg] }
                let (u, acts) ← (proc r.user arg).orPanic
                return doActs c { r with user := u } acts
              | .ok false => .ok r
              | _ => .panic

/-- The loop of `_run_timed_steps` over buffered messages (prot.go:206). -/
def processAll (c : Conf D A U) (r : Run D A U) : List (Message D) → Outcome (Run D A U)
  | [] => .ok r
  | m :: ms => processMsg c r m >>= fun r => processAll c r ms

/-- `_flush_snd_buf` (prot.go:282-286). -/
def flushSndBuf (r : Run D A U) : Run D A U :=
  { r with log := r.log ++ ((r.sndbuf.get? r.state).getD []).map .sent, sndbuf := r.sndbuf.delete r.state }

/-- The call of the stage's step (prot.go:203-205). -/
def callStep (c : Conf D A U) (r : Run D A U) (stage : Stage D A U) : Outcome (Run D A U) :=
  if r.abandon then .ok r
  else match stage.step with
    | none => .ok r
    | some step => do
      let r : Run D A U := { r with log := r.log ++ [.stepped r.state] }
      let (u, acts) ← (step r.user).orPanic
      return doActs c { r with user := u } acts

/-- The part of the loop of `_run_timed_steps` that enters the next stage (prot.go:199-208), up to the sleep. -/
def enterStage (c : Conf D A U) (r : Run D A U) : Outcome (Run D A U) :=
  let n := r.state + 1
  match c.stage? n with
  | none => .panic
  | some stage => do
    let r : Run D A U := { r with state := n, deadline := r.deadline + stage.timeout, log := r.log ++ [.entered n] }
    let r ← callStep c (flushSndBuf r) stage
    let r ← processAll c r ((r.rcvbuf.get? n).getD [])
    return { r with rcvbuf := r.rcvbuf.delete n, phase := .staged }

/-- The head of the loop, the pause and the end of `_run_timed_steps` (prot.go:196-198, 209-211). -/
def loopTop (c : Conf D A U) (r : Run D A U) : Outcome (Run D A U) :=
  if r.state < (c.stages.length : Int) - 1 then
    if r.state > -1 then
      .ok { r with paused := true, phase := .pausing, pauseEnd := r.now + pauseMs, log := r.log ++ [.paused] }
    else enterStage c r
  else .ok { r with terminated := true, phase := .done, log := r.log ++ [.cleanup] }

/-- The next section of the thread; `err` when it must still sleep or has finished. -/
def thread (c : Conf D A U) (r : Run D A U) : Outcome (Run D A U) :=
  match r.phase with
  | .fresh => .ok { r with deadline := r.now, phase := .started }
  | .started => loopTop c r
  | .staged => if r.deadline ≤ r.now then loopTop c r else .err
  | .pausing => if r.pauseEnd ≤ r.now then enterStage c { r with paused := false } else .err
  | .done => .err

/-- The part of `_run_incoming_queue_consumer` that holds the lock of the run (prot.go:233-245). -/
def receive (c : Conf D A U) (r : Run D A U) (m : Message D) : Outcome (Run D A U) :=
  let r : Run D A U := { r with log := r.log ++ [.received m] }
  if m.op < r.state || (decide (m.op = r.state) && r.paused) then .ok r
  else if m.op > r.state then .ok { r with rcvbuf := r.rcvbuf.set m.op ((r.rcvbuf.get? m.op).getD [] ++ [m]) }
  else processMsg c r m

/-- What can happen to a run. -/
inductive Ev (D : Type) where
  /-- the clock advances -/
  | tick (t : Int)
  /-- the thread's next section -/
  | thread
  /-- a message is taken from the incoming queue -/
  | msg (m : Message D)

/-- One event. -/
def step (c : Conf D A U) (r : Run D A U) : Ev D → Outcome (Run D A U)
  | .tick t => if r.now ≤ t then .ok { r with now := t } else .err
  | .thread => thread c r
  | .msg m => receive c r m

/-- A history of events. -/
def exec (c : Conf D A U) (r : Run D A U) : List (Ev D) → Outcome (Run D A U)
  | [] => .ok r
  | e :: es => step c r e >>= fun r => exec c r es

/-- `protocol_timeout` (prot.go:54-57). -/
def protocolTimeout (c : Conf D A U) : Int := c.stages.foldl (fun t s => t + s.timeout) 0

/-- The allowance that `_runner_run_guest` asks of the firewall for a run that starts at `start`
(/repo/siggy/src/signode/runner.go:3-4, 42-44), in milliseconds. -/
def runnerAllowance (c : Conf D A U) (start : Int) : Firewall.Allowance := ⟨start - 5, start, start + (protocolTimeout c + 1000)⟩

end Verif.Prot
