import Verif.Model.Registry

/-!
Model of one node of /repo/siggy: the firewall, the incoming queues and their consumers, the registry of protocol runs
and the runners (/repo/siggy/src/protocol/prot.go, /repo/siggy/src/signode/runner.go). As in the models of the firewall
and of the registry, a section that holds one mutex is one atomic event, and the events come in any order.
-/
namespace Verif.Node

/-- Where the consumer of an incoming queue is (prot.go:227-245). -/
inductive Cons (D : Type) where
  | idle
  /-- it has taken the message -/
  | got (m : Message D)
  /-- it has looked up or created the run of the message, which it gives the message next -/
  | found (m : Message D)
  deriving DecidableEq, Repr

/-- A call of `_runner_run_guest` and then `_runner_cleanup_run` (runner.go:34-54): its run, the times it gives to the
firewall, how many sections are finished, its termination channel and its call of `fw_set_allowance`. -/
structure Runner where
  key : RunKey
  allow : Firewall.Allowance
  pos : Nat
  chan : Nat
  call : Nat
  deriving DecidableEq, Repr

/-- The state of a node; `stages pc` is the number of stages of protocol `pc`, and `nil` the DTO of a message literal
without one. -/
structure Sys (D : Type) where
  stages : Int → Nat
  nil : D
  fw : Firewall.Fw D
  queues : Int × Int → List (Message D)
  cons : Int × Int → Cons D
  reg : Registry.Reg
  runners : List Runner

/-- What can happen next. -/
inductive Ev (D : Type) where
  /-- the clock advances -/
  | tick (t : Int)
  /-- the firewall's goroutine clears `_drop_all` -/
  | latch
  /-- a message arrives from the network at the firewall -/
  | net (m : Message D)
  /-- the thread of the i-th allowance runs its next section -/
  | fwStep (i : Nat)
  /-- the consumer of a queue runs its next section -/
  | cons (q : Int × Int)
  /-- a stepping thread of run `r` gets to its end -/
  | finish (r : Nat)
  /-- the i-th task of the registry runs its next section -/
  | task (i : Nat)
  /-- a goroutine `_runner_run_guest` is started -/
  | launch (k : RunKey) (a : Firewall.Allowance)
  /-- the j-th runner runs its next section -/
  | runner (j : Nat)

variable {D : Type}

/-- `_rcv_buf_max` (prot.go:77). -/
def rcvBufMax : Nat := 10000

/-- A node before anything has happened: `protocol_start` with `nprots` protocols (prot.go:87-131). -/
def make (stages : Int → Nat) (nil : D) (nprots : Nat) (guests : Int → Bool) (at_ now : Int) : Sys D :=
  { stages := stages, nil := nil, fw := Firewall.make D nprots guests at_ now, queues := fun _ => [], cons := fun _ => .idle,
    reg := Registry.init, runners := [] }

/-- `f` changed at `q`. -/
def update {α : Type} (f : Int × Int → α) (q : Int × Int) (v : α) : Int × Int → α := fun p => if p = q then v else f p

/-- `_receive_msg` of a message without negative protocol code (prot.go:219-225). -/
def receiveMsg (s : Sys D) (m : Message D) : Sys D :=
  if !(decide (0 ≤ m.op) && decide (m.op < s.stages m.pc)) then s
  else if (s.queues (m.pc, m.rcpt)).length < rcvBufMax then
    { s with queues := update s.queues (m.pc, m.rcpt) (s.queues (m.pc, m.rcpt) ++ [m]) }
  else s

/-- `_receive_msg` as called by `_runner_cleanup_run` (runner.go:53-54, prot.go:219-225): a negative protocol code means a
blocking send, `err` while the queue is full. -/
def sendSignal (s : Sys D) (k : RunKey) : Outcome (Sys D) :=
  let m : Message D := ⟨0, -k.pc, k.gidx, k.runId, 0, s.nil⟩
  if m.pc < 0 then
    if (s.queues (-m.pc, m.rcpt)).length < rcvBufMax then
      .ok { s with queues := update s.queues (-m.pc, m.rcpt) (s.queues (-m.pc, m.rcpt) ++ [m]) }
    else .err
  else .ok (receiveMsg s m)

/-- A firewall event; what the firewall outputs goes to `_receive_msg` in the same section (prot.go:94). -/
def fwEvent (s : Sys D) (e : Firewall.Ev D) : Outcome (Sys D) :=
  Firewall.step s.fw e >>= fun f =>
    .ok ((f.out.drop s.fw.out.length).foldl receiveMsg { s with fw := f })

/-- A registry event. -/
def regEvent (s : Sys D) (e : Registry.Ev) : Outcome (Sys D) :=
  Registry.step s.reg e >>= fun r => .ok { s with reg := r }

/-- A registry event for run `k`: without a protocol and a guest of these indices the mutex is a nil pointer, or an index is
out of range. -/
def regEventAt (s : Sys D) (k : RunKey) (e : Registry.Ev) : Outcome (Sys D) :=
  if Firewall.keyValid s.fw k then regEvent s e else .panic

/-- The next section of the consumer of queue `q` (prot.go:227-245). -/
def consume (s : Sys D) (q : Int × Int) : Outcome (Sys D) :=
  match s.cons q with
  | .idle => match s.queues q with
    | [] => .err
    | m :: ms => .ok { s with queues := update s.queues q ms, cons := update s.cons q (.got m) }
  | .got m =>
    if m.pc < 0 then -- `_delete_run` (prot.go:188-191)
      regEventAt { s with cons := update s.cons q .idle } ⟨-m.pc, m.rcpt, m.runId⟩ (.delete ⟨-m.pc, m.rcpt, m.runId⟩)
    else regEventAt { s with cons := update s.cons q (.found m) } m.key (.ensure m.key)
  | .found _ => .ok { s with cons := update s.cons q .idle }

/-- The next section of `_runner_run_guest` and `_runner_cleanup_run` (runner.go:34-54). -/
def runnerStep (s : Sys D) (j : Nat) : Outcome (Sys D) :=
  match s.runners[j]? with
  | none => .err
  | some u =>
    let next : Runner := { u with pos := u.pos + 1 }
    if u.pos = 0 then -- obs_term
      regEventAt { s with runners := s.runners.set j { next with chan := s.reg.chans.length } } u.key (.obs u.key)
    else if u.pos = 1 then -- fw_set_allowance
      fwEvent { s with runners := s.runners.set j { next with call := s.fw.calls.length } } (.allow u.key u.allow)
    else if u.pos = 3 then -- the sleep until start
      if u.allow.start ≤ s.fw.now then .ok { s with runners := s.runners.set j next } else .err
    else if u.pos = 4 then -- ensure_active_run
      regEventAt { s with runners := s.runners.set j next } u.key (.ensure u.key)
    else if u.pos = 5 then -- <-obs
      regEvent { s with runners := s.runners.set j next } (.recv u.chan)
    else if u.pos = 2 ∨ u.pos = 6 ∨ u.pos = 7 then -- <-fw_obs
      fwEvent { s with runners := s.runners.set j next } (.read u.call)
    else if u.pos = 8 then -- the signal to delete the run
      sendSignal { s with runners := s.runners.set j next } u.key
    else .err

/-- One event; `err` when it cannot happen now. -/
def step (s : Sys D) : Ev D → Outcome (Sys D)
  | .tick t => fwEvent s (.tick t)
  | .latch => fwEvent s .latch
  | .net m => fwEvent s (.msg m)
  | .fwStep i => fwEvent s (.step i)
  | .cons q => consume s q
  | .finish r => regEvent s (.finish r)
  | .task i => regEvent s (.task i)
  | .launch k a => .ok { s with runners := s.runners ++ [⟨k, a, 0, 0, 0⟩] }
  | .runner j => runnerStep s j

/-- A history of events. -/
def run (s : Sys D) : List (Ev D) → Outcome (Sys D)
  | [] => .ok s
  | e :: es => step s e >>= fun s' => run s' es

end Verif.Node
