import Verif.Model.Firewall

/-!
Model of the registry of protocol runs and of the observers of terminations (/repo/siggy/src/protocol/prot.go).

A section that holds one mutex is one atomic event, and so is one operation on a channel; the events come in any order.
A goroutine between two sections is an entry of `tasks`. What a run does while it is active is in `Verif.Model.Prot`; here
a stepping thread just ends at some moment. A caller of `obs_term` or `ensure_active_run` may go on before the sections of
that call are over, which only adds histories. The maps indexed by protocol, guest and run id are one map indexed by the
triple, and the locks per protocol and guest are one lock per map.
-/
namespace Verif.Registry

/-- A `*protocol_run`: its registry indices, how many goroutines `_run_timed_steps` were started for it and how many of
them have ended, and the field `terminated` (prot.go:136-151). -/
structure Obj where
  key : RunKey
  started : Nat
  ended : Nat
  terminated : Bool
  deriving DecidableEq, Repr

/-- A channel made by `obs_term` (prot.go:290): the run it observes, the number of values in its buffer of capacity 1, the
number of values ever sent, and whether it is closed. -/
structure Chan where
  key : RunKey
  unread : Nat
  sent : Nat
  closed : Bool
  deriving DecidableEq, Repr

/-- A goroutine inside `obs_term`, `_update_term_observers` or `ensure_active_run`. -/
inductive Task where
  /-- `obs_term` that returns channel `c`, before the look-up in the registry (prot.go:295) -/
  | look (k : RunKey) (c : Nat)
  /-- `obs_term` that found run `r`, before it reads `terminated` (prot.go:298) -/
  | read (k : RunKey) (c : Nat) (r : Nat)
  /-- `_update_term_observers` before it takes the list (prot.go:305) -/
  | update (k : RunKey)
  /-- `_update_term_observers` with these channels still to notify (prot.go:309) -/
  | notify (cs : List Nat)
  /-- `_update_term_observers` between `c <- 0` and `close(c)` (prot.go:309) -/
  | closing (c : Nat) (cs : List Nat)
  /-- `ensure_active_run` that created run `r`, before it starts the stepping thread (prot.go:160) -/
  | start (r : Nat)
  deriving DecidableEq, Repr

/-- What happened in the registry. -/
inductive Entry where
  | created (k : RunKey) (r : Nat)
  | deleted (k : RunKey)
  | started (r : Nat)
  deriving DecidableEq, Repr

/-- `_runs` and `_term_obs` (prot.go:65-68), with everything they refer to. -/
structure Reg where
  runs : GoMap RunKey Nat
  objs : List Obj
  obs : GoMap RunKey (List Nat)
  chans : List Chan
  tasks : List Task
  log : List Entry

/-- The registry at the start (prot.go:69-75, 103-110). -/
def init : Reg := ⟨[], [], [], [], [], []⟩

/-- What can happen. -/
inductive Ev where
  /-- somebody calls `obs_term` -/
  | obs (k : RunKey)
  /-- somebody reads the c-th termination channel -/
  | recv (c : Nat)
  /-- somebody calls `ensure_active_run` -/
  | ensure (k : RunKey)
  /-- the consumer of a queue calls `_delete_run` -/
  | delete (k : RunKey)
  /-- a stepping thread of run `r` gets to its end -/
  | finish (r : Nat)
  /-- the i-th task runs its next section -/
  | task (i : Nat)
  deriving DecidableEq, Repr

/-- `ensure_active_run` with `_ensure_run` (prot.go:157-186). -/
def ensure (s : Reg) (k : RunKey) : Reg :=
  match s.runs.get? k with
  | some _ => s
  | none => { s with
      runs := s.runs.set k s.objs.length
      objs := s.objs ++ [⟨k, 0, 0, false⟩]
      log := s.log ++ [.created k s.objs.length]
      tasks := s.tasks ++ [.start s.objs.length] }

/-- `_delete_run` (prot.go:188-191). -/
def delete (s : Reg) (k : RunKey) : Reg := { s with runs := s.runs.delete k, log := s.log ++ [.deleted k] }

/-- The first section of `obs_term` (prot.go:290-293). -/
def obsTerm (s : Reg) (k : RunKey) : Reg :=
  { s with
    chans := s.chans ++ [⟨k, 0, 0, false⟩]
    obs := s.obs.set k ((s.obs.get? k).getD [] ++ [s.chans.length])
    tasks := s.tasks ++ [.look k s.chans.length] }

/-- The next section of task `i`: `err` when there is none, or it blocks. -/
def taskStep (s : Reg) (i : Nat) : Outcome Reg :=
  match s.tasks[i]? with
  | none => .err
  | some (.look k c) => match s.runs.get? k with -- prot.go:295-297
    | none => .ok { s with tasks := s.tasks.eraseIdx i }
    | some r => .ok { s with tasks := s.tasks.set i (.read k c r) }
  | some (.read _ _ r) => match s.objs[r]? with -- prot.go:298-299
    | none => .panic
    | some o => if o.terminated then .ok { s with tasks := s.tasks.set i (.update o.key) }
      else .ok { s with tasks := s.tasks.eraseIdx i }
  | some (.update k) => .ok { s with -- prot.go:305-308
      tasks := s.tasks.set i (.notify ((s.obs.get? k).getD []))
      obs := s.obs.delete k }
  | some (.notify []) => .ok { s with tasks := s.tasks.eraseIdx i }
  | some (.notify (c :: cs)) => match s.chans[c]? with -- prot.go:309, the send
    | none => .panic
    | some ch =>
      if ch.closed then .panic
      else if ch.unread < 1 then .ok { s with
        chans := s.chans.set c { ch with unread := ch.unread + 1, sent := ch.sent + 1 }
        tasks := s.tasks.set i (.closing c cs) }
      else .err
  | some (.closing c cs) => match s.chans[c]? with -- prot.go:309, the close
    | none => .panic
    | some ch =>
      if ch.closed then .panic
      else .ok { s with
        chans := s.chans.set c { ch with closed := true }
        tasks := s.tasks.set i (.notify cs) }
  | some (.start r) => match s.objs[r]? with -- prot.go:160
    | none => .panic
    | some o => .ok { s with
        objs := s.objs.set r { o with started := o.started + 1 }
        log := s.log ++ [.started r]
        tasks := s.tasks.eraseIdx i }

/-- The end of `_run_timed_steps` in a thread of run `r` (prot.go:210-212). -/
def finish (s : Reg) (r : Nat) : Outcome Reg :=
  match s.objs[r]? with
  | none => .err
  | some o =>
    if o.ended < o.started then
      .ok { s with
        objs := s.objs.set r { o with ended := o.ended + 1, terminated := true }
        tasks := s.tasks ++ [.update o.key] }
    else .err

/-- A receive from a termination channel: it needs a value in the buffer, or a closed channel. -/
def recv (s : Reg) (c : Nat) : Outcome Reg :=
  match s.chans[c]? with
  | none => .err
  | some ch =>
    if 0 < ch.unread then .ok { s with chans := s.chans.set c { ch with unread := ch.unread - 1 } }
    else if ch.closed then .ok s
    else .err

/-- One event; `err` when it cannot happen now. -/
def step (s : Reg) : Ev → Outcome Reg
  | .obs k => .ok (obsTerm s k)
  | .recv c => recv s c
  | .ensure k => .ok (ensure s k)
  | .delete k => .ok (delete s k)
  | .finish r => finish s r
  | .task i => taskStep s i

/-- A history of events. -/
def run (s : Reg) : List Ev → Outcome Reg
  | [] => .ok s
  | e :: es => step s e >>= fun s' => run s' es

end Verif.Registry
