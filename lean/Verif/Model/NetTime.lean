import Verif.Model.NetCaller

/-!
Model of /repo/siggy/src/net/net_caller.go for one peer as in `Verif.Model.NetCaller`, with a clock: when threads sleep and for how long, when dialling and
calls begin, and the attempts of `_try_connect` one by one. Times are in milliseconds.
-/
namespace Verif.NetTime
open Verif.NetCaller (CPc Pc)

/-- What `_retry_delay` can give (net_caller.go:70-71). -/
def isRetry (d : Int) : Bool := decide (100 ≤ d) && decide (d < 1000)

/-- What a connector waits for. -/
inductive Timer where
  /-- it sleeps -/
  | asleep (till : Int)
  /-- `rpc.DialHTTP` has been called -/
  | dialling (since : Int)
  /-- it does not wait, or it waits for the consumer -/
  | idle
  deriving DecidableEq, Repr

/-- The variables `i` and `delay` of `_try_connect` (net_caller.go:60), and what the connector waits for. -/
structure Try where
  attempt : Nat
  delay : Int
  timer : Timer
  deriving DecidableEq, Repr

/-- The state: that of the untimed model, the clock, until when the consumer sleeps, when it has last got a message to send, and what each connector is waiting
for. -/
structure St (M : Type) where
  base : NetCaller.St M
  now : Int
  wake : Int
  since : Int
  tries : List Try
  deriving DecidableEq, Repr

variable {M : Type}

/-- `start_net_caller` for one peer, at time `t0` (net_caller.go:16-22). -/
def init (t0 : Int) : St M := ⟨NetCaller.init, t0, t0, t0, []⟩

/-- What can happen next. -/
inductive Ev (M : Type) where
  /-- time passes -/
  | tick (t : Int)
  /-- `try_send` -/
  | send (m : M)
  /-- the consumer starts a connector; the delays are those drawn in `_run_connector` and in `_try_connect` -/
  | spawn (retry delay : Int)
  /-- the i-th connector has slept in `_try_connect` and dials -/
  | dial (i : Nat)
  /-- the dialling of the i-th connector returns -/
  | dialled (i : Nat) (r : Option Nat)
  /-- the i-th connector begins to sleep in `_run_connector` -/
  | rest (i : Nat)
  /-- the i-th connector has slept and tries again -/
  | again (i : Nat) (delay : Int)
  /-- the consumer receives from the i-th connector in `wait` -/
  | recv (i : Nat)
  /-- the consumer gets a message, if it has none that was pushed back -/
  | get
  /-- the select takes what the i-th connector offers -/
  | selConn (i : Nat)
  /-- the select drops the message -/
  | selDrop
  /-- the call returns -/
  | call (ok : Bool)
  /-- the consumer closes the connection, pushes back and begins to sleep -/
  | closing (retry : Int)

/-- An event of the consumer or of `try_send`. A call begins when the consumer gets to it. -/
def untimed (s : St M) (e : NetCaller.Ev M) : Outcome (St M) :=
  NetCaller.step s.base e >>= fun b => .ok { s with base := b, since := if b.pc = .call ∧ s.base.pc ≠ .call then s.now else s.since }

/-- One event; `err` when it cannot happen now. -/
def step (s : St M) : Ev M → Outcome (St M)
  | .tick t => if s.now < t then .ok { s with now := t } else .err
  | .send m => untimed s (.send m)
  -- net_caller.go:33-34, 50-52, 60-63
  | .spawn retry delay =>
    if isRetry retry && isRetry delay && decide (s.wake ≤ s.now) then
      NetCaller.step s.base (.spawn retry) >>= fun b =>
        .ok { s with base := b, tries := s.tries ++ [⟨0, delay, .asleep (s.now + NetCaller.peerStartGrace)⟩] }
    else .err
  -- net_caller.go:64-65
  | .dial i => match s.tries[i]? with
    | some ⟨n, delay, .asleep till⟩ => match s.base.connectors[i]? with
      | some c => if c.pc = .trying ∧ till ≤ s.now then .ok { s with tries := s.tries.set i ⟨n, delay, .dialling s.now⟩ } else .err
      | none => .err
    | _ => .err
  -- net_caller.go:61-66
  | .dialled i r => match s.tries[i]? with
    | some ⟨n, delay, .dialling _⟩ =>
      if r = none ∧ n + 1 < NetCaller.graceConnAttempts then .ok { s with tries := s.tries.set i ⟨n + 1, delay, .asleep (s.now + delay)⟩ }
      else NetCaller.step s.base (.tried i r) >>= fun b => .ok { s with base := b, tries := s.tries.set i ⟨n + 1, delay, .idle⟩ }
    | _ => .err
  -- net_caller.go:56
  | .rest i => match s.tries[i]? with
    | some ⟨n, delay, .idle⟩ => match s.base.connectors[i]? with
      | some c => if c.pc = .resting then .ok { s with tries := s.tries.set i ⟨n, delay, .asleep (s.now + c.d)⟩ } else .err
      | none => .err
    | _ => .err
  -- net_caller.go:52-53, 60-63
  | .again i delay => match s.tries[i]? with
    | some ⟨_, _, .asleep till⟩ =>
      if isRetry delay && decide (till ≤ s.now) then
        NetCaller.step s.base (.sleep i) >>= fun b => .ok { s with base := b, tries := s.tries.set i ⟨0, delay, .asleep (s.now + NetCaller.peerStartGrace)⟩ }
      else .err
    | _ => .err
  | .recv i => untimed s (.recv i)
  | .get => untimed s .get
  | .selConn i => untimed s (.selConn i)
  | .selDrop => untimed s .selDrop
  | .call ok => untimed s (.call ok)
  -- net_caller.go:46
  | .closing retry =>
    if isRetry retry then NetCaller.step s.base .closing >>= fun b => .ok { s with base := b, wake := s.now + retry } else .err

/-- A history of events. -/
def run (s : St M) : List (Ev M) → Outcome (St M)
  | [] => .ok s
  | e :: es => step s e >>= fun s' => run s' es

end Verif.NetTime
