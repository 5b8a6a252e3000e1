import Verif.Model.Basic

/-!
Model of /repo/siggy/src/net/net_caller.go for one peer: the outgoing queue, the thread that consumes it and the connectors that
this thread starts. A statement that can block is one atomic event; the events come in any order. Times are in milliseconds.
Connections are numbered by the result of dialling; whether a call succeeds, and what dialling gives, is arbitrary.
-/
namespace Verif.NetCaller

/-- `_msg_max` (net_caller.go:3). -/
def msgMax : Nat := 1000

/-- `_grace_conn_attempts` (net_caller.go:5). -/
def graceConnAttempts : Nat := 5

/-- `peer_start_grace` (net_caller.go:68). -/
def peerStartGrace : Int := 2000

/-- Five minutes (net_caller.go:52). -/
def maxDelay : Int := 300000

/-- `_min` (net_caller.go:73). -/
def min' (x y : Int) : Int := if x < y then x else y

/-- The loop of `_try_connect` (net_caller.go:59-66) from attempt `i` on, with `left` attempts left: the connection, if any, and the
sleeps. `dial i` is the result of the i-th dialling, and `delay` the random delay. -/
def tryConnectFrom (delay : Int) (dial : Nat → Option Nat) : Nat → Nat → Option Nat × List Int
  | 0, _ => (none, [])
  | left + 1, i =>
    let d := if i = 0 then peerStartGrace else delay
    match dial i with
    | some c => (some c, [d])
    | none => let r := tryConnectFrom delay dial left (i + 1); (r.1, d :: r.2)

/-- `_try_connect` (net_caller.go:59-66). -/
def tryConnect (attempts : Nat) (delay : Int) (dial : Nat → Option Nat) : Option Nat × List Int :=
  tryConnectFrom delay dial attempts 0

/-- Where a connector is (net_caller.go:49-56). -/
inductive CPc where
  /-- before or in `_try_connect` -/
  | trying
  /-- about to send a connection -/
  | haveConn (c : Nat)
  /-- about to send nil -/
  | haveNil
  /-- about to sleep -/
  | resting
  | ended
  deriving DecidableEq, Repr

/-- What a connector does that others can see. -/
inductive Act where
  | pubNil
  | pubConn (c : Nat)
  | slept (d : Int)
  deriving DecidableEq, Repr

/-- A call of `_run_connector` (net_caller.go:49-56). -/
structure Connector where
  pc : CPc
  failedBefore : Bool
  d : Int
  log : List Act
  deriving DecidableEq, Repr

/-- A new connector; `retry` is the result of `_retry_delay` (net_caller.go:51-52). -/
def Connector.start (retry : Int) : Connector := ⟨.trying, false, 4 * retry, []⟩

/-- `_try_connect` returns (net_caller.go:53-55). -/
def Connector.tried (c : Connector) (r : Option Nat) : Outcome Connector :=
  if c.pc = .trying then
    match r with
    | some x => .ok { c with pc := .haveConn x }
    | none => if !c.failedBefore then .ok { c with failedBefore := true, pc := .haveNil } else .ok { c with pc := .resting }
  else .err

/-- What the connector offers on its channel now. -/
def Connector.offer (c : Connector) : Option (Option Nat) :=
  match c.pc with
  | .haveConn x => some (some x)
  | .haveNil => some none
  | _ => none

/-- Somebody receives from the connector (net_caller.go:54-55). -/
def Connector.taken (c : Connector) : Connector :=
  match c.pc with
  | .haveConn x => { c with pc := .ended, log := c.log ++ [.pubConn x] }
  | .haveNil => { c with pc := .resting, log := c.log ++ [.pubNil] }
  | _ => c

/-- The sleep, and the next delay (net_caller.go:52, 56). -/
def Connector.sleep (c : Connector) : Outcome Connector :=
  if c.pc = .resting then .ok { c with pc := .trying, log := c.log ++ [.slept c.d], d := min' (2 * c.d) maxDelay } else .err

/-- Where the consumer is (net_caller.go:28-46). -/
inductive Pc where
  /-- about to start a connector -/
  | spawn
  /-- `c = <-conn_ch` -/
  | wait
  /-- the top of the loop that drops messages -/
  | top
  /-- the select in it -/
  | select
  /-- connected, about to get the first message -/
  | first
  /-- about to call -/
  | call
  /-- `msg = <-msg_ch` after a call -/
  | post
  /-- after the loop of calls -/
  | fail
  deriving DecidableEq, Repr

/-- The state for one peer, with three records of what has happened: the messages given to `try_send`, those of them that got into the
queue, and the calls (connection, message, success). -/
structure St (M : Type) where
  queue : List M
  msg : Option M
  pushedBack : Bool
  pc : Pc
  client : Option Nat
  failed : Bool
  connectors : List Connector
  offered : List M
  accepted : List M
  calls : List (Nat × M × Bool)
  deriving DecidableEq, Repr

variable {M : Type}

/-- `start_net_caller` for one peer (net_caller.go:16-22, 29-31). -/
def init : St M :=
  { queue := [], msg := none, pushedBack := false, pc := .spawn, client := none, failed := false, connectors := [], offered := [],
    accepted := [], calls := [] }

/-- What can happen next. -/
inductive Ev (M : Type) where
  /-- `try_send` -/
  | send (m : M)
  /-- the consumer starts a connector, whose `_retry_delay` is `retry` -/
  | spawn (retry : Int)
  /-- the consumer receives from the i-th connector in `wait` -/
  | recv (i : Nat)
  /-- the consumer gets a message, if it has none that was pushed back -/
  | get
  /-- the select takes what the i-th connector offers -/
  | selConn (i : Nat)
  /-- the select drops the message -/
  | selDrop
  /-- the call returns -/
  | call (ok : Bool)
  /-- the consumer closes the connection, pushes back and sleeps -/
  | closing
  /-- `_try_connect` returns in the i-th connector -/
  | tried (i : Nat) (r : Option Nat)
  /-- the i-th connector sleeps -/
  | sleep (i : Nat)

/-- `try_send` (net_caller.go:11-14). -/
def trySend (s : St M) (m : M) : St M :=
  if s.queue.length < msgMax then
    { s with queue := s.queue ++ [m], offered := s.offered ++ [m], accepted := s.accepted ++ [m] }
  else { s with offered := s.offered ++ [m] }

/-- `if pushed_back {pushed_back = false} else {msg = <-msg_ch}` (net_caller.go:38, 43), then on to `pc`. -/
def getMsg (s : St M) (pc : Pc) : Outcome (St M) :=
  if s.pushedBack then .ok { s with pushedBack := false, pc := pc }
  else match s.queue with
    | [] => .err
    | m :: ms => .ok { s with queue := ms, msg := some m, pc := pc }

/-- One event; `err` when it cannot happen now. -/
def step (s : St M) : Ev M → Outcome (St M)
  | .send m => .ok (trySend s m)
  | .spawn retry =>
    if s.pc = .spawn then .ok { s with connectors := s.connectors ++ [.start retry], pc := .wait } else .err
  | .recv i => match s.connectors[i]? with
    | none => .err
    | some c => match c.offer with
      | none => .err
      | some x =>
        if s.pc = .wait then
          .ok { s with connectors := s.connectors.set i c.taken, client := x, pc := if x = none then .top else .first }
        else .err
  | .get =>
    if s.pc = .top then getMsg s .select
    else if s.pc = .first then getMsg { s with failed := false } .call
    else if s.pc = .post then match s.queue with
      | [] => .err
      | m :: ms => .ok { s with queue := ms, msg := some m, pc := if s.failed then .fail else .call }
    else .err
  | .selConn i => match s.connectors[i]? with
    | none => .err
    | some c => match c.offer with
      | none => .err
      | some x =>
        if s.pc = .select then .ok { s with connectors := s.connectors.set i c.taken, client := x, failed := false, pc := .call }
        else .err
  | .selDrop =>
    if s.pc = .select ∧ ∀ c ∈ s.connectors, c.offer = none then .ok { s with pc := .top } else .err
  | .call ok =>
    if s.pc = .call then
      match s.client, s.msg with
      | some c, some m => .ok { s with calls := s.calls ++ [(c, m, ok)], failed := !ok, pc := .post }
      | none, _ => .panic -- a method call on a nil client
      | some _, none => .panic -- not reached
    else .err
  | .closing => if s.pc = .fail then .ok { s with pushedBack := true, pc := .spawn } else .err
  | .tried i r => match s.connectors[i]? with
    | none => .err
    | some c => c.tried r >>= fun c' => .ok { s with connectors := s.connectors.set i c' }
  | .sleep i => match s.connectors[i]? with
    | none => .err
    | some c => c.sleep >>= fun c' => .ok { s with connectors := s.connectors.set i c' }

/-- A history of events. -/
def run (s : St M) : List (Ev M) → Outcome (St M)
  | [] => .ok s
  | e :: es => step s e >>= fun s' => run s' es

end Verif.NetCaller
