import Verif.Model.Basic
import Verif.Model.GoMap
import Mathlib.Data.List.Basic

/-!
Model of /repo/siggy/src/protocol/firewall.go and /repo/siggy/src/net/msg.go.

Every section of code that holds the firewall's mutex is one atomic event; the events of a history come in any order
the Go scheduler may choose. Time is the monotonic clock, in nanoseconds; a `time.Sleep` until `t` ends at some moment
not before `t`. The nested maps indexed by protocol, guest and run id are one map indexed by the triple.
-/
namespace Verif

/-- `Message` (msg.go:3-10); `D` is the type of the values that can be in the field `DTO`. -/
structure Message (D : Type) where
  sender : Int
  pc : Int
  rcpt : Int
  runId : String
  op : Int
  dto : D
  deriving DecidableEq, Repr

/-- Protocol code, guest index and run id. -/
structure RunKey where
  pc : Int
  gidx : Int
  runId : String
  deriving DecidableEq, Repr

/-- The indices with which a message is looked up. -/
def Message.key {D : Type} (m : Message D) : RunKey := ⟨m.pc, m.rcpt, m.runId⟩

namespace Firewall

/-- `_allowance` (firewall.go:21). -/
structure Allowance where
  buf : Int
  start : Int
  stop : Int
  deriving DecidableEq, Repr

/-- `_fw_buf_max` (firewall.go:34). -/
def bufMax : Nat := 2048

/-- Capacity of an observer channel, `_nfw` (firewall.go:20, 65). -/
def obsCap : Nat := 4

/-- States of an allowance (firewall.go:20). -/
def dropping : Nat := 0
def buffering : Nat := 1
def forwarding : Nat := 2
def stopped : Nat := 3

/-- One call of `fw_set_allowance`: its arguments, whether it started a thread (firewall.go:67-70), how many sections
that thread has finished, the allowance it has read, and the unread part of the observer channel. -/
structure Call where
  key : RunKey
  allow : Allowance
  live : Bool
  sections : Nat
  loaded : Allowance
  obs : List Nat
  deriving DecidableEq, Repr

/-- `fw` (firewall.go:22-33), the clock, the calls of `fw_set_allowance`, and the messages passed to `_output`. -/
structure Fw (D : Type) where
  nprots : Nat
  guests : Int → Bool
  dropUntil : Int
  dropAll : Bool
  allowances : GoMap RunKey Allowance
  state : GoMap RunKey Nat
  buffer : GoMap RunKey (List (Message D))
  now : Int
  calls : List Call
  out : List (Message D)

/-- `make_fw` at time `now` (firewall.go:36-59). -/
def make (D : Type) (nprots : Nat) (guests : Int → Bool) (dropUntil now : Int) : Fw D :=
  { nprots := nprots, guests := guests, dropUntil := dropUntil, dropAll := decide (now < dropUntil),
    allowances := [], state := [], buffer := [], now := now, calls := [], out := [] }

/-- What can happen next. -/
inductive Ev (D : Type) where
  /-- the clock advances -/
  | tick (t : Int)
  /-- the goroutine of `make_fw` clears `_drop_all` (firewall.go:55-58) -/
  | latch
  /-- `_fw_process` -/
  | msg (m : Message D)
  /-- `fw_set_allowance` -/
  | allow (k : RunKey) (a : Allowance)
  /-- the thread of the i-th call runs its next section -/
  | step (i : Nat)
  /-- the holder of the i-th observer channel reads from it -/
  | read (i : Nat)

variable {D : Type}

/-- The array `_allowances` has the index `pc`, and the guest `gidx` has a map there. -/
def keyValid (f : Fw D) (k : RunKey) : Bool := decide (0 ≤ k.pc) && decide (k.pc < f.nprots) && f.guests k.gidx

/-- `_fw_message_valid` (firewall.go:111-115). -/
def messageValid (f : Fw D) (m : Message D) : Bool :=
  if !(decide (0 ≤ m.pc) && decide (m.pc < f.nprots)) then false else f.guests m.rcpt

/-- `_fw_process` (firewall.go:98-109). -/
def process (f : Fw D) (m : Message D) : Fw D :=
  if f.dropAll || !messageValid f m then f
  else match f.state.get? m.key with
    | none => f
    | some st =>
      if st = buffering then
        let buf := (f.buffer.get? m.key).getD []
        if buf.length < bufMax then { f with buffer := f.buffer.set m.key (buf ++ [m]) } else f
      else if st = forwarding then { f with out := f.out ++ [m] }
      else f

/-- `fw_set_allowance` (firewall.go:63-71). An unknown protocol or guest makes it panic: the array index is out of
range, or the assignment is to an entry of a nil map. -/
def setAllowance (f : Fw D) (k : RunKey) (a : Allowance) : Outcome (Fw D) :=
  if !keyValid f k then .panic
  else if (f.allowances.get? k).isSome then .ok { f with calls := f.calls ++ [⟨k, a, false, 0, ⟨0, 0, 0⟩, []⟩] }
  else .ok { f with
    allowances := f.allowances.set k a
    state := f.state.set k dropping
    calls := f.calls ++ [⟨k, a, true, 0, ⟨0, 0, 0⟩, []⟩] }

/-- `_fw_flush` (firewall.go:90-93). -/
def flush (f : Fw D) (k : RunKey) : Fw D :=
  { f with out := f.out ++ (f.buffer.get? k).getD [], buffer := f.buffer.delete k }

/-- The next section of `_fw_state_step` (firewall.go:73-88) in the thread of call `i`; `err` when it must still
sleep, or its channel is full (it would then block, holding the lock), or there is no such thread. -/
def stateStep (f : Fw D) (i : Nat) : Outcome (Fw D) :=
  match f.calls[i]? with
  | none => .err
  | some c =>
    if !c.live then .err
    else if c.sections = 0 then
      .ok { f with calls := f.calls.set i { c with sections := 1, loaded := (f.allowances.get? c.key).getD ⟨0, 0, 0⟩ } }
    else if c.sections = 1 then
      if c.loaded.buf ≤ f.now ∧ c.obs.length < obsCap then
        .ok { f with
          state := f.state.set c.key buffering
          calls := f.calls.set i { c with sections := 2, obs := c.obs ++ [buffering] } }
      else .err
    else if c.sections = 2 then
      if c.loaded.start ≤ f.now ∧ c.obs.length < obsCap then
        let f := flush f c.key
        .ok { f with
          state := f.state.set c.key forwarding
          calls := f.calls.set i { c with sections := 3, obs := c.obs ++ [forwarding] } }
      else .err
    else if c.sections = 3 then
      if c.loaded.stop ≤ f.now ∧ c.obs.length < obsCap then
        .ok { f with
          state := (f.state.set c.key stopped).delete c.key
          allowances := f.allowances.delete c.key
          calls := f.calls.set i { c with sections := 4, obs := c.obs ++ [stopped] } }
      else .err
    else .err

/-- One event; `err` when it cannot happen now. -/
def step (f : Fw D) : Ev D → Outcome (Fw D)
  | .tick t => if f.now ≤ t then .ok { f with now := t } else .err
  | .latch => if f.dropAll = true ∧ f.dropUntil ≤ f.now then .ok { f with dropAll := false } else .err
  | .msg m => .ok (process f m)
  | .allow k a => setAllowance f k a
  | .step i => stateStep f i
  | .read i =>
    match f.calls[i]? with
    | none => .err
    | some c => if c.obs = [] then .err else .ok { f with calls := f.calls.set i { c with obs := c.obs.tail } }

/-- A history of events. -/
def run (f : Fw D) : List (Ev D) → Outcome (Fw D)
  | [] => .ok f
  | e :: es => step f e >>= fun f' => run f' es

end Firewall
end Verif
