import Verif.Model.KeyProgram
import Verif.Spec.Signode
import Verif.Spec.Prot
import Verif.Spec.Program

/-! What is said about the tool as it makes long-term keys without its code. -/
namespace Verif.Spec.KeyProgram
open Verif.Prot Verif.Dto Verif.Dss Verif.Dkg Verif.Spec.Prot Verif.Spec.Signode Verif.KeyProgram
variable {K : Type}

/-- What a runner of the key generation sends in place of the signal to delete its run: a message like any other, for the first stage,
from member 0 and with nothing in it. -/
def echo (g : Int) (id : String) : Message Dto := ⟨0, 0, g, id, 0, .other⟩

/-- After the history `h` of the program, in the state `s`, its r-th run is one of the key generation for guest `g` in the i-th attempt
and has ended as `u`: it received nothing but messages for it that came from the network, and the message above. -/
def RanTo (c : Cfg K) (h : List Ev) (s : Sys K) (i : Nat) (g : Int) (r : Nat) (u : Run Dto Obj (Data K)) : Prop :=
  (∃ o, s.prog.node.reg.objs[r]? = some o ∧ o.key = ⟨0, g, attemptId c.start c.interval i⟩) ∧ s.prog.runs[r]? = some u ∧ u.phase = .done ∧
  ∃ (t0 : Int) (hist : List (Prot.Ev Dto)),
    (∀ m ∈ msgs hist, m.key = ⟨0, g, attemptId c.start c.interval i⟩ ∧ 0 ≤ m.op ∧
      (.prog (.net m) ∈ h ∨ m = echo g (attemptId c.start c.interval i))) ∧
    exec (dkgConf (c.base.y g r) (attemptId c.start c.interval i) g c.base.members)
      (newRun Dto Obj (newData (c.base.gen g r)) t0) hist = .ok u

/-- The share comes from such a run: it is what the generator gave when it was finished, and QUAL had as many members as there are. -/
def FromRun (c : Cfg K) (h : List Ev) (s : Sys K) (i : Nat) (g : Int) (share : KeyShare) : Prop :=
  ∃ (r : Nat) (u : Run Dto Obj (Data K)) (q : List Int), RanTo c h s i g r u ∧
    (c.base.y g r).finished u.user.kyb = true ∧ (c.base.y g r).distKeyShare u.user.kyb = .ok share ∧
    u.user.out = [.key share q] ∧ c.base.members ≤ q.length

/-- The run has left no key, or QUAL is short of members. -/
def NoKey (members : Nat) (u : Run Dto Obj (Data K)) : Prop :=
  u.user.out = [] ∨ ∃ share q, u.user.out = [.key share q] ∧ q.length < members

/-- The events that happen by themselves when their time has come, once the messages of the outside are there. -/
def own : Ev → Bool
  | .prog e => Spec.Program.own e
  | .main _ => true
  | .check _ => true

/-- Nothing is late: the clock shows a time only when nothing is left that could have happened by itself a millisecond before. -/
def Prompt (c : Cfg K) (h : List Ev) : Prop :=
  ∀ h1 t h2, h = h1 ++ .prog (.tick t) :: h2 → ∀ s, run c (init c) h1 = .ok s → s.prog.node.fw.now < t →
    ∀ s', step c s (.prog (.tick (t - 1))) = .ok s' → ∀ e, own e = true → step c s' e = .err

/-- The allowance of the i-th attempt. -/
def allowed (c : Cfg K) (i : Nat) : Firewall.Allowance := c.allow (c.start + i * c.interval)

/-- Each attempt is over before the next one starts, the allowances leave enough time, and the process is there before the first start,
which is not before it takes messages. The stages of an attempt take 525 ms together (dkg.go:38-48). -/
structure Apart (c : Cfg K) : Prop where
  buf : ∀ i, (allowed c i).buf ≤ (allowed c i).start
  stop : ∀ i, (allowed c i).start + 525 ≤ (allowed c i).stop
  next : ∀ i, (allowed c i).start + 525 ≤ (allowed c (i + 1)).start
  drop : c.base.dropUntil ≤ (allowed c 0).start
  begun : c.base.started ≤ (allowed c 0).start

/-- A run of the process sends the message at this time. -/
def Sends (c : Cfg K) (h : List Ev) (m : Message Dto) (t : Int) : Prop :=
  ∃ h1 e h2 s s', h = h1 ++ e :: h2 ∧ run c (init c) h1 = .ok s ∧ step c s e = .ok s' ∧ s.prog.node.fw.now = t ∧
    (∀ u ∈ s.prog.runs, .sent m ∉ u.log) ∧ ∃ u ∈ s'.prog.runs, .sent m ∈ u.log

/-- The message arrives at this time, when there is room in the queue of its guest. -/
def Arrives (c : Cfg K) (h : List Ev) (m : Message Dto) (t : Int) : Prop :=
  ∃ h1 h2 s, h = h1 ++ .prog (.net m) :: h2 ∧ run c (init c) h1 = .ok s ∧ s.prog.node.fw.now = t ∧
    (s.prog.node.queues (m.pc, m.rcpt)).length < Node.rcvBufMax

end Verif.Spec.KeyProgram
