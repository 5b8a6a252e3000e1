import Verif.Model.NetTime
import Verif.Spec.NetCaller

/-! What is said about outgoing messages and time. -/
namespace Verif.Spec.NetTime
open Verif.NetTime
variable {M : Type}

/-- A thread can go on at once. -/
inductive Busy (s : St M) : Prop where
  | spawn : s.base.pc = .spawn → s.wake ≤ s.now → Busy s
  | recv (c : NetCaller.Connector) : s.base.pc = .wait → c ∈ s.base.connectors → c.offer ≠ none → Busy s
  | back : s.base.pc = .top ∨ s.base.pc = .first → s.base.pushedBack = true → Busy s
  | get : s.base.pc = .top ∨ s.base.pc = .first ∨ s.base.pc = .post → s.base.queue ≠ [] → Busy s
  | select : s.base.pc = .select → Busy s
  | fail : s.base.pc = .fail → Busy s
  | awake (y : Try) (till : Int) : y ∈ s.tries → y.timer = .asleep till → till ≤ s.now → Busy s
  | rest (i : Nat) (c : NetCaller.Connector) (y : Try) : s.base.connectors[i]? = some c → s.tries[i]? = some y → c.pc = .resting → y.timer = .idle → Busy s

/-- The clock may go on to `t`, if no thread is late, dialling takes at most `D` and a call at most `L`. -/
structure Timely (D L : Int) (s : St M) (t : Int) : Prop where
  free : ¬ Busy s
  consumer : s.base.pc = .spawn → t ≤ s.wake
  sleeps : ∀ y ∈ s.tries, ∀ till, y.timer = .asleep till → t ≤ till
  dials : ∀ y ∈ s.tries, ∀ since, y.timer = .dialling since → t ≤ since + D
  calls : s.base.pc = .call → t ≤ s.since + L

/-- No thread is late in the history. -/
def Prompt (D L : Int) (s : St M) (h : List (Ev M)) : Prop :=
  ∀ h1 t h2, h = h1 ++ .tick t :: h2 → ∀ s1, run s h1 = .ok s1 → Timely D L s1 t

/-- The peer is there: dialling gives a connection, and calls succeed. -/
def Answers (h : List (Ev M)) : Prop := (∀ i r, .dialled i r ∈ h → r ≠ none) ∧ ∀ ok, .call ok ∈ h → ok = true

/-- The messages given to `try_send`. -/
def sends : List (Ev M) → List M
  | [] => []
  | .send m :: h => m :: sends h
  | _ :: h => sends h

/-- The messages of the calls that have returned. -/
def called (s : St M) : List M := NetCaller.called s.base.calls

end Verif.Spec.NetTime
