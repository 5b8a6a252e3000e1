import Verif.Spec.NetTime
import Verif.Spec.Network

/-! What is said about the load of the queues, and when a network with little load works. -/
namespace Verif.Spec.NetTime
open Verif.NetTime
variable {M : Type}

/-- When messages are given to `try_send`, in a history that begins at time `now`. -/
def stamps (now : Int) : List (Ev M) → List Int
  | [] => []
  | .tick t :: h => stamps t h
  | .send _ :: h => now :: stamps now h
  | _ :: h => stamps now h

/-- Within `W` there are no more than `B` of these times. -/
def Load (B : Nat) (W : Int) (ts : List Int) : Prop := ∀ i a b, ts[i]? = some a → ts[i + B]? = some b → a + W < b

end Verif.Spec.NetTime

namespace Verif.Spec.Network
open Verif.Dkg Verif.Network
open Verif.Spec.NetTime (Prompt Answers Load stamps)
variable {ι S E : Type}

/-- `q` tells when things happen in a queue of process `p`, by the clock of `p`. -/
def Account [DecidableEq ι] (N : Net ι S E) (clock : S → Int) (h : List (Ev ι E)) (p : ι) (k : Int × Int) (x : Int)
    (q : List (NetTime.Ev (Message Dto))) : Prop :=
  ∀ g1 g2, h = g1 ++ g2 → ∀ s, run N (init N) g1 = .ok s →
    ∃ q1 q2 z, q = q1 ++ q2 ∧ NetTime.run (NetTime.init (clock (N.prog p).init)) q1 = .ok z ∧ z.base = s.callers p k x ∧ z.now = clock (s.procs p)

/-- The peers of the processes are there when they are called: dialling takes at most `D` and a call at most `L`, and both succeed; the threads of the queues
are not late; nothing is sent in the first two seconds and `D` of a process; and no more than `B` messages are given to a queue within 40 ms. -/
def Quick [DecidableEq ι] (N : Net ι S E) (clock : S → Int) (h : List (Ev ι E)) (D L : Int) (B : Nat) : Prop :=
  ∀ p k x, Leads N p k x → ∃ q, Account N clock h p k x q ∧ Prompt D L (NetTime.init (clock (N.prog p).init)) q ∧ Answers q ∧
    (∀ a ∈ stamps (clock (N.prog p).init) q, clock (N.prog p).init + 2000 + D < a) ∧ Load B 40 (stamps (clock (N.prog p).init) q)

/-- When a message is delivered, there is room for it, and the clocks of the two processes differ by less than 30 ms. -/
def Inbox [DecidableEq ι] (N : Net ι S E) (clock : S → Int) (room : S → Message Dto → Prop) (h : List (Ev ι E)) : Prop :=
  ∀ g1 p k x ok r g2, h = g1 ++ .call p k x ok (some r) :: g2 → ∀ s m, run N (init N) g1 = .ok s → (s.callers p k x).msg = some m →
    room (s.procs r) m ∧ clock (s.procs p) - 30 < clock (s.procs r) ∧ clock (s.procs r) < clock (s.procs p) + 30

end Verif.Spec.Network
