import Verif.Model.Network

/-! What is said about processes with the network between them. -/
namespace Verif.Spec.Network
open Verif.Prot Verif.Dkg Verif.Network
variable {ι S E : Type}

/-- The address of a queue is one on which one of the processes listens. -/
def Leads (N : Net ι S E) (p : ι) (k : Int × Int) (x : Int) : Prop := ∃ a r, addr N p k x = some a ∧ a ∈ N.listen r

/-- The network works, during a history. In the queues that lead to one of the processes, no call fails, no message is dropped, neither for want of a
connection nor since the queue is full, and every message has been delivered 40 ms after it was sent, by the clock of the
process that sends it. When a message is delivered, there is room for it, and the clocks of the two processes differ by less than 30 ms. -/
structure Works [DecidableEq ι] (N : Net ι S E) (clock : S → Int) (room : S → Message Dto → Prop) (h : List (Ev ι E)) : Prop where
  calls : ∀ p k x ok r, .call p k x ok r ∈ h → Leads N p k x → ok = true
  connected : ∀ p k x, Leads N p k x → .caller p k x .selDrop ∉ h
  outbox : ∀ g1 g2, h = g1 ++ g2 → ∀ s, run N (init N) g1 = .ok s → ∀ p k x, Leads N p k x →
    (s.callers p k x).accepted = (s.callers p k x).offered
  swift : ∀ g1 g2 g3, h = g1 ++ (g2 ++ g3) → ∀ s s', run N (init N) g1 = .ok s → run N (init N) (g1 ++ g2) = .ok s' → ∀ p k x, Leads N p k x →
    clock (s.procs p) + 40 < clock (s'.procs p) → (s.callers p k x).accepted.length ≤ (s'.callers p k x).calls.length
  inbox : ∀ g1 p k x ok r g2, h = g1 ++ .call p k x ok (some r) :: g2 → ∀ s m, run N (init N) g1 = .ok s → (s.callers p k x).msg = some m →
    room (s.procs r) m ∧ clock (s.procs p) - 30 < clock (s.procs r) ∧ clock (s.procs r) < clock (s.procs p) + 30

/-- The clock of a process that signs. -/
def signClock {K : Type} (s : Program.Sys K) : Int := s.node.fw.now

/-- There is room for the message in the queue of its guest. -/
def signRoom {K : Type} (s : Program.Sys K) (m : Message Dto) : Prop := (s.node.queues (m.pc, m.rcpt)).length < Node.rcvBufMax

/-- The same for a process that makes long-term keys. -/
def keyClock {K : Type} (s : KeyProgram.Sys K) : Int := signClock s.prog

def keyRoom {K : Type} (s : KeyProgram.Sys K) (m : Message Dto) : Prop := signRoom s.prog m

end Verif.Spec.Network
