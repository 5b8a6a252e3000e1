import Verif.Spec.KeyProgram
import Verif.Spec.Generation

/-! What is expected of processes that make long-term keys together, and of what is between them. -/
namespace Verif.Spec.KeyProgram
open Verif.Prot Verif.Dto Verif.Dss Verif.Dkg Verif.Spec.Prot Verif.Spec.Signode Verif.Spec.Generation Verif.KeyProgram
variable {ι K : Type}

/-- Processes: what is fixed in each, its history, and where it has got to. -/
structure Crew (ι K : Type) where
  c : ι → Cfg K
  h : ι → List Ev
  s : ι → Sys K

/-- Nothing is late in any of them, each of `n` members is a guest of at most one of them, attempt `i` has the same identifier and the same start for
all, and its time is over. -/
structure OnSchedule (w : Crew ι K) (i n : Nat) (id : String) (T : Int) : Prop where
  run : ∀ p, run (w.c p) (init (w.c p)) (w.h p) = .ok (w.s p)
  prompt : ∀ p, Prompt (w.c p) (w.h p)
  apart : ∀ p, Apart (w.c p)
  epoch : ∀ p, 0 ≤ (w.c p).start ∧ 0 ≤ (w.c p).interval
  nodup : ∀ p, (w.c p).base.guests.Nodup
  members : ∀ p, (w.c p).base.members = n
  guests : ∀ p, ∀ g ∈ (w.c p).base.guests, ∃ x : Nat, x < n ∧ g = x
  once : ∀ p q g, g ∈ (w.c p).base.guests → g ∈ (w.c q).base.guests → p = q
  id : ∀ p, attemptId (w.c p).start (w.c p).interval i = id
  start : ∀ p, (allowed (w.c p) i).start = T
  over : ∀ p, T + 525 ≤ (w.s p).prog.node.fw.now

/-- What comes in for the attempt and passes the checks was sent by one of the processes, and what is sent comes in less than 70 ms later at the process of the
member it is for, when there is room in the queue. -/
structure Carried (w : Crew ι K) (id : String) : Prop where
  authentic : ∀ p m, .prog (.net m) ∈ w.h p → m.pc = 0 → m.runId = id → Plausible (w.c p).base.members m →
    ∃ q, ∃ u ∈ (w.s q).prog.runs, .sent m ∈ u.log
  arrives : ∀ q p m t, Sends (w.c q) (w.h q) m t → m.pc = 0 → m.runId = id → m.rcpt ∈ (w.c p).base.guests →
    ∃ t', Arrives (w.c p) (w.h p) m t' ∧ t - 30 < t' ∧ t' < t + 70

/-- Each of the `n` members is a guest of one of them. -/
def Crew.Full (w : Crew ι K) (n : Nat) : Prop := ∀ x < n, ∃ p, (x : Int) ∈ (w.c p).base.guests

/-- The guests take part in the attempt, and the generators of their runs do what is expected of kyber among honest members. -/
structure Generating (w : Crew ι K) (net : Net) (n : Nat) (id : String) : Prop where
  part : ∀ x : Nat, net.on x ↔ ∃ p, (x : Int) ∈ (w.c p).base.guests
  gen : ∀ p (x r : Nat) (o : Registry.Obj), (x : Int) ∈ (w.c p).base.guests → (w.s p).prog.node.reg.objs[r]? = some o → o.key = ⟨0, x, id⟩ →
    ∃ ph, Generates ((w.c p).base.y x r) net n x ((w.c p).base.gen x r) ph

/-- The shares can be saved: they have commitments, and these are on the curve. -/
def Savable (net : Net) (n : Nat) : Prop := ∀ x < n, (net.key x).commits ≠ [] ∧ ∀ p ∈ (net.key x).commits, OnCurve p.X p.Y

/-- Nothing can happen by itself now. -/
def Settled (c : Cfg K) (s : Sys K) : Prop := ∀ e, own e = true → step c s e = .err

end Verif.Spec.KeyProgram
