import Verif.Props.Memory
import Verif.Props.Node
import Verif.Props.ProgramExample

/-! Cases of C114. -/
namespace Verif.Props.Memory
open Verif.Prot Verif.Props

section Examples
open Verif.Program Verif.Dto Verif.Dkg Verif.Tables Verif.Signode Verif.Props.Program

/-- One request up to the start of its run. -/
def listenHist : List Program.Ev :=
  [.request pgJob1, .job 0 0, .job 0 0, .job 0 0, .runner 0, .runner 0, .fwStep 0, .task 0, .tick 95, .fwStep 0, .runner 0, .tick 100, .fwStep 0,
   .runner 0, .runner 0, .task 0]

/-- A message of a stranger for the last stage but one of the run, without contents. -/
def stranger : Message Dto := ⟨77, 1, 0, jobId pgJob1, 10, .other⟩

def listensB (s : Program.Sys Unit) (m : Message Dto) (i : Nat) : Bool :=
  !s.node.fw.dropAll && Firewall.messageValid s.node.fw m && decide (s.node.fw.state.get? m.key = some Firewall.forwarding) &&
  decide (0 ≤ m.op ∧ m.op < s.node.stages m.pc) && (match s.node.cons (m.pc, m.rcpt) with | .idle => true | _ => false) &&
  (s.node.queues (m.pc, m.rcpt)).isEmpty && decide (s.node.reg.runs.get? m.key = some i) && decide (s.node.reg.objs.length = s.runs.length) &&
  (match s.runs[i]? with
   | some u => decide (u.state < m.op) && decide (u.now ≤ s.node.fw.now) && ((u.rcvbuf.get? m.op).getD []).isEmpty
   | none => false)

theorem listensB_sound {s : Program.Sys Unit} {m : Message Dto} {i : Nat} (h : listensB s m i = true) : Listens s m i [] := by
  simp only [listensB, Bool.and_eq_true, Bool.not_eq_true', decide_eq_true_eq, List.isEmpty_iff] at h
  obtain ⟨⟨⟨⟨⟨⟨⟨⟨h1, h2⟩, h3⟩, h4⟩, h5⟩, h6⟩, h7⟩, h8⟩, h9⟩ := h
  refine ⟨h1, h2, h3, h4, ?_, h6, h7, h8, ?_⟩
  · split at h5
    · assumption
    · cases h5
  · split at h9
    · rename_i u hu
      simp only [Bool.and_eq_true, decide_eq_true_eq, List.isEmpty_iff] at h9
      exact ⟨u, hu, h9.1.1, h9.1.2, h9.2⟩
    · cases h9

def listenCheck : Bool :=
  match Program.run pgCfg (Program.init pgCfg) listenHist with
  | .ok s => listensB s stranger 0
  | _ => false

theorem listenCheck_ok : listenCheck = true := by decide +kernel

/-- The hypothesis of `C114_counterexample` holds of a program with one request; so a million messages of a stranger are a million kept. -/
example : ∃ s s' u, Program.run pgCfg (Program.init pgCfg) listenHist = .ok s ∧
    Program.run pgCfg s ((List.replicate 1000000 (round stranger)).flatten) = .ok s' ∧ s'.runs[0]? = some u ∧
    ((u.rcvbuf.get? 10).getD []).length = 1000000 := by
  have h := listenCheck_ok
  unfold listenCheck at h
  split at h
  · rename_i s hs
    obtain ⟨s', u, h1, h2, h3⟩ := C114_counterexample pgCfg s stranger 0 [] (listensB_sound h) 1000000
    exact ⟨s, s', u, hs, h1, h2, by rw [show (10 : Int) = stranger.op from rfl, h3, List.nil_append, List.length_replicate]⟩
  · cases h

/-- The firewall keeps messages while it buffers: the hypothesis of `C114_firewall_partial`. -/
def bufferedCheck : Bool :=
  match Node.run Props.Node.exNode [.tick 10, .latch, .launch (Props.Node.exKey 1) ⟨20, 30, 40⟩, .runner 0, .runner 0, .fwStep 0, .tick 20, .fwStep 0,
      .net ⟨0, 1, 1, "a", 0, 7⟩, .net ⟨9, 1, 1, "a", 2, 7⟩] with
  | .ok s => decide ((s.fw.buffer.get? (Props.Node.exKey 1)).map List.length = some 2)
  | _ => false

theorem bufferedCheck_ok : bufferedCheck = true := by decide +kernel

/-- The demonstration run keeps two messages before stage 1 and none at its end. -/
def keptCheck : Bool :=
  (match Prot.exec demoConf (newRun Nat Nat 0 0) (demoHistory.take 5) with
   | .ok r => decide (r.rcvbuf.map (fun p => (p.1, p.2.length)) = [(1, 2)])
   | _ => false) &&
  (match Prot.exec demoConf (newRun Nat Nat 0 0) demoHistory with
   | .ok r => r.rcvbuf.isEmpty && decide (r.phase = .done) && ((Spec.Prot.msgs demoHistory).all fun m => decide (m.op < 3))
   | _ => false)

theorem keptCheck_ok : keptCheck = true := by decide +kernel

end Examples

end Verif.Props.Memory
