import Verif.Props.Program
import Verif.Props.Dkg
import Verif.Proofs.ProgramTime

/-!
C78 and C79: the comment in `_runner_run_guest` (runner.go:38-41). A node does not speak early, and so an honest peer whose clock is
at most `max_drift` behind takes what it says.
-/
namespace Verif.Props.Program
open Verif.Prot Verif.Dto Verif.Dss Verif.Dkg Verif.Point Verif.Tables Verif.Signode Verif.Program Verif.Props Verif.Spec.Prot Verif.Spec.Program
variable {K : Type}

/-- C78 (runs). In every history, whatever the run identifiers: a protocol run exists only for a request whose start has been reached. -/
theorem C78_runs (c : Cfg K) (h : List Ev) (s : Sys K) (hr : run c (init c) h = .ok s) (o : Registry.Obj) (ho : o ∈ s.node.reg.objs) :
    ∃ j ∈ requests h, o.key.pc = 1 ∧ o.key.gidx ∈ c.guests ∧ o.key.runId = jobId j ∧ (c.allow j).start ≤ s.node.fw.now := by
  obtain ⟨es, h1, h2⟩ := through_run hr
  obtain ⟨u, hu, hk, hs⟩ := (Node.timely_run (Node.good_make o.key ..) (Node.timely_make ..) h1).obj o ho
  rcases Node.runners_run h1 u hu with ⟨v, hv, _⟩ | hm
  · cases hv
  · obtain ⟨j, hj, e1, e2, e3, e4⟩ := h2 _ _ hm
    rw [reqs_run hr] at hj
    rw [← hk]
    exact ⟨j, hj, e1, e2, e3, e4 ▸ hs⟩

/-- C78 (messages). In every history in which the requests have different run identifiers: a message that a run has sent comes from a
guest of this process, is for the signing protocol and belongs to a request whose start has been reached. -/
theorem C78_sent (c : Cfg K) (h : List Ev) (s : Sys K) (hr : run c (init c) h = .ok s) (hg : c.guests.Nodup)
    (hd : ((requests h).map jobId).Nodup) (u : Prot.Run Dto Obj (Data K)) (hu : u ∈ s.runs) (m : Message Dto) (hm : .sent m ∈ u.log) :
    m.sender ∈ c.guests ∧ m.pc = 1 ∧ 0 ≤ m.op ∧ m.op < 12 ∧ ∃ j ∈ requests h, m.runId = jobId j ∧ (c.allow j).start ≤ s.node.fw.now := by
  obtain ⟨_, _, hP⟩ := inv_of (W := fun _ => True) hr hg hd (fun _ _ => trivial)
  obtain ⟨r, hur⟩ := List.mem_iff_getElem?.1 hu
  have hlt : r < s.node.reg.objs.length := by rw [← hP.u.len]; exact Registry.lt_of_some hur
  have ho := List.getElem?_eq_getElem hlt
  generalize s.node.reg.objs[r] = o at ho
  obtain ⟨j, hj, e1, e2, e3, e4⟩ := C78_runs c h s hr o (List.mem_of_getElem? ho)
  obtain ⟨b, hb, _, _, e5⟩ := job_of hP.n hP.j ho
  obtain ⟨t0, hist, _, hx⟩ := hP.u.trace r o u ho hur b hb (by rw [e5])
  have hq := sent_requested hx hm
  obtain ⟨l1, l2, e⟩ := List.append_of_mem hq
  obtain ⟨f1, f2, f3⟩ := (agree_exec hx).inv.core.legal l1 _ l2 e
  obtain ⟨g1, g2⟩ := C70_dss _ _ _ _ _ _ _ _ _ _ _ hx m (.inr hm)
  obtain ⟨st, g3, _⟩ := (g2 m.op.toNat).2 (by omega)
  have g4 := Registry.lt_of_some g3
  refine ⟨by rw [f1]; exact e2, f2, g1, ?_, j, hj, f3.trans e3, e4⟩
  have : m.op.toNat < 12 := g4
  omega

/-- The firewall is not behind: neither the thread that ends the time in which everything is dropped, nor one that begins to buffer. -/
def Awake (f : Firewall.Fw Dto) : Prop :=
  Firewall.step f .latch = .err ∧
  ∀ (i : Nat) (c : Firewall.Call), f.calls[i]? = some c → c.sections < 2 → Firewall.step f (.step i) = .err

/-- C79. Two processes have the same request, for the same start, and neither has two requests with one run identifier. If the first
one has sent a message for this request to a guest of the second one, whose clock is at most 5 ms behind, whose runner for the guest has
set its allowance, whose firewall is not behind and whose run is not over, then the firewall of the second one, when the message
arrives, puts it in its buffer or the incoming queue, provided that there is room. -/
theorem C79_taken (c1 c2 : Cfg K) (h1 h2 : List Ev) (s1 s2 : Sys K) (hr1 : run c1 (init c1) h1 = .ok s1) (hr2 : run c2 (init c2) h2 = .ok s2)
    (hg1 : c1.guests.Nodup) (hg2 : c2.guests.Nodup) (hd1 : ((requests h1).map jobId).Nodup) (hd2 : ((requests h2).map jobId).Nodup)
    (j : Job) (hj1 : j ∈ requests h1) (hj2 : j ∈ requests h2) (start : Int) (cf1 cf2 : Conf Dto Obj (Data K))
    (ha1 : c1.allow j = runnerAllowance cf1 start) (ha2 : c2.allow j = runnerAllowance cf2 start) (hdu : c2.dropUntil ≤ start - 5)
    (u : Prot.Run Dto Obj (Data K)) (hu : u ∈ s1.runs) (m : Message Dto) (hm : .sent m ∈ u.log) (hid : m.runId = jobId j)
    (hclock : s1.node.fw.now - 5 ≤ s2.node.fw.now) (hstop : s2.node.fw.now < (c2.allow j).stop)
    (v : Node.Runner) (hv : v ∈ s2.node.runners) (hk : v.key = ⟨1, m.rcpt, jobId j⟩) (hp : 2 ≤ v.pos) (hset : Awake s2.node.fw)
    (hbuf : ((s2.node.fw.buffer.get? m.key).getD []).length < Firewall.bufMax)
    (hq : (s2.node.queues (1, m.rcpt)).length < Node.rcvBufMax) :
    ∃ s3, step c2 s2 (.net m) = .ok s3 ∧
      (s3.node.fw.buffer.get? m.key = some ((s2.node.fw.buffer.get? m.key).getD [] ++ [m]) ∨
        s3.node.queues (1, m.rcpt) = s2.node.queues (1, m.rcpt) ++ [m]) := by
  obtain ⟨_, hpc, hop, hop', j', hj', e1, e2⟩ := C78_sent c1 h1 s1 hr1 hg1 hd1 u hu m hm
  have hjj : j' = j := List.inj_on_of_nodup_map hd1 hj' hj1 (e1.symm.trans hid)
  subst hjj
  rw [ha1] at e2
  have hbufT : (c2.allow j').buf ≤ s2.node.fw.now := by
    rw [ha2]
    simp only [runnerAllowance] at e2 ⊢
    omega
  obtain ⟨_, _, hP⟩ := inv_of (W := fun _ => True) hr2 hg2 hd2 (fun _ _ => trivial)
  obtain ⟨es, r1, r2⟩ := through_run hr2
  have hF : Firewall.Inv s2.node.fw := (Node.timely_run (Node.good_make v.key ..) (Node.timely_make ..) r1).fw
  have hheld : Node.Held s2.node := Node.held_run (Node.good_make v.key ..) (fun u hu => by cases hu) r1 hP.n.keys
  obtain ⟨cl, k1, k2, k3, k4⟩ := hheld v hv hp
  have hal : v.allow = c2.allow j' := by
    rcases Node.runners_run r1 v hv with ⟨w, hw, _⟩ | hl
    · cases hw
    · obtain ⟨j2, hj2', _, _, f3, f4⟩ := r2 _ _ hl
      rw [reqs_run hr2] at hj2'
      rw [hk] at f3
      have : j' = j2 := List.inj_on_of_nodup_map hd2 hj2 hj2' f3
      rw [f4, this]
  have hmk : m.key = cl.key := by rw [k2, hk, Message.key, hpc, hid]
  obtain ⟨l1, l2, l3, l4⟩ := hF.loaded _ _ k1
  obtain ⟨o1, o2, _⟩ := hF.obs _ _ k1
  have hlt4 : cl.sections < 4 := by
    by_contra hc
    have := l4 (by omega)
    rw [k3, hal] at this
    omega
  have hge2 : 2 ≤ cl.sections := by
    by_contra hc
    have h01 : cl.sections = 0 ∨ cl.sections = 1 := by omega
    rcases h01 with h0 | h0
    · have hx := hset.2 v.call cl k1 (by omega)
      rw [Firewall.step, Firewall.stateStep, k1] at hx
      dsimp only at hx
      rw [k4, if_neg (by simp), if_pos h0] at hx
      cases hx
    · have hx := hset.2 v.call cl k1 (by omega)
      rw [Firewall.step, Firewall.stateStep, k1] at hx
      dsimp only at hx
      rw [k4, if_neg (by simp), if_neg (by omega), if_pos h0, if_pos] at hx
      · cases hx
      refine ⟨?_, ?_⟩
      · rw [l1 (by omega), k3, hal]; exact hbufT
      · rw [Firewall.obsCap]; omega
  have hst := (hF.act _ _ ⟨k1, k4, hlt4⟩).2
  have hda : s2.node.fw.dropAll = false := by
    cases hx : s2.node.fw.dropAll with
    | false => rfl
    | true =>
      have hy := hset.1
      rw [Firewall.step, if_pos] at hy
      · cases hy
      refine ⟨hx, ?_⟩
      rw [ha2] at hbufT
      have hdd : s2.node.fw.dropUntil = c2.dropUntil := (Node.const_run r1).2
      simp only [runnerAllowance] at hbufT
      omega
  have hstages : s2.node.stages = stageCount := (Node.const_run r1).1
  have hval : Firewall.messageValid s2.node.fw m = true := by
    rw [Firewall.messageValid_eq, hmk]; exact hF.keys _ _ k1
  have h23 : cl.sections = 2 ∨ cl.sections = 3 := by omega
  rw [← hmk] at hst
  have hopen : (s2.node.fw.dropAll || !Firewall.messageValid s2.node.fw m) = false := by rw [hda, hval]; rfl
  have hproc2 : cl.sections = 2 → Firewall.process s2.node.fw m =
      { s2.node.fw with buffer := s2.node.fw.buffer.set m.key ((s2.node.fw.buffer.get? m.key).getD [] ++ [m]) } := by
    intro e
    rw [Firewall.process, hopen, if_neg Bool.false_ne_true, hst, e]
    dsimp only
    rw [if_pos (by decide), if_pos hbuf]
  have hproc3 : cl.sections = 3 → Firewall.process s2.node.fw m = { s2.node.fw with out := s2.node.fw.out ++ [m] } := by
    intro e
    rw [Firewall.process, hopen, if_neg Bool.false_ne_true, hst, e]
    dsimp only
    rw [if_neg (by decide), if_pos (by decide)]
  have hstep : ∃ s3, step c2 s2 (.net m) = .ok s3 ∧ s3.node =
      ((Firewall.process s2.node.fw m).out.drop s2.node.fw.out.length).foldl Node.receiveMsg
        { s2.node with fw := Firewall.process s2.node.fw m } := ⟨_, rfl, rfl⟩
  obtain ⟨s3, g1, g2⟩ := hstep
  refine ⟨s3, g1, ?_⟩
  rcases h23 with e | e
  · rw [hproc2 e, List.drop_length] at g2
    left
    rw [g2]
    exact (GoMap.get?_set ..).trans (if_pos rfl)
  · rw [hproc3 e, List.drop_left] at g2
    right
    rw [g2, List.foldl_cons, List.foldl_nil, Node.receiveMsg, hpc, hstages, if_neg, if_pos hq]
    · exact if_pos rfl
    · have : m.op < (stageCount 1 : Int) := hop'
      simp [hop, this]

end Verif.Props.Program
