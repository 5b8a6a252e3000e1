import Verif.Props.ProgramAgree
import Verif.Proofs.ProgramSent

/-!
C91: processes in which nothing is late. Every section runs within the millisecond in which it can; then a run keeps to the schedule of the
stages, is given in time what arrives in time, and the request ends.
-/
namespace Verif.Props.Program
open Verif.Prot Verif.Dto Verif.Dss Verif.Dkg Verif.Point Verif.Tables Verif.Signode Verif.Program Verif.Props Verif.Spec.Prot Verif.Spec.Program
variable {K : Type}

/-- C91 (end). Let nothing be late in a process, in which the requests have different run identifiers. A request that is read before its
start has ended, with a line for each guest, once the clock is past the end of the last stage, whatever arrives. -/
theorem C91_ends (c : Cfg K) (h : List Ev) (s : Sys K) (hr : run c (init c) h = .ok s) (hg : c.guests.Nodup)
    (hd : ((requests h).map jobId).Nodup) (hp : Prompt c h) (j : Job) (hj : Asked c h j) (ht : (c.allow j).start + 650 < s.node.fw.now) :
    ∃ b ∈ s.jobs, b.job = j ∧ b.pc = .ended ∧ (b.lines.map Prod.fst).Perm c.guests := by
  obtain ⟨h1, h2, s1, rfl, hr1, hin⟩ := hj.read
  obtain ⟨b, hb, e1, e2⟩ := ends_prompt hg hj.buf hj.drop hr1 hin hr hd hp ht
  obtain ⟨_, _, hP⟩ := inv_of (W := fun _ => True) hr hg hd (fun _ _ => trivial)
  exact ⟨b, hb, e1, e2, (hP.j.lines b hb).2.1 e2⟩

/-- C91 (messages). In such a process, let a message for the run of guest `x` arrive after the start and before the end of the stage it
belongs to. Then the run exists by the next millisecond and has been given the message, before its stage or in it. -/
theorem C91_given (c : Cfg K) (h : List Ev) (s : Sys K) (hr : run c (init c) h = .ok s) (hg : c.guests.Nodup)
    (hd : ((requests h).map jobId).Nodup) (hp : Prompt c h) (j : Job) (hj : Asked c h j) (x : Int) (hx : x ∈ c.guests)
    (m : Message Dto) (hk : m.key = ⟨1, x, jobId j⟩) (h0 : 0 ≤ m.op) (h12 : m.op < 12) (t : Int) (hm : Arrives c h m t)
    (hlo : (c.allow j).start < t) (hhi : t < (c.allow j).start + ends m.op) (hend : t < s.node.fw.now) :
    ∃ (r : Nat) (o : Registry.Obj) (u : Prot.Run Dto Obj (Data K)), s.node.reg.objs[r]? = some o ∧ o.key = ⟨1, x, jobId j⟩ ∧
      s.runs[r]? = some u ∧ m ∈ early m.op u.log ++ inTime m.op u.log := by
  obtain ⟨h1, h2, s1, rfl, hr1, hin⟩ := hj.read
  obtain ⟨g1, g2, s2, e, hr2, rfl, hroom⟩ := hm
  have hpc : m.pc = 1 := congrArg RunKey.pc hk
  have hrc : m.rcpt = x := congrArg RunKey.gidx hk
  rw [hpc, hrc] at hroom
  exact given_prompt hg hx hj.buf hj.drop hj.stop hr1 hin hr hd hp e hr2 hk h0 h12 hlo hhi hroom hend

/-- C91 (sending). In such a process each message for the request has the op code of a stage that exchanges messages. It is sent 5 ms after the
stage before it has ended, and at no other time. -/
theorem C91_sends (c : Cfg K) (h : List Ev) (s : Sys K) (hr : run c (init c) h = .ok s) (hg : c.guests.Nodup)
    (hd : ((requests h).map jobId).Nodup) (hp : Prompt c h) (j : Job) (hj : Asked c h j) (m : Message Dto) (hid : m.runId = jobId j)
    (t : Int) (hm : Sends c h m t) :
    m.op ∈ [1, 2, 3, 5, 6, 7, 10] ∧ t = (c.allow j).start + ends (m.op - 1) + 5 ∧ ∃ u ∈ s.runs, .sent m ∈ u.log := by
  obtain ⟨h1, h2, s1, rfl, hr1, hin⟩ := hj.read
  obtain ⟨g1, e, g2, s2, s3, he, hr2, hs, rfl, hold, hnew⟩ := hm
  exact sent_time hg hj.buf hj.drop hr1 hin hr hd hp he hr2 hs hid hold hnew

variable {H : List UInt8 → List UInt8} {SH : Share → List UInt8} {g : Group}

/-- C91 (signature). Processes in which nothing is late sign a document together, for the same start. Let the run of `p` for guest `x` not be
abandoned before the partial signatures are exchanged, and let at least `T - 1` other members, all in QUAL, be guests of such processes.
If the partial signature of each of them arrives less than 70 ms after it was sent, as far as the clocks of the two processes tell, and is
not thrown away for want of room, then after 650 ms `p` has printed a signature for `x` that verifies, whatever else has arrived. -/
theorem C91_prints (hH : ∀ b, (H b).length = 32) (hg : g.Sound) (p : Process K) (hp : p.Ready H SH g) (j : Job) (hj : p.Signs g j)
    (hpr : Prompt p.c p.h) (hja : Asked p.c p.h j) (ht : (p.c.allow j).start + 650 < p.s.node.fw.now) (x : Int) (hx : x ∈ p.c.guests)
    (hgo : ∀ (r : Nat) (o : Registry.Obj) (u : Prot.Run Dto Obj (Data K)), p.s.node.reg.objs[r]? = some o → o.key = ⟨1, x, g.id⟩ →
      p.s.runs[r]? = some u → ∀ l1 l2, u.log = l1 ++ .abandoned :: l2 → 9 < stageOf l1)
    (ys : List Int) (hnd : ys.Nodup) (hxy : x ∉ ys) (hT : g.T ≤ ys.length + 1)
    (hq : ∀ (r : Nat) (o : Registry.Obj) (u : Prot.Run Dto Obj (Data K)), p.s.node.reg.objs[r]? = some o → o.key = ⟨1, x, g.id⟩ →
      p.s.runs[r]? = some u → ∀ y ∈ ys, ∀ random, (p.c.y x r).distKeyShare u.user.kyb = .ok random → y ∈ (p.c.y x r).qual u.user.kyb)
    (hys : ∀ y ∈ ys, ∃ (q : Process K) (j' : Job) (m : Message Dto) (t t' : Int), q.Ready H SH g ∧ q.Signs g j' ∧
      Prompt q.c q.h ∧ Asked q.c q.h j' ∧ (q.c.allow j').start = (p.c.allow j).start ∧
      m.sender = y ∧ m.key = ⟨1, x, g.id⟩ ∧ m.op = 10 ∧ Sends q.c q.h m t ∧ Arrives p.c p.h m t' ∧ t - 555 < t' ∧ t' < t + 70) :
    ∃ b ∈ p.s.jobs, b.job = j ∧ b.pc = .ended ∧
      ∃ sig, (x, some sig) ∈ b.lines ∧ Schnorr.verify H (.pt (timesAdd base (g.ls.headD 0))) g.doc sig = .ok () := by
  obtain ⟨b, hb, hbj, hend, hperm⟩ := C91_ends p.c p.h p.s hp.run hp.guests hp.ids hpr j hja ht
  refine ⟨b, hb, hbj, hend, ?_⟩
  obtain ⟨_, _, hP⟩ := inv_of (W := fun _ => True) hp.run hp.guests hp.ids (fun _ _ => trivial)
  have key : ∀ y ∈ ys, ∃ (r : Nat) (o : Registry.Obj) (u : Prot.Run Dto Obj (Data K)), p.s.node.reg.objs[r]? = some o ∧ o.key = ⟨1, x, g.id⟩ ∧
      p.s.runs[r]? = some u ∧ ∃ (q : Process K) (j' : Job) (v : Prot.Run Dto Obj (Data K)) (m : Message Dto), q.Ready H SH g ∧ q.Signs g j' ∧
        v ∈ q.s.runs ∧ .sent m ∈ v.log ∧ m.sender = y ∧ m.op = 10 ∧ m.runId = g.id ∧ m ∈ early 10 u.log ++ inTime 10 u.log := by
    intro y hy
    obtain ⟨q, j', m, t, t', q1, q2, q3, q4, q5, q6, q7, q8, q9, q10, q11, q12⟩ := hys y hy
    have hid : m.runId = g.id := congrArg RunKey.runId q7
    obtain ⟨_, ht1, v, hv, hvm⟩ := C91_sends q.c q.h q.s q1.run q1.guests q1.ids q3 j' q4 m (hid.trans q2.id.symm) t q9
    have e9 : ends (m.op - 1) = 550 := by rw [q8]; rfl
    rw [e9] at ht1
    have e10 : ends 10 = 625 := rfl
    obtain ⟨r, o, u, f1, f2, f3, f4⟩ := C91_given p.c p.h p.s hp.run hp.guests hp.ids hpr j hja x hx m (by rw [q7, hj.id]) (by omega) (by omega) t' q10
      (by omega) (by rw [q8, e10]; omega) (by omega)
    rw [q8] at f4
    exact ⟨r, o, u, f1, by rw [f2, hj.id], f3, q, j', v, m, q1, q2, hv, hvm, q6, q8, hid, f4⟩
  obtain ⟨l, hl, hlx⟩ := List.mem_map.1 (hperm.mem_iff.2 hx)
  obtain ⟨r, o, u, f1, f2, f3, _⟩ := line_run hp hb hl
  rw [hlx, hbj, hj.id] at f2
  refine C81_prints hH hg p hp j hj b hb hbj hend x hx r o u f1 f2 f3 (hgo r o u f1 f2 f3) ys hnd hxy hT (hq r o u f1 f2 f3) fun y hy => ?_
  obtain ⟨r', o', u', f1', f2', f3', f4'⟩ := key y hy
  have hr : r' = r := hP.n.one f1' f1 (by rw [f2, f2'])
  subst hr
  have := Option.some.inj (f3.symm.trans f3')
  subst this
  exact f4'

end Verif.Props.Program
