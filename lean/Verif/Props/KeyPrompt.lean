import Verif.Props.KeyProgram
import Verif.Proofs.KeyGiven

/-!
C98: tools making long-term keys in which nothing is late. Every section runs within the millisecond in which it can; then the attempts end
on time, whatever arrives, and what one process sends for an attempt the run of another is given in time.
-/
namespace Verif.Props.KeyProgram
open Verif.Prot Verif.Dto Verif.Dss Verif.Dkg Verif.Tables Verif.Signode Verif.Props Verif.Spec.Prot Verif.Spec.Signode
open Verif.Spec.KeyProgram Verif.KeyProgram
open Verif.Spec.Program (ends)
variable {K : Type}

/-- C98 (end). Let nothing be late in a process, whose attempts do not overlap. Once the clock is past the end of the last stage of an
attempt, the attempt is over, whatever has arrived: the file is written, or the next attempt has begun. -/
theorem C98_ends (c : Cfg K) (h : List Ev) (s : Sys K) (hrun : Verif.KeyProgram.run c (init c) h = .ok s) (hgn : c.base.guests.Nodup)
    (hs : 0 ≤ c.start) (hi : 0 ≤ c.interval) (ha : Apart c) (hp : Prompt c h) (i : Nat)
    (ht : (allowed c i).start + 525 < s.prog.node.fw.now) : s.file.isSome = true ∨ i < s.main.i :=
  (sched ⟨inj hs hi, hgn⟩ ha hrun hp).over i ht

/-- C98 (messages). In such a process, let a message for the run of guest `x` in attempt `i` arrive after the start of the attempt and before
the end of the stage it belongs to. Then the run exists by the next millisecond and has been given the message, before its stage or in it. -/
theorem C98_given (c : Cfg K) (h : List Ev) (s : Sys K) (hrun : Verif.KeyProgram.run c (init c) h = .ok s) (hgn : c.base.guests.Nodup)
    (hs : 0 ≤ c.start) (hi : 0 ≤ c.interval) (ha : Apart c) (hp : Prompt c h) (i : Nat) (x : Int) (hx : x ∈ c.base.guests)
    (m : Message Dto) (hk : m.key = ⟨0, x, attemptId c.start c.interval i⟩) (h0 : 0 ≤ m.op) (h9 : m.op < 9) (t : Int) (hm : Arrives c h m t)
    (hlo : (allowed c i).start < t) (hhi : t < (allowed c i).start + ends m.op) (hend : t < s.prog.node.fw.now) :
    ∃ (r : Nat) (o : Registry.Obj) (u : Prot.Run Dto Obj (Data K)), s.prog.node.reg.objs[r]? = some o ∧
      o.key = ⟨0, x, attemptId c.start c.interval i⟩ ∧ s.prog.runs[r]? = some u ∧ m ∈ early m.op u.log ++ inTime m.op u.log := by
  obtain ⟨g1, g2, s2, rfl, hr2, rfl, hroom⟩ := hm
  have hpc : m.pc = 0 := congrArg RunKey.pc hk
  have hrc : m.rcpt = x := congrArg RunKey.gidx hk
  rw [hpc, hrc] at hroom
  exact given_prompt ⟨inj hs hi, hgn⟩ ha hx hrun hp hr2 hk h0 h9 hlo hhi hroom hend

/-- C98 (sending). In such a process a message of attempt `i` is sent 5 ms after the end of the stage before its own, and at no other time. -/
theorem C98_sends (c : Cfg K) (h : List Ev) (s : Sys K) (hrun : Verif.KeyProgram.run c (init c) h = .ok s) (hgn : c.base.guests.Nodup)
    (hs : 0 ≤ c.start) (hi : 0 ≤ c.interval) (ha : Apart c) (hp : Prompt c h) (i : Nat) (m : Message Dto)
    (hid : m.runId = attemptId c.start c.interval i) (t : Int) (hm : Sends c h m t) :
    m.op ∈ [1, 2, 3, 5, 6, 7] ∧ t = (allowed c i).start + ends (m.op - 1) + 5 ∧ ∃ u ∈ s.prog.runs, .sent m ∈ u.log := by
  obtain ⟨g1, e, g2, s2, s3, rfl, hr2, hs', rfl, hold, hnew⟩ := hm
  exact sent_time ⟨inj hs hi, hgn⟩ ha hrun hp hr2 hs' hid hold hnew

/-- C98 (between processes). Let nothing be late in two processes, whose attempts `i` have the same identifier and the same start. Whatever the
second one sends in it for guest `x` of the first, the run of the first is given in its stage or before, if it arrives less than 70 ms after
it was sent, as far as the clocks of the two processes tell, and is not thrown away for want of room. -/
theorem C98_taken (c c' : Cfg K) (h h' : List Ev) (s s' : Sys K) (hrun : Verif.KeyProgram.run c (init c) h = .ok s)
    (hrun' : Verif.KeyProgram.run c' (init c') h' = .ok s') (hgn : c.base.guests.Nodup) (hgn' : c'.base.guests.Nodup)
    (hs : 0 ≤ c.start) (hs' : 0 ≤ c'.start) (hi : 0 ≤ c.interval) (hi' : 0 ≤ c'.interval) (ha : Apart c) (ha' : Apart c')
    (hp : Prompt c h) (hp' : Prompt c' h') (i i' : Nat) (hid : attemptId c.start c.interval i = attemptId c'.start c'.interval i')
    (hst : (allowed c i).start = (allowed c' i').start) (x : Int) (hx : x ∈ c.base.guests) (m : Message Dto)
    (hk : m.key = ⟨0, x, attemptId c.start c.interval i⟩) (t t' : Int) (hm : Sends c' h' m t) (hm' : Arrives c h m t') (hlo : t - 30 < t')
    (hhi : t' < t + 70) (hend : t' < s.prog.node.fw.now) :
    ∃ (r : Nat) (o : Registry.Obj) (u : Prot.Run Dto Obj (Data K)), s.prog.node.reg.objs[r]? = some o ∧
      o.key = ⟨0, x, attemptId c.start c.interval i⟩ ∧ s.prog.runs[r]? = some u ∧ m ∈ early m.op u.log ++ inTime m.op u.log := by
  obtain ⟨hop, ht, _⟩ := C98_sends c' h' s' hrun' hgn' hs' hi' ha' hp' i' m ((congrArg RunKey.runId hk).trans hid) t hm
  have key : 0 ≤ m.op ∧ m.op < 9 ∧ 25 ≤ ends (m.op - 1) ∧ ends (m.op - 1) + 75 = ends m.op := by
    simp only [List.mem_cons, List.not_mem_nil, or_false] at hop
    rcases hop with e | e | e | e | e | e <;> rw [e] <;> decide
  exact C98_given c h s hrun hgn hs hi ha hp i x hx m hk key.1 key.2.1 t' hm' (by omega) (by omega) hend

end Verif.Props.KeyProgram
