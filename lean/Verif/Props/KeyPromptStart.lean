import Verif.Props.KeyPrompt
import Verif.Props.KeyStart

/-! C98: the attempts of a process that is started from its files are 1525 ms apart, and so do not overlap. -/
namespace Verif.Props.KeyStart
open Verif.Prot Verif.Layout Verif.Dto Verif.Dss Verif.Dkg Verif.Signode Verif.Tables Verif.Start Verif.Props Verif.Spec.Prot Verif.Spec.Signode
open Verif.Spec.KeyProgram
open Verif.Props.Start
open Verif.KeyProgram (Ev Sys)
variable {K : Type}

/-- C98 (times). The attempts of a started process begin 1525 ms apart, the first 55 ms after the time up to which messages are dropped, and
they do not overlap if the process is there in time for the first. -/
theorem C98_started (w : World K) (a : Cmd) (st : Started) (hst : start w a = .ok st) (r : Rest K)
    (hr : r.started ≤ st.dropUntil / 1000000 + 55) :
    Apart (keyCfg st r) ∧ ∀ i : Nat, (allowed (keyCfg st r) i).start = st.dropUntil / 1000000 + 55 + 1525 * i := by
  obtain ⟨_, _, _, _, _, _, _, _, hat, _⟩ := start_parts hst
  have key : ∀ i : Nat, (allowed (keyCfg st r) i) = ⟨st.dropUntil / 1000000 + 55 + 1525 * i - 5, st.dropUntil / 1000000 + 55 + 1525 * i,
      st.dropUntil / 1000000 + 55 + 1525 * i + 1525⟩ := by
    intro i
    have e : unixMilli ((keyCfg st r).start + i * (keyCfg st r).interval) = st.dropUntil / 1000000 + 55 + 1525 * i := by
      rw [interval_eq]
      show (st.startAt + (i : Int) * 1525000000) / 1000000 = _
      rw [hat, Verif.Start.startTime]
      omega
    show Prot.runnerAllowance _ (unixMilli _) = _
    rw [e]
    rfl
  refine ⟨⟨fun i => ?_, fun i => ?_, fun i => ?_, ?_, ?_⟩, fun i => by rw [key]⟩
  · rw [key]; dsimp only; omega
  · rw [key]; dsimp only; omega
  · rw [key, key]; dsimp only; push_cast; omega
  · rw [key]; show st.dropUntil / 1000000 ≤ _ ; dsimp only; omega
  · rw [key]; show r.started ≤ _; dsimp only; omega

/-- A process that is started to make long-term keys, in time for the first attempt, and in which nothing is late. -/
structure Punctual (w : World K) (a : Cmd) (entries : List Host) (st : Started) (r : Rest K) (h : List Ev) (s : Sys K) : Prop where
  sorts : SortContract w.srt
  compiled : Compiled a entries
  start : start w a = .ok st
  epoch : 0 ≤ st.startAt
  there : r.started ≤ st.dropUntil / 1000000 + 55
  run : Verif.KeyProgram.run (keyCfg st r) (Verif.KeyProgram.init (keyCfg st r)) h = .ok s
  prompt : Prompt (keyCfg st r) h

theorem Punctual.guests {w : World K} {a : Cmd} {entries : List Host} {st : Started} {r : Rest K} {h : List Ev} {s : Sys K}
    (hp : Punctual w a entries st r h s) : (keyCfg st r).base.guests.Nodup :=
  (guest_facts hp.sorts hp.compiled hp.start).1.map fun _ _ e => Int.ofNat.inj e

/-- C98 (started processes). In a process that is started from its files, in time, and in which nothing is late, attempt `i` is over 580 ms
and 1525 ms for each attempt before it after the time up to which messages are dropped. -/
theorem C98_over (w : World K) (a : Cmd) (entries : List Host) (st : Started) (r : Rest K) (h : List Ev) (s : Sys K)
    (hp : Punctual w a entries st r h s) (i : Nat) (ht : st.dropUntil / 1000000 + 580 + 1525 * i < s.prog.node.fw.now) :
    s.file.isSome = true ∨ i < s.main.i := by
  obtain ⟨h1, h2⟩ := C98_started w a st hp.start r hp.there
  refine KeyProgram.C98_ends _ h s hp.run hp.guests hp.epoch (by rw [interval_eq]; decide) h1 hp.prompt i ?_
  rw [h2]; omega

/-- C98 (started processes, messages). Two such processes, told the same time up to which to drop messages: whatever one sends for a guest of
the other in attempt `i`, the run of the guest is given in its stage or before, if it arrives less than 70 ms after it was sent, as far as
the clocks of the two processes tell, and is not thrown away for want of room. -/
theorem C98_together (w w' : World K) (a a' : Cmd) (entries entries' : List Host) (st st' : Started) (r r' : Rest K) (h h' : List Ev)
    (s s' : Sys K) (hp : Punctual w a entries st r h s) (hp' : Punctual w' a' entries' st' r' h' s') (hd : st.dropUntil = st'.dropUntil)
    (i : Nat) (x : Nat) (hx : x ∈ st.guests.keys) (m : Message Dto) (hk : m.key = ⟨0, x, attemptId st.startAt 1525000000 i⟩) (t t' : Int)
    (hm : Sends (keyCfg st' r') h' m t) (hm' : Arrives (keyCfg st r) h m t') (hlo : t - 30 < t') (hhi : t' < t + 70)
    (hend : t' < s.prog.node.fw.now) :
    ∃ (j : Nat) (o : Registry.Obj) (u : Prot.Run Dto Obj (Data K)), s.prog.node.reg.objs[j]? = some o ∧
      o.key = ⟨0, x, attemptId st.startAt 1525000000 i⟩ ∧ s.prog.runs[j]? = some u ∧ m ∈ early m.op u.log ++ inTime m.op u.log := by
  obtain ⟨h1, h2⟩ := C98_started w a st hp.start r hp.there
  obtain ⟨h1', h2'⟩ := C98_started w' a' st' hp'.start r' hp'.there
  obtain ⟨_, _, _, _, _, _, _, _, hat, _⟩ := start_parts hp.start
  obtain ⟨_, _, _, _, _, _, _, _, hat', _⟩ := start_parts hp'.start
  refine KeyProgram.C98_taken (keyCfg st r) (keyCfg st' r') h h' s s' hp.run hp'.run hp.guests hp'.guests hp.epoch hp'.epoch
    (by rw [interval_eq]; decide) (by rw [interval_eq]; decide) h1 h1' hp.prompt hp'.prompt i i ?_ (by rw [h2, h2', hd]) x
    (List.mem_map.2 ⟨x, hx, rfl⟩) m hk t t' hm hm' hlo hhi hend
  show attemptId st.startAt _ i = attemptId st'.startAt _ i
  rw [hat, hat', hd, interval_eq, interval_eq]

end Verif.Props.KeyStart
