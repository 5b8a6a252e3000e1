import Verif.Props.ProgramExample
import Verif.Props.ProgramTime

/-!
Two processes with one request: member 0 deals at its start, at 100 ms, when the clock of member 1 shows 95 ms. They show that C78 and
C79 are not vacuous.
-/
namespace Verif.Props.Program
open Verif.Prot Verif.Dto Verif.Dss Verif.Dkg Verif.Point Verif.Tables Verif.Signode Verif.Program Verif.Props Verif.Spec.Prot Verif.Spec.Program

/-- The process of member 0, whose runs start at 100 ms. -/
def tmCfg1 : Cfg Unit := { pgCfg with allow := fun _ => runnerAllowance (exSigning [5, 7]) 100 }

/-- The process of member 1, which drops everything up to 90 ms. -/
def tmCfg2 : Cfg Unit := { tmCfg1 with guests := [1], secret := fun _ => 2, dropUntil := 90 }

/-- A request up to the state in which the firewall buffers; the guest is `g`. -/
def tmBegin (g : Int) : List Ev :=
  [.request pgJob1, .job 0 g, .job 0 g, .job 0 g, .runner 0, .task 0, .runner 0, .fwStep 0]

/-- Member 0 up to its deals, at 130 ms. -/
def tmHistory1 : List Ev :=
  tmBegin 0 ++ [.tick 95, .fwStep 0, .runner 0, .tick 100, .fwStep 0, .runner 0, .runner 0, .task 0, .thread 0, .thread 0, .tick 125, .thread 0,
    .tick 130, .thread 0]

/-- Member 1 up to 125 ms, when its firewall still buffers. -/
def tmHistory2 : List Ev := tmBegin 1 ++ [.tick 90, .latch, .tick 95, .fwStep 0, .tick 125]

/-- The messages sent by the runs. -/
def sentBy (s : Sys Unit) : List (Message Dto) :=
  s.runs.flatMap fun u => u.log.filterMap fun x => match x with | .sent m => some m | _ => none

/-- The deal of member 0 for member 1. -/
def tmMsg : Message Dto := ⟨0, 1, 1, jobId pgJob1, 1, dtoOf .deal dealToDto (exDeal 0)⟩

def tmCheck1 : Bool :=
  match run tmCfg1 (init tmCfg1) tmHistory1 with
  | .ok s => decide (tmMsg ∈ sentBy s) && decide (s.node.fw.now = 130)
  | _ => false

def tmCheck2 : Bool :=
  match run tmCfg2 (init tmCfg2) tmHistory2 with
  | .ok s => decide (s.node.runners = [⟨⟨1, 1, jobId pgJob1⟩, ⟨95, 100, 1750⟩, 2, 0, 0⟩]) && decide (s.node.fw.now = 125) &&
    decide (s.node.fw.dropAll = false) && decide (s.node.fw.calls.map Firewall.Call.sections = [2]) &&
    decide (s.node.fw.buffer = []) && decide (s.node.queues (1, 1) = [])
  | _ => false

theorem tmCheck_ok : tmCheck1 = true ∧ tmCheck2 = true := by decide +kernel

theorem tm_run1 : ∃ s, run tmCfg1 (init tmCfg1) tmHistory1 = .ok s ∧ s.node.fw.now = 130 ∧ ∃ u ∈ s.runs, .sent tmMsg ∈ u.log := by
  have h := tmCheck_ok.1
  rw [tmCheck1] at h
  cases hs : run tmCfg1 (init tmCfg1) tmHistory1 with
  | panic => rw [hs] at h; cases h
  | err => rw [hs] at h; cases h
  | ok s =>
    rw [hs] at h
    simp only [Bool.and_eq_true, decide_eq_true_eq] at h
    obtain ⟨h1, h2⟩ := h
    rw [sentBy, List.mem_flatMap] at h1
    obtain ⟨u, hu, h1⟩ := h1
    rw [List.mem_filterMap] at h1
    obtain ⟨x, hx, h1⟩ := h1
    refine ⟨s, rfl, h2, u, hu, ?_⟩
    cases x with
    | sent m => rw [← Option.some.inj h1]; exact hx
    | _ => cases h1

theorem tm_run2 : ∃ s, run tmCfg2 (init tmCfg2) tmHistory2 = .ok s ∧ s.node.fw.now = 125 ∧
    (∃ v ∈ s.node.runners, v.key = ⟨1, 1, jobId pgJob1⟩ ∧ 2 ≤ v.pos) ∧ Awake s.node.fw ∧ s.node.fw.buffer = [] ∧ s.node.queues (1, 1) = [] := by
  have h := tmCheck_ok.2
  rw [tmCheck2] at h
  cases hs : run tmCfg2 (init tmCfg2) tmHistory2 with
  | panic => rw [hs] at h; cases h
  | err => rw [hs] at h; cases h
  | ok s =>
    rw [hs] at h
    simp only [Bool.and_eq_true, decide_eq_true_eq] at h
    obtain ⟨⟨⟨⟨⟨h1, h2⟩, h3⟩, h4⟩, h5⟩, h6⟩ := h
    refine ⟨s, rfl, h2, ⟨_, by rw [h1]; exact List.mem_singleton.2 rfl, rfl, by decide⟩, ⟨?_, ?_⟩, h5, h6⟩
    · rw [Firewall.step, if_neg]; rw [h3]; simp
    · intro i c hc hlt
      have : c.sections ∈ s.node.fw.calls.map Firewall.Call.sections := List.mem_map_of_mem (List.mem_of_getElem? hc)
      rw [h4, List.mem_singleton] at this
      omega

/-- The hypotheses of C78 and C79 hold of these histories, and so member 1 takes the deal. -/
example : ∃ s2 s3, run tmCfg2 (init tmCfg2) tmHistory2 = .ok s2 ∧ step tmCfg2 s2 (.net tmMsg) = .ok s3 ∧
    (s3.node.fw.buffer.get? tmMsg.key = some [tmMsg] ∨ s3.node.queues (1, 1) = [tmMsg]) := by
  obtain ⟨s1, a1, a2, u, hu, hm⟩ := tm_run1
  obtain ⟨s2, b1, b2, ⟨v, hv, hk, hp⟩, b3, b4, b5⟩ := tm_run2
  have hr : requests tmHistory1 = [pgJob1] ∧ requests tmHistory2 = [pgJob1] := by decide +kernel
  obtain ⟨s3, c1, c2⟩ := C79_taken tmCfg1 tmCfg2 tmHistory1 tmHistory2 s1 s2 a1 b1 (by decide) (by decide) (by rw [hr.1]; simp)
    (by rw [hr.2]; simp) pgJob1 (by rw [hr.1]; simp) (by rw [hr.2]; simp) 100 (exSigning [5, 7]) (exSigning [5, 7]) rfl rfl (by decide)
    u hu tmMsg hm rfl (by rw [a2, b2]; decide) (by rw [b2]; decide +kernel) v hv hk hp b3 (by rw [b4]; decide) (by rw [show tmMsg.rcpt = 1 from rfl, b5]; decide)
  refine ⟨s2, s3, b1, c1, ?_⟩
  rw [b4, show tmMsg.rcpt = 1 from rfl, b5] at c2
  exact c2

end Verif.Props.Program
