import Verif.Props.Program
import Verif.Props.DkgExample

/-!
Concrete histories of the program: guest 0 of three members with threshold 2, two requests, and member 1 sends a partial signature for
each. They show that the theorems on the program are not vacuous, and where C75 and C77 fail.
-/
namespace Verif.Props.Program
open Verif.Prot Verif.Dto Verif.Dss Verif.Dkg Verif.Point Verif.Tables Verif.Signode Verif.Program Verif.Props Verif.Spec.Prot Verif.Spec.Program

/-- A hash that depends on the whole input: its last byte is the sum of the input. -/
def sumHash (b : List UInt8) : List UInt8 := List.replicate 31 0 ++ [b.foldl (· + ·) 1]

/-- The partial signature that member 1 makes for a document. -/
def pgPeer (doc : Int) : PartialSig :=
  match newDSS sumHash ⟨2, exPubs, ⟨⟨1, peval [5, 7] 2⟩, [5, 7].map (timesAdd base)⟩, ⟨⟨1, 11 + 13 * 2⟩, [11, 13].map (timesAdd base)⟩,
      [0, 1, 2], doc, 2⟩ with
  | .ok d => match (partialSig sumHash exSH 17 d).2 with
    | .ok ps => ps
    | _ => ⟨⟨0, 0⟩, [], none⟩
  | _ => ⟨⟨0, 0⟩, [], none⟩

/-- Its message for the run of a request. -/
def pgMsg (j : Job) : Message Dto := ⟨1, 1, 0, jobId j, 10, dtoOf .partsig partsigToDto (pgPeer j.doc)⟩

/-- The process of member 0. -/
def pgCfg : Cfg Unit :=
  { y := fun _ _ => exKyb, gen := fun _ _ => (), H := sumHash, SH := exSH, members := 3, guests := [0], secret := fun _ => 1,
    participants := exPubs, threshold := 2, longterms := [(0, ⟨⟨0, peval [5, 7] 1⟩, [5, 7].map (timesAdd base)⟩)], nonce := fun _ => 17,
    allow := fun _ => ⟨95, 100, 30000⟩, dropUntil := 0, started := 0 }

/-- The stepping threads of the runs, twelve stages of half a second. -/
def pgStages (rs : List Nat) : List Ev :=
  .tick 600 :: rs.map .thread ++ (List.range 11).flatMap fun n => .tick (1100 + 500 * n) :: rs.flatMap fun r => [.thread r, .thread r]

/-- The end of the run, the runner and the goroutine of the i-th request. -/
def pgEnd (i : Nat) : List Ev :=
  [.task 0, .task 0, .runner i, .job i 0, .job i 0, .job i 0, .job i 0, .job i 0, .runner i, .task 0, .task 0]

/-- The requests `0 _ 9` and `1 _ A`. -/
def pgJob1 : Job := ⟨"0", 1662004242000000000, 9⟩
def pgJob2 : Job := ⟨"1", 1662004242000000000, 10⟩

/-- Both requests up to the start of their runs, with the message for each. -/
def pgBegin : List Ev :=
  [.request pgJob1, .request pgJob2, .job 0 0, .job 1 0, .job 0 0, .job 1 0, .job 0 0, .job 1 0, .runner 0, .runner 1, .runner 0, .runner 1,
   .fwStep 0, .fwStep 1, .task 0, .task 0, .tick 95, .fwStep 0, .fwStep 1, .runner 0, .runner 1, .net (pgMsg pgJob1), .net (pgMsg pgJob2),
   .tick 100, .fwStep 0, .fwStep 1, .runner 0, .runner 0, .runner 1, .runner 1, .task 0, .task 0,
   .cons (1, 0), .cons (1, 0), .cons (1, 0), .cons (1, 0), .cons (1, 0), .cons (1, 0), .thread 0, .thread 0, .thread 1, .thread 1]

/-- The whole history, up to the deletion of the runs. -/
def pgHistory : List Ev :=
  pgBegin ++ pgStages [0, 1] ++ pgEnd 0 ++ pgEnd 1 ++
    [.tick 30000, .fwStep 0, .fwStep 1, .runner 0, .runner 0, .runner 1, .runner 1, .cons (1, 0), .cons (1, 0), .cons (1, 0), .cons (1, 0)]

/-- The signatures that the requests have printed, and whether they verify for 9 and for 10. -/
def pgLines (s : Sys Unit) : List (JobPc × List (Int × Option (Bool × Bool))) :=
  s.jobs.map fun b => (b.pc, b.lines.map fun p => (p.1, p.2.map fun sig =>
    (decide (Schnorr.verify sumHash (.pt (timesAdd base 5)) 9 sig = .ok ()), decide (Schnorr.verify sumHash (.pt (timesAdd base 5)) 10 sig = .ok ()))))

/-- Both requests end; each prints a signature that verifies for its document and not for the other one. In the end the registry,
the firewall, the queue and the table of documents are empty, but the table of outputs still has two key shares. -/
def pgCheck : Bool :=
  match run pgCfg (init pgCfg) pgHistory with
  | .ok s =>
    decide (pgLines s = [(.ended, [(0, some (true, false))]), (.ended, [(0, some (false, true))])]) &&
    s.node.reg.runs.isEmpty && s.node.fw.allowances.isEmpty && (s.node.queues (1, 0)).isEmpty && (s.node.reg.obs).isEmpty &&
    decide (s.docs = [(0, [])]) && (waiting s.outs 0 0 (jobId pgJob1)).isSome && (waiting s.outs 0 0 (jobId pgJob2)).isSome
  | _ => false

theorem pgCheck_ok : pgCheck = true := by decide +kernel

theorem pg_run : ∃ s, run pgCfg (init pgCfg) pgHistory = .ok s ∧
    pgLines s = [(.ended, [(0, some (true, false))]), (.ended, [(0, some (false, true))])] ∧
    waiting s.outs 0 0 (jobId pgJob1) ≠ none := by
  have h := pgCheck_ok
  rw [pgCheck] at h
  cases hs : run pgCfg (init pgCfg) pgHistory with
  | panic => rw [hs] at h; cases h
  | err => rw [hs] at h; cases h
  | ok s =>
    rw [hs] at h
    simp only [Bool.and_eq_true, decide_eq_true_eq] at h
    exact ⟨s, rfl, h.1.1.1.1.1.1.1, Option.isSome_iff_ne_none.1 h.1.2⟩

theorem pg_ids : pgCfg.guests.Nodup ∧ ((requests pgHistory).map jobId).Nodup := by decide +kernel

theorem pg_own {r : Nat} {g : Int} {d : Option Int} {i : Nat} (h : OwnIndex (env pgCfg r g d) i) : i = 0 := by
  obtain ⟨pub, h1, h2⟩ := h
  have h3 : mulBase 1 = .ok (timesAdd base 1) := by decide +kernel
  have e := Outcome.ok.inj (h1.symm.trans h3)
  subst e
  have h4 : (exPubs.findIdx? fun p => equal p (timesAdd base 1)) = some 0 := by decide +kernel
  exact Option.some.inj (h2.symm.trans h4)

theorem pg_consistent (s : Sys Unit) : Consistent pgCfg s [5, 7] := by
  refine ⟨by decide, by decide, by decide, ?_, ?_⟩
  · intro g hg
    rw [List.mem_singleton.1 hg]
    exact ⟨_, rfl, rfl, fun i r d hi => by rw [pg_own hi]; decide⟩
  · intro g _ r u _ random h
    rw [← Outcome.ok.inj h]
    exact ⟨[11, 13], by simp, rfl, by decide, fun i d hi => by rw [pg_own hi]; decide⟩

theorem pg_sane : Sane pgCfg := by
  refine ⟨fun _ _ _ => exKyb_calm, ?_⟩
  intro g hg r d
  rw [List.mem_singleton.1 hg]
  refine ⟨⟨_, rfl, ⟨by simp, isElt_commits _⟩, by decide +kernel⟩, by simp [env], ?_, by show exPubs.length ≤ 2 ^ 63; decide⟩
  intro k random h
  rw [← Outcome.ok.inj h]
  exact ⟨by simp, isElt_commits _⟩

theorem pg_complete : ∀ m, .net m ∈ pgHistory → Complete m.dto := by
  have h : (pgHistory.all fun e => match e with | .net m => completeB m.dto | _ => true) = true := by decide +kernel
  rw [List.all_eq_true] at h
  exact fun m hm => completeB_sound (h _ hm)

/-- The hypotheses of C75, C76 and C77 hold of this history, and the signatures are there. -/
example : (∃ s, run pgCfg (init pgCfg) pgHistory = .ok s ∧
      pgLines s = [(.ended, [(0, some (true, false))]), (.ended, [(0, some (false, true))])]) ∧
    pgCfg.guests.Nodup ∧ ((requests pgHistory).map jobId).Nodup ∧ (∀ b, (pgCfg.H b).length = 32) ∧ (∀ s, Consistent pgCfg s [5, 7]) ∧
    Sane pgCfg ∧ ∀ m, .net m ∈ pgHistory → Complete m.dto := by
  obtain ⟨s, h1, h2, _⟩ := pg_run
  exact ⟨⟨s, h1, h2⟩, pg_ids.1, pg_ids.2, fun b => by simp [pgCfg, sumHash], pg_consistent, pg_sane, pg_complete⟩

/-- C77 is false of the code for the outputs of the key generation inside a signing run: `step_final` leaves the share of the nonce in the
table, where nothing ever takes it out, even when the request has ended and everything else about the run is gone. -/
theorem C77_counterexample : ∃ (c : Cfg Unit) (h : List Ev) (s : Sys Unit) (b : JobSt), run c (init c) h = .ok s ∧
    c.guests.Nodup ∧ ((requests h).map jobId).Nodup ∧ b ∈ s.jobs ∧ b.pc = .ended ∧ waiting s.outs 0 0 (jobId b.job) ≠ none := by
  obtain ⟨s, h1, h2, h3⟩ := pg_run
  obtain ⟨h4, _⟩ := C75_origin pgCfg pgHistory s h1 pg_ids.1 pg_ids.2
  have h5 : requests pgHistory = [pgJob1, pgJob2] := by decide +kernel
  rw [h5] at h4
  cases hj : s.jobs with
  | nil => rw [hj] at h4; cases h4
  | cons b l =>
    rw [hj] at h4
    have hb : b.job = pgJob1 := (List.cons.inj h4).1
    rw [pgLines, hj] at h2
    have hp : b.pc = .ended := congrArg Prod.fst (List.cons.inj h2).1
    exact ⟨pgCfg, pgHistory, s, b, h1, pg_ids.1, pg_ids.2, by rw [hj]; exact List.mem_cons_self .., hp, by rw [hb]; exact h3⟩

/-- The request `0 _ A`, which has the run identifier of `0 _ 9`. -/
def pgJob3 : Job := ⟨"0", 1662004242000000000, 10⟩

/-- Both requests are read and registered; the other members sign document 10. -/
def pgClash : List Ev :=
  [.request pgJob1, .request pgJob3, .job 0 0, .job 1 0, .job 0 0, .job 1 0, .job 0 0, .job 1 0, .runner 0, .runner 1, .runner 0, .runner 1,
   .fwStep 0, .task 0, .task 0, .tick 95, .fwStep 0, .runner 0, .net (pgMsg pgJob3), .tick 100, .fwStep 0, .runner 0, .runner 0, .task 0,
   .cons (1, 0), .cons (1, 0), .cons (1, 0), .thread 0, .thread 0] ++ pgStages [0] ++ pgEnd 0

theorem pgClash_ok : (match run pgCfg (init pgCfg) pgClash with
    | .ok s => decide (pgLines s = [(.ended, [(0, some (false, true))]), (.waiting, [])])
    | _ => false) = true := by decide +kernel

/-- C75 is false of the code if two requests have one run identifier: after `0 _ 9` and `0 _ A`, the first of them prints a signature
that verifies for document 10 and not for its own document 9. -/
theorem C75_counterexample : ∃ (s : Sys Unit) (b : JobSt) (sig : Schnorr.Sig), run pgCfg (init pgCfg) pgClash = .ok s ∧
    Consistent pgCfg s [5, 7] ∧ s.jobs.head? = some b ∧ b.pc = .ended ∧ (0, some sig) ∈ b.lines ∧
    Schnorr.verify sumHash (.pt (timesAdd base 5)) 10 sig = .ok () ∧ requests pgClash = [pgJob1, pgJob3] ∧ b.job.doc ≠ 10 ∧
    Schnorr.verify sumHash (.pt (timesAdd base 5)) b.job.doc sig ≠ .ok () := by
  have h := pgClash_ok
  cases hs : run pgCfg (init pgCfg) pgClash with
  | panic => rw [hs] at h; cases h
  | err => rw [hs] at h; cases h
  | ok s =>
    rw [hs] at h
    replace h := of_decide_eq_true h
    have h5 : requests pgClash = [pgJob1, pgJob3] := by decide +kernel
    have h4 : reqs s = requests pgClash := by rw [reqs_run hs]; rfl
    rw [h5, reqs] at h4
    cases hj : s.jobs with
    | nil => rw [hj] at h4; cases h4
    | cons b l =>
      rw [hj] at h4
      have hb : b.job = pgJob1 := (List.cons.inj h4).1
      rw [pgLines, hj] at h
      obtain ⟨hp, hl⟩ := Prod.mk.inj (List.cons.inj h).1
      cases hlines : b.lines with
      | nil => rw [hlines] at hl; cases hl
      | cons p t =>
        obtain ⟨g, o⟩ := p
        rw [hlines] at hl
        obtain ⟨e1, e2⟩ := Prod.mk.inj (List.cons.inj hl).1
        cases o with
        | none => cases e2
        | some sig =>
          obtain ⟨e3, e4⟩ := Prod.mk.inj (Option.some.inj e2)
          have e1 : g = 0 := e1
          subst e1
          refine ⟨s, b, sig, rfl, pg_consistent _, by rw [hj]; rfl, hp, by rw [hlines]; exact List.mem_cons_self .., of_decide_eq_true e4, h5, ?_, ?_⟩
          · rw [hb]; decide
          · rw [hb]; exact of_decide_eq_false e3

/-- A partial signature without inner signature, from another member. -/
def pgNil : Message Dto := ⟨1, 1, 0, jobId pgJob1, 10, dtoOf .partsig partsigToDto { pgPeer 9 with signature := none }⟩

/-- One request; the message arrives while the run is in the stage of partial signatures. -/
def pgCrash : List Ev :=
  [.request pgJob1, .job 0 0, .job 0 0, .job 0 0, .runner 0, .runner 0, .fwStep 0, .task 0, .tick 95, .fwStep 0, .runner 0, .net pgNil, .tick 100,
   .fwStep 0, .runner 0, .runner 0, .task 0, .cons (1, 0), .cons (1, 0), .cons (1, 0), .thread 0, .thread 0] ++ (pgStages [0]).take 31

/-- A history in which the second request registers its document before the first one, with the same run identifier, deregisters, and
starts its run after that of the first one is gone. -/
def pgAgain : List Ev :=
  [.request pgJob1, .job 0 0, .job 0 0, .job 0 0, .runner 0, .runner 0, .fwStep 0, .task 0, .tick 95, .fwStep 0, .runner 0, .tick 100,
   .fwStep 0, .runner 0, .runner 0, .task 0, .thread 0, .thread 0] ++ pgStages [0] ++
  [.request pgJob3, .job 1 0, .task 0, .task 0, .runner 0, .job 0 0, .job 0 0, .job 0 0, .job 0 0, .job 0 0, .runner 0, .task 0, .task 0,
   .tick 30000, .fwStep 0, .runner 0, .runner 0, .cons (1, 0), .cons (1, 0), .job 1 0, .job 1 0, .runner 1, .runner 1, .fwStep 1, .fwStep 1, .fwStep 1,
   .runner 1, .runner 1, .runner 1, .task 0, .task 0, .task 0, .thread 1, .thread 1] ++
   (List.range 9).flatMap fun n => [.tick (40000 + 500 * n), .thread 1, .tick (40100 + 500 * n), .thread 1]

theorem pgCrash_panics : run pgCfg (init pgCfg) pgCrash = .panic := by
  have h : (match run pgCfg (init pgCfg) pgCrash with | .panic => true | _ => false) = true := by decide +kernel
  cases hs : run pgCfg (init pgCfg) pgCrash with
  | panic => rfl
  | _ => rw [hs] at h; cases h

/-- C76 is false of the code: a member that sends a partial signature without the signature on it makes the program panic. -/
theorem C76_counterexample : ∃ (c : Cfg Unit) (h : List Ev), Sane c ∧ c.guests.Nodup ∧ ((requests h).map jobId).Nodup ∧
    run c (init c) h = .panic := ⟨pgCfg, pgCrash, pg_sane, pg_ids.1, by decide +kernel, pgCrash_panics⟩

theorem pgAgain_panics : run pgCfg (init pgCfg) pgAgain = .panic := by
  have h : (match run pgCfg (init pgCfg) pgAgain with | .panic => true | _ => false) = true := by decide +kernel
  cases hs : run pgCfg (init pgCfg) pgAgain with
  | panic => rfl
  | _ => rw [hs] at h; cases h

/-- C76 is false of the code if two requests have one run identifier, even without any message: the first one deregisters the document
of the second one, whose run then has none. -/
theorem C76_counterexample_ids : ∃ (c : Cfg Unit) (h : List Ev), Sane c ∧ c.guests.Nodup ∧ (∀ m, .net m ∉ h) ∧
    run c (init c) h = .panic := by
  refine ⟨pgCfg, pgAgain, pg_sane, pg_ids.1, fun m hm => ?_, pgAgain_panics⟩
  have h : (pgAgain.all fun e => match e with | .net _ => false | _ => true) = true := by decide +kernel
  have := List.all_eq_true.1 h _ hm
  cases this

end Verif.Props.Program
