import Verif.Props.SignTogetherStart
import Verif.Props.ProgramPromptExample
import Verif.Props.KeyTogetherExample

/-!
C101 and C102 are not vacuous: the two processes of `Verif.Props.KeyTogetherExample` are started again with the files they have written, and sign
document 9; and the first of them is started again alone, with two of the three members, and signs it too. Every message comes in when the clocks still show the time at which it was sent.
-/
namespace Verif.Props.Program
open Verif.Prot Verif.Dto Verif.Dss Verif.Dkg Verif.Point Verif.Tables Verif.Signode Verif.Program Verif.Layout Verif.Props Verif.Spec.Prot
open Verif.Spec.Program Verif.Spec.Generation
open Verif.Start (World Cmd Started Rest programCfg)
open Verif.Props.Generation (Toy toyNet toyKyb toy0 others otherResps toy_generates toy_proper)
open Verif.Props.KeyStart (ktWorld ktCmd ktStarted ktFile ktShares signCmd)

/-- The guests. -/
def stGuests : Bool → List Nat
  | false => [2, 0]
  | true => [1]

/-- Two seconds later, when the processes are started again. -/
def stWorld : World Toy := { ktWorld with parse := fun s => if s = "u" then some 5045000000 else none, now := 2045000000 }

/-- What they are started with. -/
def stStarted (p : Bool) : Started :=
  { ktStarted p with
    longterms := (stGuests p).reverse.map fun (x : Nat) => ((x : Int), (toyNet [0, 1, 2] [5, 7]).key x), dropUntil := 5045000000, startAt := 5100000000 }

/-- The members in `P` take part. -/
def stRest (P : List Nat) : Rest Toy := ⟨fun g _ => toyKyb P [11, 13] 3 g.toNat, fun _ _ => toy0, sumHash, exSH, fun _ => 17, 2045⟩

/-- The processes. -/
def stCfg (P : List Nat) (p : Bool) : Cfg Toy := programCfg (stStarted p) (stRest P)

/-- The request `0 _ 9`. -/
def stJob : Job := ⟨"0", 5100000000, 9⟩

/-- What is said to member `x`. The first message is from outside. -/
def stSaid (P : List Nat) (x : Nat) : List (Message Dto) :=
  ⟨7, 1, x, jobId stJob, 1, .other⟩ ::
  ((others P x).map fun (a : Nat) => (⟨a, 1, x, jobId stJob, 1, dtoOf .deal dealToDto ((toyNet P [11, 13]).deal a x)⟩ : Message Dto)) ++
  ((otherResps P x).map fun p => ⟨p.2, 1, x, jobId stJob, 2, .response ((toyNet P [11, 13]).resp p.1 p.2)⟩) ++
  ((others P x).map fun (a : Nat) => ⟨a, 1, x, jobId stJob, 5, dtoOf .commits commitsToDto ((toyNet P [11, 13]).commits a)⟩) ++
  ((others P x).map fun (a : Nat) => { agMsg a x with runId := jobId stJob })

/-- The same for each run. -/
def stEach (p : Bool) (f : Nat → List Ev) : List Ev := (List.range (stGuests p).length).flatMap f

/-- A stage begins. -/
def stStage (p : Bool) (n : Int) : List Ev :=
  .tick (5100 + ends n) :: stEach p (fun k => [.thread k]) ++ .tick (5105 + ends n) :: stEach p (fun k => [.thread k])

/-- The messages of a stage come in, and go to the runs. -/
def stTake (P : List Nat) (p : Bool) (op : Int) : List Ev :=
  (stGuests p).flatMap fun x =>
    ((stSaid P x).filter (·.op = op)).map .net ++ ((stSaid P x).filter (·.op = op)).flatMap fun _ => List.replicate 3 (.cons (1, x))

/-- A step of the request for each guest. -/
def stGo (p : Bool) : List Ev := (stGuests p).map fun x => .job 0 x

/-- What happens in the process. -/
def stHistory (P : List Nat) (p : Bool) : List Ev :=
  .request stJob :: stGo p ++ [.job 0 0, .job 0 0] ++ stEach p (fun k => [.runner k, .runner k, .fwStep k, .task 0]) ++ [.tick 5045, .latch, .tick 5095] ++
  stEach p (fun k => [.fwStep k, .runner k]) ++ [.tick 5100] ++ stEach p (fun k => [.fwStep k, .runner k, .runner k, .task 0]) ++
  stEach p (fun k => [.thread k, .thread k]) ++
  stStage p 0 ++ stTake P p 1 ++ stStage p 1 ++ stTake P p 2 ++ stStage p 2 ++ stStage p 3 ++ stStage p 4 ++ stTake P p 5 ++ stStage p 5 ++ stStage p 6 ++
  stStage p 7 ++ stStage p 8 ++ stStage p 9 ++ stTake P p 10 ++ stStage p 10 ++ [.tick 5750] ++
  stEach p (fun k => [.thread k, .task 0, .task 0, .runner k, .runner k, .task 0, .task 0]) ++
  [.job 0 0] ++ stGo p ++ [.job 0 0] ++ stGo p ++ [.job 0 0, .tick 5751]

def stRun (P : List Nat) (p : Bool) : Outcome (Sys Toy) := Verif.Program.run (stCfg P p) (init (stCfg P p)) (stHistory P p)

/-- Where it has got to. -/
def stSys (P : List Nat) (p : Bool) : Sys Toy :=
  match stRun P p with
  | .ok s => s
  | _ => init (stCfg P p)

/-- The messages that the runs have sent. -/
def stSent (s : Sys Toy) : List (Message Dto) :=
  s.runs.flatMap fun u => u.log.filterMap fun e => match e with | .sent m => some m | _ => none

/-- The messages that come in when there is room for them, and when. -/
def stArrivals (c : Cfg Toy) (s : Sys Toy) : List Ev → List (Message Dto × Int)
  | [] => []
  | e :: h =>
    (match e with
     | .net m => if (s.node.queues (m.pc, m.rcpt)).length < Node.rcvBufMax then [(m, s.node.fw.now)] else []
     | _ => []) ++
    match step c s e with
    | .ok s' => stArrivals c s' h
    | _ => []

/-- How many messages each run is to send: deals to all others, responses to all others, and commitments and a partial signature to the
others that qualify. -/
def stCount (P : List Nat) : Nat := 2 + 2 * (P.length - 1) + (P.length - 1) + (P.length - 1)

def stCheck1 (P : List Nat) (p : Bool) : Bool :=
  decide (requests (stHistory P p) = [stJob]) && promptFrom (stCfg P p) (init (stCfg P p)) (stHistory P p) &&
  match stRun P p with
  | .ok s => decide (s.node.fw.now = 5751) && decide ((stSent s).length = stCount P * (stGuests p).length)
  | _ => false

/-- What comes in was sent, and what was sent comes in, among the processes `ps`. -/
def stCheck2 (P : List Nat) (ps : List Bool) : Bool :=
  let sent := ps.flatMap fun q => stSent (stSys P q)
  ps.all fun p =>
    (stHistory P p).all (fun e => match e with
      | .net m => decide (m ∈ sent) || decide (m.dto = .other)
      | _ => true) &&
    let arr := stArrivals (stCfg P p) (init (stCfg P p)) (stHistory P p)
    sent.all fun m => !((stGuests p).map Int.ofNat).contains m.rcpt ||
      arr.any fun a => decide (a.1 = m) && decide (5100 + ends (m.op - 1) + 5 ≤ a.2) && decide (a.2 < 5100 + ends (m.op - 1) + 5 + 70)

/-- The processes `ps` with the guests `P`. -/
def stChecks (P : List Nat) (ps : List Bool) : Bool := ps.all (stCheck1 P) && stCheck2 P ps

theorem stChecks_ok : (stChecks [0, 1, 2] [false, true] && stChecks [2, 0] [false]) = true := by decide +kernel

theorem stRun_eq (P : List Nat) (p : Bool) : stRun P p = Verif.Program.run (stCfg P p) (init (stCfg P p)) (stHistory P p) := rfl

theorem st_guests (P : List Nat) (p : Bool) : (stCfg P p).guests = (stGuests p).map Int.ofNat := by cases p <;> rfl

theorem st_nodup (P : List Nat) (p : Bool) : (stCfg P p).guests.Nodup := by rw [st_guests]; cases p <;> decide

theorem st_read (P : List Nat) (p : Bool) : ∃ h, stHistory P p = .request stJob :: h := by
  unfold stHistory
  simp only [List.cons_append]
  exact ⟨_, rfl⟩

theorem st_requests {P : List Nat} {p : Bool} (h : stCheck1 P p = true) : requests (stHistory P p) = [stJob] := by
  rw [stCheck1, Bool.and_eq_true, Bool.and_eq_true] at h
  exact of_decide_eq_true h.1.1

theorem st_facts {P : List Nat} {p : Bool} (h : stCheck1 P p = true) : Verif.Program.run (stCfg P p) (init (stCfg P p)) (stHistory P p) = .ok (stSys P p) ∧ Prompt (stCfg P p) (stHistory P p) ∧
    (stSys P p).node.fw.now = 5751 ∧ (stSent (stSys P p)).length = stCount P * (stGuests p).length := by
  have hq := st_requests h
  rw [stCheck1, Bool.and_eq_true, Bool.and_eq_true] at h
  obtain ⟨⟨_, h1⟩, h2⟩ := h
  rw [stSys]
  cases hr : stRun P p with
  | panic => rw [hr] at h2; cases h2
  | err => rw [hr] at h2; cases h2
  | ok s =>
    rw [hr] at h2
    dsimp only at h2 ⊢
    rw [Bool.and_eq_true] at h2
    exact ⟨(stRun_eq P p).symm.trans hr, prompt_from (st_nodup P p) (by rw [hq]; exact List.nodup_singleton _) h1, of_decide_eq_true h2.1,
      of_decide_eq_true h2.2⟩

theorem mem_stSent {s : Sys Toy} {m : Message Dto} : m ∈ stSent s ↔ ∃ u ∈ s.runs, .sent m ∈ u.log := by
  rw [stSent, List.mem_flatMap]
  refine exists_congr fun u => and_congr_right fun _ => ?_
  rw [List.mem_filterMap]
  constructor
  · rintro ⟨e, he, h⟩
    cases e <;> cases h
    exact he
  · intro h; exact ⟨_, h, rfl⟩

attribute [local irreducible] stSys stRun stHistory stSent

theorem st_arrives {c : Cfg Toy} {m : Message Dto} {t : Int} : ∀ (h h0 : List Ev) (s : Sys Toy),
    Verif.Program.run c (init c) h0 = .ok s → (m, t) ∈ stArrivals c s h → Arrives c (h0 ++ h) m t := by
  intro h
  induction h with
  | nil => intro h0 s _ hm; exact absurd hm List.not_mem_nil
  | cons e h ih =>
    intro h0 s hr hm
    rw [stArrivals.eq_def] at hm
    dsimp only at hm
    rw [List.mem_append] at hm
    rcases hm with hm | hm
    · cases e with
      | net m' =>
        dsimp only at hm
        by_cases hl : (s.node.queues (m'.pc, m'.rcpt)).length < Node.rcvBufMax
        · rw [if_pos hl] at hm
          have e := List.mem_singleton.1 hm
          injection e with e1 e2
          subst e1
          exact ⟨h0, h, s, rfl, hr, e2.symm, hl⟩
        · rw [if_neg hl] at hm; exact absurd hm List.not_mem_nil
      | _ => exact absurd hm List.not_mem_nil
    · cases hs : step c s e with
      | panic => rw [hs] at hm; exact absurd hm List.not_mem_nil
      | err => rw [hs] at hm; exact absurd hm List.not_mem_nil
      | ok s' =>
        rw [hs] at hm
        have := ih (h0 ++ [e]) s' (run_snoc hr hs) hm
        rwa [List.append_assoc, List.singleton_append] at this

theorem st_check2 {P : List Nat} {ps : List Bool} (h : stCheck2 P ps = true) {p : Bool} (hp : p ∈ ps) :
    (∀ m, .net m ∈ stHistory P p → (∃ q ∈ ps, m ∈ stSent (stSys P q)) ∨ m.dto = .other) ∧
    ∀ q ∈ ps, ∀ m ∈ stSent (stSys P q), m.rcpt ∈ (stCfg P p).guests →
      ∃ t, Arrives (stCfg P p) (stHistory P p) m t ∧ 5100 + ends (m.op - 1) + 5 ≤ t ∧ t < 5100 + ends (m.op - 1) + 5 + 70 := by
  unfold stCheck2 at h
  have h := List.all_eq_true.1 h p hp
  rw [Bool.and_eq_true, List.all_eq_true, List.all_eq_true] at h
  obtain ⟨h1, h2⟩ := h
  constructor
  · intro m hm
    have h3 := h1 _ hm
    dsimp only at h3
    rw [Bool.or_eq_true, decide_eq_true_eq, List.mem_flatMap, decide_eq_true_eq] at h3
    exact h3
  · intro q hq m hm hg
    have h3 := h2 m (List.mem_flatMap.2 ⟨q, hq, hm⟩)
    rw [Bool.or_eq_true, Bool.not_eq_true', List.any_eq_true] at h3
    rcases h3 with h3 | ⟨⟨m', t⟩, h3, h4⟩
    · rw [st_guests, ← List.contains_iff_mem, h3] at hg; cases hg
    · rw [Bool.and_eq_true, Bool.and_eq_true, decide_eq_true_eq, decide_eq_true_eq, decide_eq_true_eq] at h4
      obtain ⟨⟨rfl, h5⟩, h6⟩ := h4
      have h7 := st_arrives (c := stCfg P p) (stHistory P p) [] (init (stCfg P p)) (by rw [Verif.Program.run]) h3
      rw [List.nil_append] at h7
      exact ⟨t, h7, h5, h6⟩

end Verif.Props.Program

namespace Verif.Props.KeyStart
open Verif.Prot Verif.Layout Verif.Dto Verif.Dss Verif.Dkg Verif.Signode Verif.Tables Verif.Start Verif.Props Verif.Spec.Prot Verif.Spec.Signode
open Verif.Spec.Generation Verif.Props.Start Verif.Point
open Verif.Props.Program (stGuests stWorld stStarted stRest stCfg stJob stHistory stSys stSent st_facts st_requests st_read st_guests mem_stSent
  stChecks stChecks_ok)
open Verif.Props.Generation (Toy toyNet toyKyb toy0 toy_generates toy_proper)
open Verif.Spec.Program (requests ends)

theorem st_start (p : Bool) : start stWorld (signCmd (ktCmd p) (ktFile p) "u") = .ok (stStarted p) := by
  cases p
  · simp only [start, signCmd, kt_secrets]; decide +kernel
  · have : loadSecrets (ktCmd true).secdir (ktCmd true).secnames = .ok [2] := sx_secrets1
    simp only [start, signCmd, this]; decide +kernel

attribute [local irreducible] stSys stHistory stSent ktSys ktHistory

theorem kt_keys (p : Bool) : HoldKeys (ktCmd p) exHosts [timesAdd base 3, timesAdd base 1, timesAdd base 2] := by
  cases p
  exacts [sx_keys 0, sx_keys 1]

theorem kt_shares {x : Nat} (hx : x < 3) : IsShare [5, 7] x ((toyNet [0, 1, 2] [5, 7]).key x) := by
  refine ⟨?_, rfl, ?_⟩
  · rcases (show x = 0 ∨ x = 1 ∨ x = 2 by omega) with rfl | rfl | rfl <;> (unfold CanonicalShare; decide +kernel)
  · show (peval [5, 7] (x + 1) - peval [5, 7] ((x : Int).toNat + 1)) % _ = 0
    rw [Int.toNat_natCast, sub_self]; rfl

theorem sumHash_length (b : List UInt8) : (Program.sumHash b).length = 32 := by simp [Program.sumHash]

theorem st_again : Again ktWorld stWorld "u" := ⟨rfl, rfl, rfl, .inr ⟨_, rfl⟩⟩

theorem st_saved (p : Bool) : SavedShares (signCmd (ktCmd p) (ktFile p) "u") [5, 7] := by
  have hs : saveLongterms (ktShares p) = .ok (ktFile p) := by cases p <;> decide +kernel
  have hnd : (ktShares p).keys.Nodup := by cases p <;> decide
  refine ⟨ktShares p, ktFile p, rfl, hs, hnd, fun i s h => ?_⟩
  have hx : ∃ x : Nat, x < 3 ∧ i = x ∧ s = (toyNet [0, 1, 2] [5, 7]).key x := by
    have hm : (i, s) ∈ ktShares p := (GoMap.mem_iff_get? hnd i s).2 h
    obtain ⟨x, h1, h2⟩ := List.mem_map.1 hm
    refine ⟨x, ?_, (congrArg Prod.fst h2).symm, (congrArg Prod.snd h2).symm⟩
    have : ∀ p, ∀ y ∈ (ktGuests p).reverse, y < 3 := by decide
    exact this p x h1
  obtain ⟨x, h1, rfl, rfl⟩ := hx
  obtain ⟨h3, h4, h5⟩ := kt_shares h1
  refine ⟨⟨h3, fun P hP => ⟨?_, (kt_savable x h1).2 P hP⟩⟩, h4, h5⟩
  rw [h4] at hP
  obtain ⟨k, _, rfl⟩ := List.mem_map.1 hP
  exact ((exists_log_iff _).2 ⟨_, log_timesAdd log_base k⟩).1

section
variable {κ : Type} [Fintype κ]

/-- The processes `e p` are started again, and the members in `P` are their guests. -/
structure StCase (P : List Nat) (e : κ → Bool) (ps : List Bool) : Prop where
  inj : Function.Injective e
  mem : ∀ q, q ∈ ps ↔ ∃ p, q = e p
  guests : ∀ x : Nat, x ∈ P ↔ ∃ p, x ∈ stGuests (e p)
  few : ∀ x ∈ P, x < 3
  nodup : P.Nodup
  checks : stChecks P ps = true

/-- These processes. -/
def stSigners (P : List Nat) (e : κ → Bool) : Signers κ Toy :=
  ktCast.again e ktFile (fun _ => stWorld) (fun _ => "u") (fun p => stStarted (e p)) (fun _ => stRest P) (fun p => stHistory P (e p)) fun p => stSys P (e p)

variable {P : List Nat} {e : κ → Bool} {ps : List Bool} (hc : StCase P e ps)
include hc

omit [Fintype κ] in
theorem st_check1 (p : κ) : Program.stCheck1 P (e p) = true := by
  have h := hc.checks
  rw [stChecks, Bool.and_eq_true, List.all_eq_true] at h
  exact h.1 _ ((hc.mem _).2 ⟨p, rfl⟩)

omit [Fintype κ] in
theorem st_check2 (p : κ) : (∀ m, .net m ∈ stHistory P (e p) → (∃ q, m ∈ stSent (stSys P (e q))) ∨ m.dto = .other) ∧
    ∀ q, ∀ m ∈ stSent (stSys P (e q)), m.rcpt ∈ (stCfg P (e p)).guests →
      ∃ t, Spec.Program.Arrives (stCfg P (e p)) (stHistory P (e p)) m t ∧ 5100 + ends (m.op - 1) + 5 ≤ t ∧ t < 5100 + ends (m.op - 1) + 5 + 70 := by
  have h := hc.checks
  rw [stChecks, Bool.and_eq_true] at h
  obtain ⟨h1, h2⟩ := Program.st_check2 h.2 ((hc.mem _).2 ⟨p, rfl⟩)
  refine ⟨fun m hm => ?_, fun q m hm hg => h2 _ ((hc.mem _).2 ⟨q, rfl⟩) m hm hg⟩
  obtain ⟨q, hq, h3⟩ | h3 := h1 m hm
  · obtain ⟨q, rfl⟩ := (hc.mem q).1 hq
    exact .inl ⟨q, h3⟩
  · exact .inr h3

omit [Fintype κ] in
theorem st_in_time (p : κ) : InTime (stCfg P (e p)) (stHistory P (e p)) (stSys P (e p)) stJob := by
  have hf := st_facts (st_check1 hc p)
  have hq := st_requests (st_check1 hc p)
  generalize e p = p at hf hq
  obtain ⟨h, e⟩ := st_read P p
  exact ⟨hf.1, by rw [hq]; exact List.nodup_singleton _, hf.2.1, by cases p <;> (show (5045 : Int) ≤ 5100; decide),
    ⟨[], h, _, e, rfl, by show (2045 : Int) ≤ 5100; decide⟩, by rw [hf.2.2.1]; decide⟩

theorem st_generating : Program.Generating ⟨jobId stJob, [timesAdd base 3, timesAdd base 1, timesAdd base 2], 2, [5, 7], [11, 13], 9⟩
    (toyNet P [11, 13]) ((stSigners P e).all stJob) where
  proper := toy_proper (by decide) hc.few
  part x := by
    refine (hc.guests x).trans ⟨fun ⟨p, h⟩ => ⟨_, Signers.mem_all p, ?_⟩, fun ⟨q, h1, h2⟩ => ?_⟩
    · show (x : Int) ∈ (stCfg P (e p)).guests
      rw [st_guests]; exact List.mem_map.2 ⟨x, h, rfl⟩
    · obtain ⟨p, _, rfl⟩ := List.mem_map.1 h1
      have h2 : (x : Int) ∈ (stCfg P (e p)).guests := h2
      rw [st_guests] at h2
      obtain ⟨y, h3, h4⟩ := List.mem_map.1 h2
      rw [Int.ofNat.inj h4] at h3
      exact ⟨p, h3⟩
  gen := Signers.of_all fun p => by
    intro x r o _ _ _
    refine ⟨Generation.toyPhases P x, ?_⟩
    show Generates (toyKyb P [11, 13] 3 ((x : Int).toNat)) (toyNet P [11, 13]) 3 x toy0 _
    rw [Int.toNat_natCast]
    exact toy_generates hc.nodup _ 3 x
  shares x _ := by
    refine ⟨rfl, ?_⟩
    show (peval [11, 13] (x + 1) - peval [11, 13] (x + 1)) % _ = 0
    rw [sub_self]; rfl

theorem st_relayed : Program.Relayed ⟨jobId stJob, [timesAdd base 3, timesAdd base 1, timesAdd base 2], 2, [5, 7], [11, 13], 9⟩
    ((stSigners P e).all stJob) where
  authentic := Signers.of_all fun p => by
    intro m hm _ _ _ hpl
    obtain ⟨q, hq⟩ := ((st_check2 hc p).1 m hm).resolve_right fun h => Verif.Generation.other_implausible h hpl
    obtain ⟨u, hu, h⟩ := mem_stSent.1 hq
    exact ⟨_, Signers.mem_all q, u, hu, h⟩
  arrives := Signers.of_all fun p => Signers.of_all fun q => by
    intro m t hs _ hid hg
    have hin := st_in_time hc q
    obtain ⟨_, h2, h3⟩ := Program.C91_sends _ _ _ hin.run (by rw [st_guests]; cases e q <;> decide) hin.ids hin.prompt stJob
      (InTime.asked (st := stStarted (e q)) (r := stRest P) hin) m hid t hs
    have h2 : t = 5100 + ends (m.op - 1) + 5 := h2
    obtain ⟨t', h4, h5, h6⟩ := (st_check2 hc p).2 q m (mem_stSent.2 h3) hg
    exact ⟨t', h4, by omega, by omega⟩

omit [Fintype κ] in
theorem st_set : (stSigners P e).Set [timesAdd base 3, timesAdd base 1, timesAdd base 2] 2 where
  sorts _ := exSort_contract
  compiled p := ⟨(kt_together.punctual (e p)).compiled.conf, (kt_together.punctual (e p)).compiled.once⟩
  start p := st_start (e p)
  keys p := ⟨_, kt_keys (e p), List.Perm.refl _⟩
  threshold p := by show (stStarted (e p)).threshold = 2; cases e p <;> rfl
  once p q x hp hq := hc.inj (kt_together.once (e p) (e q) x hp hq)

end

/-- Both processes. -/
theorem st_both : StCase [0, 1, 2] (fun p : Bool => p) [false, true] where
  inj _ _ h := h
  mem q := by cases q <;> simp
  guests x := by
    constructor
    · intro h
      have : ∀ x ∈ [0, 1, 2], ∃ p, x ∈ stGuests p := by decide
      exact this x h
    · rintro ⟨p, h⟩
      have : ∀ p, ∀ x ∈ stGuests p, x ∈ [0, 1, 2] := by decide
      exact this p x h
  few := by decide
  nodup := by decide
  checks := ((Bool.and_eq_true _ _).mp stChecks_ok).1

/-- The first one alone. -/
abbrev First : Type := {p // p ∈ ({false} : Finset Bool)}

def first : First := ⟨false, Finset.mem_singleton_self _⟩

theorem eq_first (p : First) : p = first := Subtype.ext (Finset.mem_singleton.1 p.2)

theorem st_alone : StCase [2, 0] (Subtype.val : First → Bool) [false] where
  inj := Subtype.val_injective
  mem q := by
    rw [List.mem_singleton]
    constructor
    · intro h; exact ⟨first, h⟩
    · rintro ⟨p, h⟩
      rw [h, eq_first p]; rfl
  guests x := ⟨fun h => ⟨first, h⟩, fun ⟨p, h⟩ => by
    rw [eq_first p] at h; exact h⟩
  few := by decide
  nodup := by decide
  checks := ((Bool.and_eq_true _ _).mp stChecks_ok).2

/-- Every run of the two processes has sent ten messages. They meet the hypotheses of C101, -/
example (p : Bool) : Program.Gathered Program.sumHash exSH (groupOf (stStarted false) [5, 7] [11, 13] stJob) 5100
      ((stSigners [0, 1, 2] fun p : Bool => p).all stJob) ∧
    (groupOf (stStarted false) [5, 7] [11, 13] stJob).keys.Perm [timesAdd base 3, timesAdd base 1, timesAdd base 2] ∧
    (stSent (stSys [0, 1, 2] p)).length = 10 * (stGuests p).length :=
  ⟨(st_set st_both).gathered [11, 13] st_saved (fun _ => ⟨rfl, rfl⟩) (st_in_time st_both) false, ((st_set st_both).members false false).2,
    (st_facts (st_check1 st_both p)).2.2.2⟩

/-- and of its form for processes that were started with files. -/
example : ∃ sig, Schnorr.verify Program.sumHash (.pt (timesAdd base 5)) 9 sig = .ok () ∧
    ∀ p, ∃ b ∈ (stSys [0, 1, 2] p).jobs, b.job = stJob ∧ b.pc = .ended ∧
      b.lines.Perm ((stStarted p).guests.keys.map fun x : Nat => ((x : Int), some sig)) :=
  C102_signs (st_set st_both) st_saved sumHash_length (fun _ => ⟨rfl, rfl⟩) (st_in_time st_both) (by decide) (by unfold GoodKey; decide)
    ⟨by decide, by decide⟩ (by decide) (S := [0, 1, 2]) (by decide) (by decide) (fun x hx => by
      have : ∀ x ∈ [0, 1, 2], ∃ p, x ∈ (stStarted p).guests.keys := by decide
      exact this x hx) ⟨by decide, by decide⟩ (st_generating st_both) (st_relayed st_both)

/-- So does the first process when it is alone. -/
example : ∃ sig, Schnorr.verify Program.sumHash (.pt (timesAdd base 5)) 9 sig = .ok () ∧
    ∃ b ∈ (stSys [2, 0] false).jobs, b.lines.Perm [(2, some sig), (0, some sig)] := by
  obtain ⟨sig, h1, h2⟩ := C102_signs (st_set st_alone) (fun p => st_saved p) sumHash_length (fun _ => ⟨rfl, rfl⟩) (st_in_time st_alone) (by decide)
    (by unfold GoodKey; decide) (rs := [11, 13]) ⟨by decide, by decide⟩ (by decide) (S := [2, 0]) (by decide) (by decide) (fun x hx => ⟨first, hx⟩)
    ⟨by decide, by decide⟩ (st_generating st_alone) (st_relayed st_alone)
  obtain ⟨b, hb, _, _, h⟩ := h2 first
  exact ⟨sig, h1, b, hb, h⟩

/-- The processes of `Verif.Props.KeyTogetherExample` meet the hypotheses of C102. They write their files. Started again with these, both print one
signature for all members, and the first one alone prints one for its two members. It verifies under the key that they made. -/
example : (∀ p, (ktSys p).file = some (ktFile p) ∧ start stWorld (signCmd (ktCmd p) (ktFile p) "u") = .ok (stStarted p)) ∧
    (∃ (sig : Schnorr.Sig) (b b' : Program.JobSt), Schnorr.verify Program.sumHash (.pt (timesAdd base 5)) 9 sig = .ok () ∧
      b ∈ (stSys [0, 1, 2] false).jobs ∧ b' ∈ (stSys [0, 1, 2] true).jobs ∧ b.lines.Perm [(2, some sig), (0, some sig)] ∧ b'.lines = [(1, some sig)]) ∧
    ∃ (sig : Schnorr.Sig) (b : Program.JobSt), Schnorr.verify Program.sumHash (.pt (timesAdd base 5)) 9 sig = .ok () ∧
      b ∈ (stSys [2, 0] false).jobs ∧ b.lines.Perm [(2, some sig), (0, some sig)] := by
  obtain ⟨f, h1, h2⟩ := C102_end_to_end kt_together (toy_proper (by decide) (by decide)) kt_generating kt_carried kt_savable (fun p => by cases p <;> decide)
    (fun p => (kt_facts p).2.2.2.1) (ls := [5, 7]) (fun x hx => kt_shares hx) (fun p => ⟨_, kt_keys p, List.Perm.refl _⟩) (T := 2)
    (fun p => by cases p <;> rfl) (by decide)
  have hf : f = ktFile := by
    funext p
    exact Option.some.inj ((h1 p).symm.trans (kt_facts p).2.2.2.2.2)
  subst hf
  have go : ∀ {κ : Type} [Fintype κ] {P : List Nat} {e : κ → Bool} {ps : List Bool} (_ : StCase P e ps) (_ : P.Nodup) (_ : 2 ≤ P.length),
      ∃ sig, Schnorr.verify Program.sumHash (.pt (timesAdd base 5)) 9 sig = .ok () ∧ ∀ p, ∃ b ∈ (stSys P (e p)).jobs, b.job = stJob ∧ b.pc = .ended ∧
        b.lines.Perm ((ktStarted (e p)).guests.keys.map fun x : Nat => ((x : Int), some sig)) := by
    intro κ _ P e ps hc hP h2P
    obtain ⟨st, h3, h4⟩ := h2 e hc.inj (fun _ => stWorld) (fun _ => "u") (fun _ => st_again)
    have hst : st = fun p => stStarted (e p) := by
      funext p
      exact Outcome.ok.inj ((h3 p).1.symm.trans (st_start (e p)))
    subst hst
    exact h4 (fun _ => stRest P) (fun p => stHistory P (e p)) (fun p => stSys P (e p)) stJob [11, 13] (toyNet P [11, 13]) Program.sumHash exSH
      sumHash_length (fun _ => ⟨rfl, rfl⟩) (st_in_time hc) ⟨by decide, by decide⟩ (by decide) P hP (by omega) (fun x hx => by
        obtain ⟨p, hp⟩ := (hc.guests x).1 hx
        refine ⟨p, ?_⟩
        show x ∈ (ktStarted (e p)).guests.keys
        cases he : e p <;> (rw [he] at hp; exact hp)) (st_generating hc) (st_relayed hc)
  refine ⟨fun p => ⟨h1 p, st_start p⟩, ?_, ?_⟩
  · obtain ⟨sig, hv, h⟩ := go st_both (by decide) (by decide)
    obtain ⟨b, hb, _, _, h5⟩ := h false
    obtain ⟨b', hb', _, _, h6⟩ := h true
    exact ⟨sig, b, b', hv, hb, hb', h5, List.perm_singleton.1 h6⟩
  · obtain ⟨sig, hv, h⟩ := go st_alone (by decide) (by decide)
    obtain ⟨b, hb, _, _, h5⟩ := h first
    exact ⟨sig, b, hv, hb, h5⟩

end Verif.Props.KeyStart
