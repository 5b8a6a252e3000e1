import Verif.Props.KeyTogetherStart
import Verif.Props.KeyPromptExample
import Verif.Props.GenerationExample

/-!
C100 is not vacuous: the three members of `exHosts` in two processes, the first of which has two guests, make long-term keys with the
generators of `Verif.Props.GenerationExample`. Every message comes in when the clocks still show the time at which it was sent.
-/
namespace Verif.Props.KeyStart
open Verif.Prot Verif.Layout Verif.Dto Verif.Dss Verif.Dkg Verif.Signode Verif.Tables Verif.Start Verif.Props Verif.Spec.Prot Verif.Spec.Signode
open Verif.Spec.KeyProgram Verif.Spec.Generation Verif.Props.Start Verif.Point
open Verif.Props.Generation (Toy toyNet toyKyb toy0 others otherResps toy_generates toy_proper)
open Verif.KeyProgram (Cfg Ev Sys)
open Verif.Spec.Program (ends)

def ktWorld : World Toy := ⟨exSort, fun s => if s = "t" then some 45000000 else none, -2955000000, fun _ _ _ => .ok toy0, fun _ => true⟩

/-- The command lines. The first process has the secrets of members 0 and 2. -/
def ktCmd : Bool → Cmd
  | false => { kxCmd 0 with
      secdir := fun n => if n = "secret_1" then (match Scalar.marshalBinary 1 with | .ok b => some b | _ => none)
        else if n = "secret_2" then (match Scalar.marshalBinary 3 with | .ok b => some b | _ => none) else none
      secnames := ["secret_1", "longterms_t2", "secret_2"] }
  | true => kxCmd 1

def ktStarted : Bool → Started
  | false =>
    let qs := [some "10.0.0.1:1", some "10.0.0.2:1", some "10.0.0.1:1"]
    { kxStarted 0 with
      guests := [(2, ⟨2, 3, timesAdd base 3, 0, "10.0.0.1:1"⟩), (0, ⟨0, 1, timesAdd base 1, 0, "10.0.0.1:1"⟩)]
      callers := [((0, 2), qs), ((0, 0), qs), ((1, 2), qs), ((1, 0), qs)] }
  | true => kxStarted 1

/-- What the files leave open, when the members `P` take part. -/
def ktRestOf (P : List Nat) : Rest Toy := ⟨fun g _ => toyKyb P [5, 7] 3 g.toNat, fun _ _ => toy0, fun b => b, fun _ => [], fun _ => 17, -2955⟩

abbrev ktRest : Rest Toy := ktRestOf [0, 1, 2]

def ktCfg (p : Bool) : Cfg Toy := keyCfg (ktStarted p) ktRest

/-- The guests. -/
def ktGuests : Bool → List Nat
  | false => [2, 0]
  | true => [1]

/-- What is said to member `x`. The first message is from outside. -/
def ktSaid (P : List Nat) (x : Nat) : List (Message Dto) :=
  ⟨7, 0, x, idOf 45000000 0, 1, .other⟩ ::
  ((others P x).map fun (a : Nat) => (⟨a, 0, x, idOf 45000000 0, 1, dtoOf .deal dealToDto ((toyNet P [5, 7]).deal a x)⟩ : Message Dto)) ++
  ((otherResps P x).map fun p => ⟨p.2, 0, x, idOf 45000000 0, 2, .response ((toyNet P [5, 7]).resp p.1 p.2)⟩) ++
  ((others P x).map fun (a : Nat) => ⟨a, 0, x, idOf 45000000 0, 5, dtoOf .commits commitsToDto ((toyNet P [5, 7]).commits a)⟩)

/-- The same for each run. -/
def ktEach (p : Bool) (f : Nat → List Ev) : List Ev := (List.range (ktGuests p).length).flatMap f

/-- A stage begins. -/
def ktStage (p : Bool) (t : Int) : List Ev :=
  .prog (.tick t) :: ktEach p (fun k => [.prog (.thread k)]) ++ .prog (.tick (t + 5)) :: ktEach p (fun k => [.prog (.thread k)])

/-- The messages of a stage come in, and go to the runs. -/
def ktTake (P : List Nat) (p : Bool) (op : Int) : List Ev :=
  (ktGuests p).flatMap fun x =>
    ((ktSaid P x).filter (·.op = op)).map (fun m => .prog (.net m)) ++
    ((ktSaid P x).filter (·.op = op)).flatMap fun _ => List.replicate 3 (.prog (.cons (0, x)))

/-- What happens in the process until the outputs of the runs are taken. -/
def ktPrefix (P : List Nat) (p : Bool) : List Ev :=
  let g := ((ktGuests p).headD 0 : Int)
  [.main g] ++ ktEach p (fun k => [.prog (.runner k), .prog (.task 0), .prog (.runner k), .prog (.fwStep k)]) ++
  [.prog (.tick 45), .prog .latch, .prog (.tick 95)] ++ ktEach p (fun k => [.prog (.fwStep k), .prog (.runner k)]) ++
  [.prog (.tick 100)] ++ ktEach p (fun k => [.prog (.fwStep k), .prog (.runner k), .prog (.runner k), .prog (.task 0)]) ++
  ktEach p (fun k => [.prog (.thread k), .prog (.thread k)]) ++
  ktStage p 125 ++ ktTake P p 1 ++ ktStage p 200 ++ ktTake P p 2 ++ ktStage p 275 ++ ktStage p 350 ++ ktStage p 375 ++ ktTake P p 5 ++
  ktStage p 450 ++ ktStage p 525 ++ ktStage p 600 ++ [.prog (.tick 625)] ++
  ktEach p (fun k => [.prog (.thread k), .prog (.task 0), .prog (.task 0), .prog (.task 0), .prog (.task 0), .prog (.runner k), .prog (.runner k)]) ++
  [.main g]

/-- What happens in the process. -/
def ktHistory (p : Bool) : List Ev :=
  let g := ((ktGuests p).headD 0 : Int)
  ktPrefix [0, 1, 2] p ++ (ktGuests p).map (fun x => .main x) ++ [.main g, .check ((ktGuests p).map Int.ofNat)]

/-- The messages that the runs have sent. -/
def ktSent (s : Sys Toy) : List (Message Dto) :=
  s.prog.runs.flatMap fun u => u.log.filterMap fun e => match e with | .sent m => some m | _ => none

/-- The messages that come in when there is room for them, and when. -/
def ktArrivals (c : Cfg Toy) (s : Sys Toy) : List Ev → List (Message Dto × Int)
  | [] => []
  | e :: h =>
    (match e with
     | .prog (.net m) => if (s.prog.node.queues (m.pc, m.rcpt)).length < Node.rcvBufMax then [(m, s.prog.node.fw.now)] else []
     | _ => []) ++
    match Verif.KeyProgram.step c s e with
    | .ok s' => ktArrivals c s' h
    | _ => []

def ktRun (p : Bool) : Outcome (Sys Toy) := Verif.KeyProgram.run (ktCfg p) (Verif.KeyProgram.init (ktCfg p)) (ktHistory p)

/-- Where it has got to. -/
def ktSys (p : Bool) : Sys Toy :=
  match ktRun p with
  | .ok s => s
  | _ => Verif.KeyProgram.init (ktCfg p)

/-- The shares that it saves, in the order in which the shares are taken. -/
def ktShares (p : Bool) : GoMap Int KeyShare := (ktGuests p).reverse.map fun (x : Nat) => ((x : Int), (toyNet [0, 1, 2] [5, 7]).key x)

/-- The file that it writes. -/
def ktFile (p : Bool) : GoMap Int DksDTO :=
  match saveLongterms (ktShares p) with
  | .ok f => f
  | _ => []

def ktCheck1 (p : Bool) : Bool :=
  kpPrompt (ktCfg p) (Verif.KeyProgram.init (ktCfg p)) (ktHistory p) &&
  match ktRun p with
  | .ok s => decide (s.prog.node.fw.now = 625) && kpQuiet (ktCfg p) s && decide ((ktSent s).length = 8 * (ktGuests p).length) &&
    decide (s.file = some (ktFile p))
  | _ => false

/-- What comes in was sent, and what was sent comes in. -/
def ktCheck2 : Bool :=
  let sent := ktSent (ktSys false) ++ ktSent (ktSys true)
  [false, true].all fun p =>
    (ktHistory p).all (fun e => match e with
      | .prog (.net m) => (decide (m ∈ sent) || decide (m.dto = .other)) && (match m.dto with
        | .response r => r.response.isSome
        | .partsig _ => false
        | _ => true)
      | _ => true) &&
    let arr := ktArrivals (ktCfg p) (Verif.KeyProgram.init (ktCfg p)) (ktHistory p)
    sent.all fun m => !((ktGuests p).map Int.ofNat).contains m.rcpt ||
      arr.any fun a => decide (a.1 = m) && decide (100 + ends (m.op - 1) + 5 ≤ a.2) && decide (a.2 < 100 + ends (m.op - 1) + 5 + 70)

theorem ktCheck1_ok : ktCheck1 false = true ∧ ktCheck1 true = true := by constructor <;> decide +kernel

theorem ktCheck2_ok : ktCheck2 = true := by decide +kernel

theorem kt_check1 (p : Bool) : ktCheck1 p = true := by
  cases p
  exacts [ktCheck1_ok.1, ktCheck1_ok.2]

theorem ktRun_eq (p : Bool) : ktRun p = Verif.KeyProgram.run (ktCfg p) (Verif.KeyProgram.init (ktCfg p)) (ktHistory p) := rfl

theorem kt_guests (p : Bool) : (ktCfg p).base.guests = (ktGuests p).map Int.ofNat := by cases p <;> rfl

theorem kt_fit (p : Bool) : Verif.KeyProgram.Fit (ktCfg p) :=
  ⟨KeyProgram.inj (by cases p <;> (show (0 : Int) ≤ 100000000; decide)) (by show (0 : Int) ≤ 1525000000; decide),
   by rw [kt_guests]; cases p <;> decide⟩

theorem kt_facts (p : Bool) : Verif.KeyProgram.run (ktCfg p) (Verif.KeyProgram.init (ktCfg p)) (ktHistory p) = .ok (ktSys p) ∧
    Prompt (ktCfg p) (ktHistory p) ∧ (ktSys p).prog.node.fw.now = 625 ∧ Settled (ktCfg p) (ktSys p) ∧
    (ktSent (ktSys p)).length = 8 * (ktGuests p).length ∧ (ktSys p).file = some (ktFile p) := by
  have h := kt_check1 p
  rw [ktCheck1, Bool.and_eq_true] at h
  obtain ⟨h1, h2⟩ := h
  rw [ktSys]
  cases hr : ktRun p with
  | panic => rw [hr] at h2; cases h2
  | err => rw [hr] at h2; cases h2
  | ok s =>
    rw [hr] at h2
    dsimp only at h2 ⊢
    rw [Bool.and_eq_true, Bool.and_eq_true, Bool.and_eq_true] at h2
    rw [ktRun_eq] at hr
    have hR : Verif.KeyProgram.Reach (ktCfg p) s := ⟨_, hr⟩
    exact ⟨hr, kp_prompt (kt_fit p) h1, of_decide_eq_true h2.1.1.1, kp_quiet (hR.known (kt_fit p)) h2.1.1.2, of_decide_eq_true h2.1.2,
      of_decide_eq_true h2.2⟩

theorem mem_ktSent {s : Sys Toy} {m : Message Dto} : m ∈ ktSent s ↔ ∃ u ∈ s.prog.runs, .sent m ∈ u.log := by
  rw [ktSent, List.mem_flatMap]
  refine exists_congr fun u => and_congr_right fun _ => ?_
  rw [List.mem_filterMap]
  constructor
  · rintro ⟨e, he, h⟩
    cases e <;> cases h
    exact he
  · intro h; exact ⟨_, h, rfl⟩

attribute [local irreducible] ktSys ktRun ktHistory ktSent

theorem kt_arrives {c : Cfg Toy} {m : Message Dto} {t : Int} : ∀ (h h0 : List Ev) (s : Sys Toy),
    Verif.KeyProgram.run c (Verif.KeyProgram.init c) h0 = .ok s → (m, t) ∈ ktArrivals c s h → Arrives c (h0 ++ h) m t := by
  intro h
  induction h with
  | nil => intro h0 s _ hm; exact absurd hm List.not_mem_nil
  | cons e h ih =>
    intro h0 s hr hm
    rw [ktArrivals.eq_def] at hm
    dsimp only at hm
    rw [List.mem_append] at hm
    rcases hm with hm | hm
    · cases e with
      | prog e =>
        cases e with
        | net m' =>
          dsimp only at hm
          by_cases hl : (s.prog.node.queues (m'.pc, m'.rcpt)).length < Node.rcvBufMax
          · rw [if_pos hl] at hm
            have e := List.mem_singleton.1 hm
            injection e with e1 e2
            subst e1
            exact ⟨h0, h, s, rfl, hr, e2.symm, hl⟩
          · rw [if_neg hl] at hm; exact absurd hm List.not_mem_nil
        | _ => exact absurd hm List.not_mem_nil
      | _ => exact absurd hm List.not_mem_nil
    · cases hs : Verif.KeyProgram.step c s e with
      | panic => rw [hs] at hm; exact absurd hm List.not_mem_nil
      | err => rw [hs] at hm; exact absurd hm List.not_mem_nil
      | ok s' =>
        rw [hs] at hm
        have := ih (h0 ++ [e]) s' (Verif.KeyProgram.run_snoc hr hs) hm
        rwa [List.append_assoc, List.singleton_append] at this

theorem kt_check2 (p : Bool) : (∀ m, .prog (.net m) ∈ ktHistory p → ((∃ q, m ∈ ktSent (ktSys q)) ∨ m.dto = .other) ∧ Complete m.dto) ∧
    ∀ q, ∀ m ∈ ktSent (ktSys q), m.rcpt ∈ (ktCfg p).base.guests →
      ∃ t, Arrives (ktCfg p) (ktHistory p) m t ∧ 100 + ends (m.op - 1) + 5 ≤ t ∧ t < 100 + ends (m.op - 1) + 5 + 70 := by
  have h := ktCheck2_ok
  unfold ktCheck2 at h
  have h := List.all_eq_true.1 h p (by cases p <;> decide)
  rw [Bool.and_eq_true, List.all_eq_true, List.all_eq_true] at h
  obtain ⟨h1, h2⟩ := h
  constructor
  · intro m hm
    have h3 := h1 _ hm
    dsimp only at h3
    rw [Bool.and_eq_true, Bool.or_eq_true, decide_eq_true_eq, List.mem_append, decide_eq_true_eq] at h3
    refine ⟨?_, ?_⟩
    · rcases h3.1 with (h | h) | h
      exacts [.inl ⟨false, h⟩, .inl ⟨true, h⟩, .inr h]
    · cases hd : m.dto with
      | response r =>
        have h4 := h3.2
        rw [hd] at h4
        intro e
        dsimp only at h4
        rw [e] at h4; cases h4
      | partsig s =>
        have h4 := h3.2
        rw [hd] at h4
        cases h4
      | _ => trivial
  · intro q m hm hg
    have hmem : m ∈ ktSent (ktSys false) ++ ktSent (ktSys true) := by
      rw [List.mem_append]
      cases q
      exacts [.inl hm, .inr hm]
    have h3 := h2 m hmem
    rw [Bool.or_eq_true, Bool.not_eq_true', List.any_eq_true] at h3
    rcases h3 with h3 | ⟨⟨m', t⟩, h3, h4⟩
    · rw [kt_guests, ← List.contains_iff_mem, h3] at hg; cases hg
    · rw [Bool.and_eq_true, Bool.and_eq_true, decide_eq_true_eq, decide_eq_true_eq, decide_eq_true_eq] at h4
      obtain ⟨⟨rfl, h5⟩, h6⟩ := h4
      have h7 := kt_arrives (c := ktCfg p) (ktHistory p) [] (Verif.KeyProgram.init (ktCfg p)) (by rw [Verif.KeyProgram.run]) h3
      rw [List.nil_append] at h7
      exact ⟨t, h7, h5, h6⟩

theorem kt_secrets : loadSecrets (ktCmd false).secdir (ktCmd false).secnames = .ok [1, 3] := by
  rw [loadSecrets, slurpAll, filterPrefix_eq]; decide +kernel

theorem kt_start (p : Bool) : start ktWorld (ktCmd p) = .ok (ktStarted p) := by
  cases p
  · simp only [start, kt_secrets]; decide +kernel
  · have : loadSecrets (ktCmd true).secdir (ktCmd true).secnames = .ok [2] := sx_secrets1
    simp only [start, this]; decide +kernel

/-- The two processes. -/
def ktCast : Cast Bool Toy := ⟨fun _ => ktWorld, ktCmd, fun _ => exHosts, ktStarted, fun _ => ktRest, ktHistory, ktSys⟩

theorem kt_once (p q : Bool) (x : Nat) (hp : x ∈ (ktStarted p).guests.keys) (hq : x ∈ (ktStarted q).guests.keys) : p = q := by
  have key : ∀ p, x ∈ (ktStarted p).guests.keys → (p = true ↔ x = 1) := by
    intro p hp
    cases p
    · have : x = 2 ∨ x = 0 := by simpa [ktStarted, GoMap.keys] using hp
      constructor
      · intro h; cases h
      · omega
    · have : x = 1 := by simpa [ktStarted, kxStarted, sxStarted, GoMap.keys] using hp
      simp [this]
  have h1 := key p hp
  have h2 := key q hq
  rw [Bool.eq_iff_iff, h1, h2]

theorem kt_together : Together ktCast 0 3 45000000 where
  punctual p := ⟨exSort_contract, by cases p <;> exact ⟨rfl, by decide⟩, kt_start p, by cases p <;> (show (0 : Int) ≤ 100000000; decide),
    by cases p <;> (show (-2955 : Int) ≤ 45000000 / 1000000 + 55; decide), (kt_facts p).1, (kt_facts p).2.1⟩
  files _ := by show (files exHosts).length = 3; decide
  drop p := by cases p <;> rfl
  once := kt_once
  over p := by
    show (45000000 : Int) / 1000000 + 580 + 1525 * ((0 : Nat) : Int) ≤ (ktSys p).prog.node.fw.now
    rw [(kt_facts p).2.2.1]; decide
  hosts x hx := by
    rcases (show x = 0 ∨ x = 1 ∨ x = 2 by omega) with rfl | rfl | rfl
    exacts [⟨false, by decide⟩, ⟨true, by decide⟩, ⟨false, by decide⟩]

theorem kt_generating : Generating ktCast.crew (toyNet [0, 1, 2] [5, 7]) 3 (idOf 45000000 0) := by
  refine ⟨fun x => ⟨fun h => ?_, fun ⟨p, h⟩ => ?_⟩, fun p x r o _ _ _ => ?_⟩
  · obtain ⟨p, hp⟩ := kt_together.hosts x ((toy_proper (ls := [5, 7]) (n := 3) (by decide) (by decide)).on x h)
    exact ⟨p, mem_guests.2 hp⟩
  · have h := mem_guests.1 h
    have : ∀ p, ∀ x ∈ (ktStarted p).guests.keys, x ∈ [0, 1, 2] := by decide
    exact this p x h
  refine ⟨Generation.toyPhases [0, 1, 2] x, ?_⟩
  show Generates (toyKyb [0, 1, 2] [5, 7] 3 ((x : Int).toNat)) (toyNet [0, 1, 2] [5, 7]) 3 x toy0 _
  rw [Int.toNat_natCast]
  exact toy_generates (by decide) _ 3 x

theorem kt_carried : Carried ktCast.crew (idOf 45000000 0) where
  authentic p m hm _ _ hpl := by
    obtain ⟨q, hq⟩ := ((kt_check2 p).1 m hm).1.resolve_right fun h => Verif.Generation.other_implausible h hpl
    exact ⟨q, mem_ktSent.1 hq⟩
  arrives q p m t hs _ hid hg := by
    have hw := C100_on_schedule kt_together.toMeeting
    obtain ⟨_, h2, h3⟩ := KeyProgram.C98_sends _ _ _ (hw.run q) (hw.nodup q) (hw.epoch q).1 (hw.epoch q).2 (hw.apart q) (hw.prompt q) 0 m
      (hid.trans (hw.id q).symm) t hs
    obtain ⟨t', h4, h5, h6⟩ := (kt_check2 p).2 q m (mem_ktSent.2 h3) hg
    have hst := hw.start q
    have e : (45000000 : Int) / 1000000 + 55 + 1525 * ((0 : Nat) : Int) = 100 := by decide
    rw [e] at hst
    rw [hst] at h2
    exact ⟨t', h4, by omega, by omega⟩

theorem kt_savable : Savable (toyNet [0, 1, 2] [5, 7]) 3 := by
  intro x _
  refine ⟨by simp [toyNet], ?_⟩
  intro p hp
  rcases (show p = timesAdd base 5 ∨ p = timesAdd base 7 by simpa [toyNet] using hp) with rfl | rfl <;> (unfold OnCurve; decide +kernel)

theorem toy_calm (P ls : List Nat) (n i : Nat) : Calm (toyKyb P ls n i) where
  deals _ h := by cases h
  processDeal k d h := by
    have h : (if d.index ∈ k.dealt then Outcome.err else .ok (some ((toyNet P ls).resp d.index i))) = .panic := h
    by_cases hd : d.index ∈ k.dealt
    · rw [if_pos hd] at h; cases h
    · rw [if_neg hd] at h; cases h
  processResponse k r h := by
    cases hr : r.response with
    | none =>
      simp only [toyKyb, hr] at h
      cases h
    | some w =>
      simp only [toyKyb, hr] at h
      by_cases hd : (r.index, w.index) ∈ k.resps
      · rw [if_pos hd] at h; cases h
      · rw [if_neg hd] at h; cases h
  processJustification _ _ h := by cases h
  secretCommits _ h := by cases h
  processSecretCommits _ _ h := by cases h
  processComplaintCommits _ _ h := by cases h
  processReconstructCommits _ _ h := by cases h
  distKeyShare k h := by
    have h : (if (others P i).all (· ∈ k.coms) then Outcome.ok ((toyNet P ls).key i) else .err) = .panic := h
    by_cases hd : (others P i).all (· ∈ k.coms) = true
    · rw [if_pos hd] at h; cases h
    · rw [if_neg hd] at h; cases h

/-- The two processes meet the hypotheses of C100, and each has sent its messages. -/
example (p : Bool) : Together ktCast 0 3 45000000 ∧ Proper (toyNet [0, 1, 2] [5, 7]) 3 ∧ Generating ktCast.crew (toyNet [0, 1, 2] [5, 7]) 3 (idOf 45000000 0) ∧
    Carried ktCast.crew (idOf 45000000 0) ∧ Savable (toyNet [0, 1, 2] [5, 7]) 3 ∧ Settled (ktCfg p) (ktSys p) ∧ (ktSent (ktSys p)).length = 8 * (ktGuests p).length :=
  ⟨kt_together, toy_proper (by decide) (by decide), kt_generating, kt_carried, kt_savable, (kt_facts p).2.2.2.1, (kt_facts p).2.2.2.2.1⟩

/-- The first process has written the shares of members 0 and 2. -/
example : ∃ (lts : GoMap Int KeyShare) (f : GoMap Int DksDTO), (ktSys false).file = some f ∧ saveLongterms lts = .ok f ∧
    lts.keys.Perm [2, 0] ∧ lts.get? 2 = some ((toyNet [0, 1, 2] [5, 7]).key 2) ∧ lts.get? 0 = some ((toyNet [0, 1, 2] [5, 7]).key 0) := by
  obtain ⟨_, h⟩ := C100_started kt_together (toy_proper (by decide) (by decide)) kt_generating kt_carried kt_savable false (by decide)
    (fun g _ => toy_calm _ _ 3 g.toNat) (fun m hm => ((kt_check2 false).1 m hm).2)
  obtain ⟨lts, f, h1, h2, h3, h4⟩ := h (kt_facts false).2.2.2.1
  exact ⟨lts, f, h1, h2, h3, h4 2 (by decide), h4 0 (by decide)⟩

end Verif.Props.KeyStart
