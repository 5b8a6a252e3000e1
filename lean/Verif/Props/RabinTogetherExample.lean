import Verif.Props.RabinTogether
import Verif.Props.RabinProgramExample
import Verif.Props.QuorumExample

/-!
C120 is not vacuous: the two processes of `Verif.Props.KeyTogetherExample` with the network of `Verif.Props.NetworkExample` make long-term keys with kyber's generators,
and the first, with two of the three members, signs without the other.
-/
namespace Verif.Props.RabinTogether
open Verif.Rabin Verif.Prot Verif.Layout Verif.Dto Verif.Dss Verif.Dkg Verif.Point Verif.Signode Verif.Tables Verif.Start Verif.Props
open Verif.Spec.Rabin Verif.Spec.Generation Verif.Spec.Signode Verif.Spec.Prot
open Verif.Props.Start Verif.Props.KeyStart Verif.Props.Program
open Verif.Props.Generation (others otherResps)
open Verif.Props.RabinProgram (Members Fine fineB)

/-- What the members in `P` choose. The sum of their polynomials is to be `ls`. -/
def rtR (P ls : List Nat) : Choice where
  keys := [1, 2, 3].map (timesAdd base)
  T := 2
  long a := a + 1
  f a := if a = P.headD 0 then ls.map (· - (P.length - 1)) else ls.map fun _ => 1
  g a := [a + 2, a + 3]
  sign _ b := b
  encrypt a b _ := ⟨base, [UInt8.ofNat a], [UInt8.ofNat b], []⟩
  iter _ l := l.reverse

/-- The suite: a deal can be read as the one that was made. -/
def rtS (P ls : List Nat) : Suite :=
  { Rabin.exS0 true with
    decrypt := fun _ _ _ e => match e.signature, e.nonce with
      | [a], [b] => some (dealOf (Rabin.exS0 true) (rtR P ls) a.toNat b.toNat)
      | _, _ => none }

theorem rt_fair {P ls : List Nat} (h2 : ∀ a ∈ P, a < 3) (hl : ls.length = 2) (hz : ∀ a ∈ P, ∀ x ∈ (rtR P ls).f a, x % secp256k1N ≠ 0) :
    Fair (rtS P ls) (rtR P ls) P where
  low := Nat.le_refl 2
  few := by show 3 ≤ 2 ^ 32; decide
  polys a _ := by
    refine ⟨?_, rfl⟩
    show (if a = P.headD 0 then ls.map (· - (P.length - 1)) else ls.map fun _ => 1).length = 2
    split <;> rw [List.length_map, hl]
  second := (exists_log_iff _).2 ⟨_, log_base_nat 13⟩
  sign _ _ b := beq_self_eq_true b
  encrypt a ha b hb := by
    have : a < 3 := h2 a ha
    have : b < 3 := h2 b hb
    interval_cases a <;> interval_cases b <;> rfl
  iter _ _ l := List.reverse_perm l
  timeout := .inl rfl
  sent := ⟨fun _ _ _ _ => sendable_base, hz⟩

/-- When all make a key. -/
abbrev keyP : List Nat := List.range 3
abbrev keyR : Choice := rtR keyP [5, 7]
abbrev keyS : Suite := rtS keyP [5, 7]

/-- When members 2 and 0 sign. -/
abbrev sigP : List Nat := [2, 0]
abbrev sigR : Choice := rtR sigP [11, 13]
abbrev sigS : Suite := rtS sigP [11, 13]

theorem key_fair : Fair keyS keyR keyP := rt_fair (by decide) rfl (by decide)

theorem sig_fair : Fair sigS sigR sigP := rt_fair (by decide) rfl (by decide)

theorem key_total : total keyR keyP = [5, 7] := by decide

theorem rt_able {P ls : List Nat} (h : Fair (rtS P ls) (rtR P ls) P) {i : Nat} (hi : i ∈ P) (h3 : i < 3) : Able (rtS P ls) (rtR P ls) i where
  mem := h3
  low := h.low
  high := by show 2 ≤ 3; decide
  few := h.few
  key := by
    show mul (((i : Nat) : Int) + 1) base = .ok (([1, 2, 3].map (timesAdd base)).getD i null)
    rw [show ((i : Nat) : Int) + 1 = ((i + 1 : Nat) : Int) by push_cast; rfl, (C10_mul _ base isElt_base).1]
    interval_cases i <;> rfl
  polys := h.polys i hi
  second := h.second
  encrypt := h.encrypt i hi i hi
  iter := h.iter i hi

/-! The processes make their keys. -/

section
open Verif.KeyProgram (Cfg Ev Sys)

def rkWorld : World Gen := ⟨ktWorld.srt, ktWorld.parse, ktWorld.now, fun _ _ _ => .ok (first keyS keyR 0), ktWorld.canListen⟩

/-- What the files leave open, when the members in `P` take part. -/
def rkRestOf (P : List Nat) : Rest Gen := ⟨fun g _ => kyb (rtS P [5, 7]) ((rtR P [5, 7]).member g.toNat), fun g _ => first (rtS P [5, 7]) (rtR P [5, 7]) g.toNat, fun b => b, fun _ => [], fun _ => 17, -2955⟩

abbrev rkRest : Rest Gen := rkRestOf keyP

def rkCfg (p : Bool) : Cfg Gen := keyCfg (ktStarted p) rkRest

/-- What is said to member `x`. The first message is from outside. -/
def rkSaid (P : List Nat) (x : Nat) : List (Message Dto) :=
  ⟨7, 0, x, idOf 45000000 0, 1, .other⟩ ::
  ((others P x).map fun (a : Nat) => (⟨a, 0, x, idOf 45000000 0, 1, dtoOf .deal dealToDto ((net (rtS P [5, 7]) (rtR P [5, 7]) P).deal a x)⟩ : Message Dto)) ++
  ((otherResps P x).map fun p => ⟨p.2, 0, x, idOf 45000000 0, 2, .response ((net (rtS P [5, 7]) (rtR P [5, 7]) P).resp p.1 p.2)⟩) ++
  ((others P x).map fun (a : Nat) => ⟨a, 0, x, idOf 45000000 0, 5, dtoOf .commits commitsToDto ((net (rtS P [5, 7]) (rtR P [5, 7]) P).commits a)⟩)

/-- The messages of a stage come in, and go to the runs. -/
def rkTake (P : List Nat) (p : Bool) (op : Int) : List Ev :=
  (ktGuests p).flatMap fun x =>
    ((rkSaid P x).filter (·.op = op)).map (fun m => .prog (.net m)) ++
    ((rkSaid P x).filter (·.op = op)).flatMap fun _ => List.replicate 3 (.prog (.cons (0, x)))

/-- What happens in the processes, part by part, after the first part. -/
def rkParts (P : List Nat) : List (Bool → List Ev) :=
  ((nkParts [0, 1, 2]).drop 1).take 2 ++ [fun p => rkTake P p 1, fun p => ktStage p 200, fun p => rkTake P p 2, fun p => ktStage p 275, fun p => ktStage p 350,
    fun p => ktStage p 375, fun p => rkTake P p 5] ++ (nkParts [0, 1, 2]).drop 10

/-- What happens in a process. -/
def rkHistory (p : Bool) : List Ev := ((nkParts [0, 1, 2]).take 1 ++ rkParts keyP ++ [nkTaken]).flatMap fun f => f p

def rkRun (p : Bool) : Outcome (Sys Gen) := Verif.KeyProgram.run (rkCfg p) (Verif.KeyProgram.init (rkCfg p)) (rkHistory p)

/-- Where it has got to. -/
def rkSys (p : Bool) : Sys Gen :=
  match rkRun p with
  | .ok s => s
  | _ => Verif.KeyProgram.init (rkCfg p)

/-- A message that is fine for whom it is for. -/
def rtFine (m : Message Dto) : Bool := completeB m.dto && decide (m.sender ≠ m.rcpt)

theorem rtFine_sound {m : Message Dto} (h : rtFine m = true) : Fine m := by
  rw [rtFine, Bool.and_eq_true, decide_eq_true_eq] at h
  exact ⟨completeB_sound h.1, fun i hi x _ e => h.2 (by rw [e, hi])⟩

def rkCheck1 (p : Bool) : Bool :=
  kpPrompt (rkCfg p) (Verif.KeyProgram.init (rkCfg p)) (rkHistory p) &&
  (rkHistory p).all (fun e => match e with | .prog (.net m) => rtFine m | _ => true) &&
  match rkRun p with
  | .ok s => decide (s.prog.node.fw.now = 625) && kpQuiet (rkCfg p) s && decide (s.file = some (ktFile p))
  | _ => false

theorem rkCheck1_false : rkCheck1 false = true := by decide +kernel

theorem rkCheck1_true : rkCheck1 true = true := by decide +kernel

theorem rkRun_eq (p : Bool) : rkRun p = Verif.KeyProgram.run (rkCfg p) (Verif.KeyProgram.init (rkCfg p)) (rkHistory p) := rfl

theorem rk_fit (p : Bool) : Verif.KeyProgram.Fit (rkCfg p) :=
  ⟨KeyProgram.inj (by cases p <;> (show (0 : Int) ≤ 100000000; decide)) (by show (0 : Int) ≤ 1525000000; decide),
   by rw [show (rkCfg p).base.guests = (ktGuests p).map Int.ofNat by cases p <;> rfl]; cases p <;> decide⟩

theorem rk_facts (p : Bool) : Verif.KeyProgram.run (rkCfg p) (Verif.KeyProgram.init (rkCfg p)) (rkHistory p) = .ok (rkSys p) ∧
    Spec.KeyProgram.Prompt (rkCfg p) (rkHistory p) ∧ (rkSys p).prog.node.fw.now = 625 ∧ Spec.KeyProgram.Settled (rkCfg p) (rkSys p) ∧
    (rkSys p).file = some (ktFile p) ∧ ∀ m, .prog (.net m) ∈ rkHistory p → Fine m := by
  have h : rkCheck1 p = true := by
    cases p
    exacts [rkCheck1_false, rkCheck1_true]
  rw [rkCheck1, Bool.and_eq_true, Bool.and_eq_true] at h
  obtain ⟨⟨h1, h3⟩, h2⟩ := h
  rw [rkSys]
  cases hr : rkRun p with
  | panic => rw [hr] at h2; cases h2
  | err => rw [hr] at h2; cases h2
  | ok s =>
    rw [hr] at h2
    dsimp only at h2 ⊢
    rw [Bool.and_eq_true, Bool.and_eq_true] at h2
    rw [rkRun_eq] at hr
    have hR : Verif.KeyProgram.Reach (rkCfg p) s := ⟨_, hr⟩
    exact ⟨hr, kp_prompt (rk_fit p) h1, of_decide_eq_true h2.1.1, kp_quiet (hR.known (rk_fit p)) h2.1.2, of_decide_eq_true h2.2,
      fun m hm => rtFine_sound (List.all_eq_true.1 h3 _ hm)⟩

/-- What happens in the processes and in the network. -/
def rkEvents : List (Network.Ev Bool Ev) :=
  let part := nkPart [false, true] nxHost fun p => p
  ((nkParts [0, 1, 2]).take 1).flatMap part ++ nxDial nxHost [0, 1, 2] 0 ++ (rkParts keyP ++ [nkTaken]).flatMap part

def rkNet : Network.Net Bool (Sys Gen) Ev := Network.keyNet rkCfg (fun p => (ktStarted p).callers) fun p => (ktStarted p).listen

def rtRoom (s : Program.Sys Gen) (m : Message Dto) : Bool := decide ((s.node.queues (m.pc, m.rcpt)).length < Node.rcvBufMax)

def rkCheck2 : Bool := nxAlone rkEvents &&
  Network.check rkNet (fun s => s.prog.node.fw.now) (fun s m => rtRoom s.prog m) (Network.queues rkNet [false, true])
    (fun S => [false, true].all fun p => decide (S.hist p = rkHistory p)) (Network.init rkNet) rkEvents

theorem rkCheck2_ok : rkCheck2 = true := by decide +kernel

theorem rkCheck2_eq : rkCheck2 = (nxAlone rkEvents &&
  Network.check rkNet (fun s => s.prog.node.fw.now) (fun s m => rtRoom s.prog m) (Network.queues rkNet [false, true])
    (fun S => [false, true].all fun p => decide (S.hist p = rkHistory p)) (Network.init rkNet) rkEvents) := rfl

attribute [local irreducible] rkSys rkRun rkHistory rkEvents

theorem rk_start (p : Bool) : start rkWorld (ktCmd p) = .ok (ktStarted p) := by
  cases p
  · simp only [start, kt_secrets]; decide +kernel
  · have : loadSecrets (ktCmd true).secdir (ktCmd true).secnames = .ok [2] := sx_secrets1
    simp only [start, this]; decide +kernel

/-- The two processes. -/
def rkCast : Cast Bool Gen := ⟨fun _ => rkWorld, ktCmd, fun _ => exHosts, ktStarted, fun _ => rkRest, rkHistory, rkSys⟩

theorem rk_together : Together rkCast 0 3 45000000 where
  punctual p := ⟨exSort_contract, by cases p <;> exact ⟨rfl, by decide⟩, rk_start p, by cases p <;> (show (0 : Int) ≤ 100000000; decide),
    by cases p <;> (show (-2955 : Int) ≤ 45000000 / 1000000 + 55; decide), (rk_facts p).1, (rk_facts p).2.1⟩
  files _ := by show (files exHosts).length = 3; decide
  drop p := by cases p <;> rfl
  once := kt_once
  over p := by
    show (45000000 : Int) / 1000000 + 580 + 1525 * ((0 : Nat) : Int) ≤ (rkSys p).prog.node.fw.now
    rw [(rk_facts p).2.2.1]; decide
  hosts := kt_together.hosts

theorem rk_online : rkCast.Online (idOf 45000000 0) rkEvents := by
  have h := rkCheck2_eq.symm.trans rkCheck2_ok
  rw [Bool.and_eq_true] at h
  refine ⟨?_, Network.check_works (fun _ _ h => by
    rw [rtRoom, decide_eq_true_eq] at h; exact h) (fun _ _ _ h => Network.mem_queues (by decide) h) h.2,
    fun _ _ hm _ _ hp => (nx_alone h.1 hm hp).elim⟩
  obtain ⟨S, h1, h2⟩ := Network.check_run h.2
  rw [List.all_eq_true] at h2
  have hh : ∀ p, S.hist p = rkHistory p := fun p => of_decide_eq_true (h2 p (by cases p <;> decide))
  refine ⟨S, h1, hh, fun p => ?_⟩
  have := Network.key_hist (c := rkCfg) h1 p
  rw [hh] at this
  exact Outcome.ok.inj (this.symm.trans (rk_facts p).1)

end

theorem rt_keys (p : Bool) : memberPubs (ktStarted p).layout.members = [1, 2, 3].map (timesAdd base) := by
  cases p <;> decide +kernel

theorem rt_guests {p : Bool} {x : Nat} {e : Guest} (h : (ktStarted p).guests.get? x = some e) : x < 3 ∧ ((x : Nat) : Int) + 1 = e.sec := by
  have hm := (GoMap.mem_iff_get? (by cases p <;> decide) _ _).2 h
  cases p
  · rcases (show (x, e) = (2, ⟨2, 3, timesAdd base 3, 0, "10.0.0.1:1"⟩) ∨ (x, e) = (0, ⟨0, 1, timesAdd base 1, 0, "10.0.0.1:1"⟩) by
      simpa [ktStarted] using hm) with h | h <;> (cases h; exact ⟨by decide, by decide⟩)
  · have h : (x, e) = (1, ⟨1, 2, timesAdd base 2, 1, sxAddr 1⟩) := by simpa [ktStarted, kxStarted, sxStarted] using hm
    cases h; exact ⟨by decide, by decide⟩

theorem rk_kyber (objs : Bool → List Registry.Obj) : Kyber rkCast.st rkCast.rest objs keyS keyR 0 (idOf 45000000 0) where
  keys := rt_keys
  threshold p := by cases p <;> rfl
  secret p x e h := (rt_guests h).2
  gen p x r o hx _ _ := by
    obtain ⟨e, he⟩ := Option.isSome_iff_exists.1 ((GoMap.get?_isSome_iff _ _).2 hx)
    have h3 := (rt_guests he).1
    exact ⟨rfl, newGen_able (rt_able key_fair (List.mem_range.2 h3) h3)⟩

theorem rk_noZero : NoZero keyR keyP := by
  rw [NoZero, key_total]; decide

/-- Both processes meet the hypotheses of C120 for keys, with messages of all kinds. -/
example (p : Bool) : (∀ e, Verif.KeyProgram.step (rkCfg p) (rkSys p) e ≠ .panic) ∧
    ∃ (lts : GoMap Int KeyShare) (f : GoMap Int DksDTO), (rkSys p).file = some f ∧ saveLongterms lts = .ok f ∧
      ∀ x ∈ (ktStarted p).guests.keys, lts.get? (x : Int) = some ⟨⟨x, peval [5, 7] (x + 1) % secp256k1N⟩, [5, 7].map (timesAdd base)⟩ := by
  obtain ⟨h1, h2⟩ := C120_keys rk_together nk_wired rk_online (rk_kyber _) key_fair (by decide) rk_noZero p (by cases p <;> decide)
    (R' := fun _ _ => keyR) (T' := 2) (fun g hg r => by
      obtain ⟨x, hx, rfl⟩ := List.mem_map.1 hg
      obtain ⟨e, he⟩ := Option.isSome_iff_exists.1 ((GoMap.get?_isSome_iff _ _).2 hx)
      have h3 := (rt_guests he).1
      have ha := rt_able key_fair (List.mem_range.2 h3) h3
      exact ⟨x, rfl, ha, rfl, by cases p <;> rfl, rfl, newGen_able ha⟩) (rk_facts p).2.2.2.2.2
  obtain ⟨lts, f, h3, h4, _, h5⟩ := h2 (rk_facts p).2.2.2.1
  rw [key_total] at h5
  exact ⟨h1, lts, f, h3, h4, h5⟩

/-! The first process makes long-term keys without the other. -/

section
open Verif.KeyProgram (Cfg Ev Sys)

def raCfg : Cfg Gen := keyCfg (ktStarted false) (rkRestOf sigP)

def raHistory : List Ev := ((nkParts [0, 1, 2]).take 1 ++ rkParts sigP).flatMap fun f => f false

def raRun : Outcome (Sys Gen) := Verif.KeyProgram.run raCfg (Verif.KeyProgram.init raCfg) raHistory

/-- The state of a run that comes to an end. -/
def raReached (r : Outcome (Sys Gen)) : Sys Gen :=
  match r with
  | .ok s => s
  | _ => Verif.KeyProgram.init raCfg

/-- Where it has got to. -/
def raSys : Sys Gen := raReached raRun

/-- What happens in it and in the network. -/
def raEvents : List (Network.Ev Unit Ev) :=
  let part := nkPart [()] (fun _ => ()) fun _ => false
  ((nkParts [0, 1, 2]).take 1).flatMap part ++ nxDial (fun _ => ()) sigP 0 ++ (rkParts sigP).flatMap part

def raNet : Network.Net Unit (Sys Gen) Ev := Network.keyNet (fun _ => raCfg) (fun _ => (ktStarted false).callers) fun _ => (ktStarted false).listen

/-- It has nothing left to do but to take the output of a run. -/
def raCheck1 : Bool :=
  kpPrompt raCfg (Verif.KeyProgram.init raCfg) raHistory &&
  raHistory.all (fun e => match e with | .prog (.net m) => rtFine m | _ => true) &&
  match raRun with
  | .ok s => decide (s.prog.node.fw.now = 625) && kpIdle raCfg s && decide (s.main.pc = .collecting ∧ s.main.done = []) &&
    sigP.all fun x => match Verif.KeyProgram.step raCfg s (.main ((x : Nat) : Int)) with
      | .panic => true
      | _ => false
  | _ => false

def raCheck2 : Bool := nxAlone raEvents &&
  Network.check raNet (fun s => s.prog.node.fw.now) (fun s m => rtRoom s.prog m) (Network.queues raNet [()])
    (fun S => decide (S.hist () = raHistory)) (Network.init raNet) raEvents

theorem raCheck_ok : (raCheck1 && raCheck2) = true := by decide +kernel

theorem raRun_eq : raRun = Verif.KeyProgram.run raCfg (Verif.KeyProgram.init raCfg) raHistory := rfl

theorem raCheck2_eq : raCheck2 = (nxAlone raEvents &&
  Network.check raNet (fun s => s.prog.node.fw.now) (fun s m => rtRoom s.prog m) (Network.queues raNet [()])
    (fun S => decide (S.hist () = raHistory)) (Network.init raNet) raEvents) := rfl

theorem raSys_eq {s : Sys Gen} (h : raRun = .ok s) : raSys = s := by
  show raReached raRun = s
  rw [h]
  rfl

theorem ra_fit : Verif.KeyProgram.Fit raCfg :=
  ⟨KeyProgram.inj (show (0 : Int) ≤ 100000000 by decide) (show (0 : Int) ≤ 1525000000 by decide), by show [(2 : Int), 0].Nodup; decide⟩

attribute [local irreducible] raSys raRun raHistory raEvents

theorem ra_facts : Verif.KeyProgram.run raCfg (Verif.KeyProgram.init raCfg) raHistory = .ok raSys ∧ Spec.KeyProgram.Prompt raCfg raHistory ∧
    (∀ m, .prog (.net m) ∈ raHistory → Fine m) ∧
    raSys.prog.node.fw.now = 625 ∧ kpIdle raCfg raSys = true ∧ raSys.main.pc = .collecting ∧ raSys.main.done = [] ∧
    ∀ x ∈ sigP, Verif.KeyProgram.step raCfg raSys (.main ((x : Nat) : Int)) = .panic := by
  have h := ((Bool.and_eq_true _ _).mp raCheck_ok).1
  rw [raCheck1, Bool.and_eq_true, Bool.and_eq_true] at h
  obtain ⟨⟨h1, h2⟩, h3⟩ := h
  cases hr : raRun with
  | panic => rw [hr] at h3; cases h3
  | err => rw [hr] at h3; cases h3
  | ok s =>
    rw [hr] at h3
    dsimp only at h3
    rw [Bool.and_eq_true, Bool.and_eq_true, Bool.and_eq_true, decide_eq_true_eq, decide_eq_true_eq] at h3
    rw [raSys_eq hr]
    refine ⟨raRun_eq.symm.trans hr, kp_prompt ra_fit h1, fun m hm => rtFine_sound (List.all_eq_true.1 h2 _ hm), h3.1.1.1, h3.1.1.2, h3.1.2.1, h3.1.2.2,
      fun x hx => ?_⟩
    have h4 := List.all_eq_true.1 h3.2 x hx
    cases hp : Verif.KeyProgram.step raCfg s (.main ((x : Nat) : Int)) with
    | panic => rfl
    | err => rw [hp] at h4; cases h4
    | ok _ => rw [hp] at h4; cases h4

/-- The process with its files. -/
def raCast : Cast Unit Gen :=
  ⟨fun _ => rkWorld, fun _ => ktCmd false, fun _ => exHosts, fun _ => ktStarted false, fun _ => rkRestOf sigP, fun _ => raHistory, fun _ => raSys⟩

theorem ra_meeting : Meeting raCast 0 3 45000000 where
  punctual _ := ⟨exSort_contract, ⟨rfl, by show (files exHosts).Nodup; decide⟩, rk_start false, by show (0 : Int) ≤ 100000000; decide,
    by show (-2955 : Int) ≤ 45000000 / 1000000 + 55; decide, ra_facts.1, ra_facts.2.1⟩
  files _ := by show (files exHosts).length = 3; decide
  drop _ := rfl
  once _ _ _ _ _ := rfl
  over _ := by
    show (45000000 : Int) / 1000000 + 580 + 1525 * ((0 : Nat) : Int) ≤ raSys.prog.node.fw.now
    rw [ra_facts.2.2.2.1]; decide

theorem ra_wired : Wired raCast.a raCast.entries raCast.st [timesAdd base 3, timesAdd base 1, timesAdd base 2] :=
  ⟨⟨_, fun _ => rfl⟩, fun _ => nk_wired.keys false, nk_wired.nodup, fun _ _ _ _ _ => rfl⟩

theorem ra_online : raCast.Online (idOf 45000000 0) raEvents := by
  have h := raCheck2_eq.symm.trans ((Bool.and_eq_true _ _).mp raCheck_ok).2
  rw [Bool.and_eq_true] at h
  refine ⟨?_, Network.check_works (fun _ _ h => by
    rw [rtRoom, decide_eq_true_eq] at h; exact h) (fun _ _ _ h => Network.mem_queues (fun _ => List.mem_singleton.2 rfl) h) h.2,
    fun _ _ hm _ _ hp => (nx_alone h.1 hm hp).elim⟩
  obtain ⟨S, h1, h2⟩ := Network.check_run h.2
  have hh : ∀ p, S.hist p = raHistory := fun p => of_decide_eq_true h2
  refine ⟨S, h1, hh, fun p => ?_⟩
  have := Network.key_hist (c := fun _ => raCfg) h1 p
  rw [hh] at this
  exact Outcome.ok.inj (this.symm.trans ra_facts.1)

theorem ra_fair : Fair (rtS sigP [5, 7]) (rtR sigP [5, 7]) sigP := rt_fair (by decide) rfl (by decide)

theorem ra_guest {x : Nat} (hx : x ∈ (ktStarted false).guests.keys) : x ∈ sigP ∧ x < 3 := by
  have : ∀ x ∈ (ktStarted false).guests.keys, x ∈ sigP ∧ x < 3 := by decide
  exact this x hx

theorem ra_kyber (objs : Unit → List Registry.Obj) : Kyber raCast.st raCast.rest objs (rtS sigP [5, 7]) (rtR sigP [5, 7]) 0 (idOf 45000000 0) where
  keys _ := rt_keys false
  threshold _ := rfl
  secret _ _ _ h := (rt_guests (p := false) h).2
  gen _ _ _ _ hx _ _ := ⟨rfl, newGen_able (rt_able ra_fair (ra_guest hx).1 (ra_guest hx).2)⟩

/-- It has no keys, and all that is left is to panic: it meets the hypotheses of C120 when a member is missing. -/
example : raSys.file = none ∧ ∃ x ∈ [2, 0], Verif.KeyProgram.step raCfg raSys (.main ((x : Nat) : Int)) = .panic := by
  have hP : ∀ x, x ∈ sigP ↔ ∃ p, x ∈ (raCast.st p).guests.keys := fun x => ⟨fun h => ⟨(), h⟩, fun ⟨_, h⟩ => (ra_guest h).1⟩
  have hy : Members (programCfg (raCast.st ()) (raCast.rest ())) (rtS sigP [5, 7]) (fun _ _ => rtR sigP [5, 7]) 2 := fun g hg r => by
    obtain ⟨x, hx, rfl⟩ := List.mem_map.1 hg
    have ha := rt_able ra_fair (ra_guest hx).1 (ra_guest hx).2
    exact ⟨x, rfl, ha, rfl, rfl, rfl, newGen_able ha⟩
  obtain ⟨h1, _, h2⟩ := C120_absent ra_meeting ra_wired ra_online (ra_kyber _) (by decide) hP ra_fair (by decide) (x := 1) (by decide) (by decide) () (by
    show [2, 0] ≠ []; decide) hy ra_facts.2.2.1
  refine ⟨h1, h2 fun e he s' => ?_⟩
  show Verif.KeyProgram.step raCfg raSys e ≠ _
  obtain ⟨g1, _, _, _, g2, g3, g4, g5⟩ := ra_facts
  have hf : ¬ raSys.file.isSome = true := by
    have h1 : raSys.file = none := h1
    rw [h1]; exact nofun
  cases e with
  | prog e =>
    rw [kp_idle (Verif.KeyProgram.Reach.known ⟨_, g1⟩ ra_fit) g2 e he]
    exact nofun
  | check o =>
    rw [Verif.KeyProgram.step, if_neg hf]
    show Verif.KeyProgram.checkStep raCfg raSys o ≠ _
    rw [Verif.KeyProgram.checkStep, if_neg (by rw [g3]; rintro ⟨h, _⟩; cases h)]
    exact nofun
  | main g =>
    by_cases hg : g ∈ raCfg.base.guests
    · obtain ⟨x, hx, rfl⟩ := List.mem_map.1 hg
      rw [g5 x (ra_guest hx).1]; exact nofun
    · rw [Verif.KeyProgram.step, if_neg hf]
      show Verif.KeyProgram.mainStep raCfg raSys g ≠ _
      rw [Verif.KeyProgram.mainStep, g3]
      dsimp only
      rw [if_neg (by rw [g4]; show ¬ ([(2 : Int), 0].all fun g => decide (g ∈ ([] : List Int))) = true; decide),
        if_neg (by rw [Bool.and_eq_true, decide_eq_true_eq]; exact fun h => hg h.1)]
      exact nofun

end

/-! The first process signs. -/

section
open Verif.Program (Cfg Ev Sys)
open Verif.Spec.Program (requests)

def rsWorld : World Gen := { rkWorld with parse := stWorld.parse, now := stWorld.now }

def rsRest : Rest Gen :=
  ⟨fun g _ => kyb sigS (sigR.member g.toNat), fun g _ => first sigS sigR g.toNat, sumHash, exSH, fun _ => 17, 2045⟩

def rsCfg : Cfg Gen := programCfg (stStarted false) rsRest

/-- What is said to member `x`. The first message is from outside. -/
def rsSaid (x : Nat) : List (Message Dto) :=
  ⟨7, 1, x, jobId stJob, 1, .other⟩ ::
  ((others sigP x).map fun (a : Nat) => (⟨a, 1, x, jobId stJob, 1, dtoOf .deal dealToDto ((net sigS sigR sigP).deal a x)⟩ : Message Dto)) ++
  ((otherResps sigP x).map fun p => ⟨p.2, 1, x, jobId stJob, 2, .response ((net sigS sigR sigP).resp p.1 p.2)⟩) ++
  ((others sigP x).map fun (a : Nat) => ⟨a, 1, x, jobId stJob, 5, dtoOf .commits commitsToDto ((net sigS sigR sigP).commits a)⟩) ++
  ((others sigP x).map fun (a : Nat) => { agMsg a x with runId := jobId stJob })

/-- The messages of a stage come in, and go to the runs. -/
def rsTake (op : Int) : List Ev :=
  sigP.flatMap fun x =>
    ((rsSaid x).filter (·.op = op)).map .net ++ ((rsSaid x).filter (·.op = op)).flatMap fun _ => List.replicate 3 (.cons (1, x))

/-- What happens in the process, part by part, after the first part. -/
def rsParts : List (Bool → List Ev) :=
  ((nxParts sigP).drop 1).take 2 ++ [fun _ => rsTake 1, fun p => stStage p 1, fun _ => rsTake 2, fun p => stStage p 2, fun p => stStage p 3,
   fun p => stStage p 4, fun _ => rsTake 5, fun p => stStage p 5, fun p => stStage p 6, fun p => stStage p 7, fun p => stStage p 8,
   fun p => stStage p 9, fun _ => rsTake 10] ++ (nxParts sigP).drop 16

/-- What happens in the process. -/
def rsHistory : List Ev := ((nxParts sigP).take 1 ++ rsParts).flatMap fun f => f false

def rsRun : Outcome (Sys Gen) := Verif.Program.run rsCfg (Verif.Program.init rsCfg) rsHistory

/-- The state of a run that comes to an end. -/
def reached (r : Outcome (Sys Gen)) : Sys Gen :=
  match r with
  | .ok s => s
  | _ => Verif.Program.init rsCfg

/-- Where it has got to. -/
def rsSys : Sys Gen := reached rsRun

def rsCheck1 : Bool :=
  decide (rsHistory.head? = some (.request stJob)) && decide (requests rsHistory = [stJob]) && promptFrom rsCfg (Verif.Program.init rsCfg) rsHistory &&
  match rsRun with
  | .ok s => decide (s.node.fw.now = 5751)
  | _ => false

theorem rsCheck1_ok : rsCheck1 = true := by decide +kernel

theorem rsRun_eq : rsRun = Verif.Program.run rsCfg (Verif.Program.init rsCfg) rsHistory := rfl

theorem rs_read : ∃ h, rsHistory = .request stJob :: h := by
  have h := rsCheck1_ok
  rw [rsCheck1, Bool.and_eq_true, Bool.and_eq_true, Bool.and_eq_true] at h
  replace h : rsHistory.head? = some (.request stJob) := of_decide_eq_true h.1.1.1
  cases hr : rsHistory with
  | nil => rw [hr] at h; cases h
  | cons e l => rw [hr] at h; cases h; exact ⟨l, rfl⟩

theorem rsSys_eq {s : Sys Gen} (h : rsRun = .ok s) : rsSys = s := by
  show reached rsRun = s
  rw [h]
  rfl

attribute [local irreducible] rsSys rsRun rsHistory

theorem rs_facts : requests rsHistory = [stJob] ∧ Verif.Program.run rsCfg (Verif.Program.init rsCfg) rsHistory = .ok rsSys ∧
    Spec.Program.Prompt rsCfg rsHistory ∧ rsSys.node.fw.now = 5751 := by
  have h := rsCheck1_ok
  rw [rsCheck1, Bool.and_eq_true, Bool.and_eq_true, Bool.and_eq_true] at h
  obtain ⟨⟨⟨_, h0⟩, h1⟩, h2⟩ := h
  have hq : requests rsHistory = [stJob] := of_decide_eq_true h0
  cases hr : rsRun with
  | panic => rw [hr] at h2; cases h2
  | err => rw [hr] at h2; cases h2
  | ok s =>
    rw [hr] at h2
    dsimp only at h2
    rw [rsSys_eq hr]
    exact ⟨hq, rsRun_eq.symm.trans hr, prompt_from (by show [(2 : Int), 0].Nodup; decide) (by rw [hq]; exact List.nodup_singleton _) h1, of_decide_eq_true h2⟩

/-- What happens in it and in the network. -/
def rsEvents : List (Network.Ev First Ev) :=
  let part := nxPart (fun _ => KeyStart.first) [KeyStart.first] (Subtype.val : First → Bool)
  ((nxParts sigP).take 1).flatMap part ++ nxDial (fun _ => KeyStart.first) sigP 1 ++ rsParts.flatMap part

def rsNet : Network.Net First (Sys Gen) Ev := Network.signNet (fun _ => rsCfg) (fun _ => (stStarted false).callers) fun _ => (stStarted false).listen

def rsCheck2 : Bool := nxAlone rsEvents &&
  Network.check rsNet (fun s => s.node.fw.now) rtRoom (Network.queues rsNet [KeyStart.first]) (fun S => decide (S.hist KeyStart.first = rsHistory))
    (Network.init rsNet) rsEvents

theorem rsCheck2_ok : rsCheck2 = true := by decide +kernel

theorem rsCheck2_eq : rsCheck2 = (nxAlone rsEvents &&
  Network.check rsNet (fun s => s.node.fw.now) rtRoom (Network.queues rsNet [KeyStart.first]) (fun S => decide (S.hist KeyStart.first = rsHistory))
    (Network.init rsNet) rsEvents) := rfl

attribute [local irreducible] rsEvents

theorem rs_start : start rsWorld (signCmd (ktCmd false) (ktFile false) "u") = .ok (stStarted false) := by
  simp only [start, signCmd, kt_secrets]; decide +kernel

theorem rs_in_time : InTime rsCfg rsHistory rsSys stJob := by
  obtain ⟨hq, h1, h2, h3⟩ := rs_facts
  obtain ⟨h, e⟩ := rs_read
  exact ⟨h1, by rw [hq]; exact List.nodup_singleton _, h2, by show (5045 : Int) ≤ 5100; decide,
    ⟨[], h, _, e, rfl, by show (2045 : Int) ≤ 5100; decide⟩, by rw [h3]; decide⟩

/-- The first process, when it signs. -/
def rsSigners : Signers First Gen :=
  rkCast.again Subtype.val ktFile (fun _ => rsWorld) (fun _ => "u") (fun _ => stStarted false) (fun _ => rsRest) (fun _ => rsHistory) fun _ => rsSys

theorem rs_online : rsSigners.Online stJob rsEvents := by
  have h := rsCheck2_eq.symm.trans rsCheck2_ok
  rw [Bool.and_eq_true] at h
  refine ⟨?_, Network.check_works (fun _ _ h => by
    rw [rtRoom, decide_eq_true_eq] at h; exact h) (fun _ _ _ h => Network.mem_queues (fun p => List.mem_singleton.2 (eq_first p)) h) h.2,
    fun _ _ hm _ _ _ hp => (nx_alone h.1 hm hp).elim⟩
  obtain ⟨S, h1, h2⟩ := Network.check_run h.2
  have hh : ∀ p, S.hist p = rsHistory := fun p => by rw [eq_first p]; exact of_decide_eq_true h2
  refine ⟨S, h1, hh, fun p => ?_⟩
  have := Network.sign_hist (c := fun _ => rsCfg) h1 p
  rw [hh] at this
  exact Outcome.ok.inj (this.symm.trans rs_facts.2.1)

theorem rs_kyber (objs : First → List Registry.Obj) :
    Kyber (fun _ : First => stStarted false) (fun _ => rsRest) objs sigS sigR 1 (jobId stJob) where
  keys _ := rt_keys false
  threshold _ := rfl
  secret _ _ _ h := (rt_guests (p := false) h).2
  gen _ x _ _ hx _ _ := ⟨rfl, newGen_able (rt_able sig_fair hx (by
    have : ∀ x ∈ (stStarted false).guests.keys, x < 3 := by decide
    exact this x hx))⟩

/-- They meet the hypotheses of C120 for signing without the other process. The members had chosen the secrets 3, 1 and 1. -/
example : ∃ (sig : Schnorr.Sig) (b : Program.JobSt), Schnorr.verify sumHash (.pt (timesAdd base 5)) 9 sig = .ok () ∧
    b ∈ rsSys.jobs ∧ b.lines.Perm [(2, some sig), (0, some sig)] := by
  obtain ⟨f, h1, h2⟩ := C120_any_quorum rk_together nk_wired rk_online (rk_kyber _) key_fair (by decide) rk_noZero (fun p => by cases p <;> decide)
    (fun p => (rk_facts p).2.2.2.1)
  have hf : f = ktFile := by
    funext p
    exact Option.some.inj ((h1 p).symm.trans (rk_facts p).2.2.2.2.1)
  subst hf
  obtain ⟨st, h3, h4⟩ := h2 {false} (fun _ => rsWorld) (fun _ => "u") (fun _ => ⟨rfl, rfl, rfl, .inr ⟨_, rfl⟩⟩)
  have hst : st = fun _ => stStarted false := by
    funext p
    have h := (h3 p).1
    rw [eq_first p] at h ⊢
    exact Outcome.ok.inj (h.symm.trans rs_start)
  subst hst
  obtain ⟨sig, hv, h⟩ := h4 (fun _ => rsRest) (fun _ => rsHistory) (fun _ => rsSys) stJob sigP sigS sigR sumHash exSH sumHash_length (fun _ => ⟨rfl, rfl⟩)
    (fun _ => rs_in_time) ⟨by decide, by decide⟩ (by decide)
    (fun x => ⟨fun hx => ⟨false, Finset.mem_singleton_self _, hx⟩, fun ⟨p, hp, hx⟩ => by
      rw [Finset.mem_singleton.1 hp] at hx; exact hx⟩) (by decide) rfl (rs_kyber _) sig_fair _ rs_online
  obtain ⟨b, hb, _, _, h5⟩ := h KeyStart.first
  exact ⟨sig, b, hv, hb, h5⟩

end

end Verif.Props.RabinTogether
