import Verif.Props.Quorum
import Verif.Props.KeyAbsent
import Verif.Props.NetworkExample

/-!
C104 and C105 are not vacuous: of the two processes of `Verif.Props.NetworkExample` the first, with two of the three members, signs without the other;
but it cannot make long-term keys without it.
-/
namespace Verif.Props.KeyStart
open Verif.Prot Verif.Layout Verif.Dto Verif.Dss Verif.Dkg Verif.Signode Verif.Tables Verif.Start Verif.Props Verif.Spec.Prot Verif.Spec.Signode
open Verif.Spec.Generation Verif.Props.Start Verif.Point
open Verif.Props.Program (stGuests stWorld stStarted stRest stCfg stJob stHistory stSys nxDial nxHistory nxRoom nx_room nxAlone nx_alone)
open Verif.Props.Generation (Toy toyNet toyKyb toy0 toy_generates toy_proper)
open Verif.KeyProgram (Sys Ev Cfg)

attribute [local irreducible] nkHistory ktHistory ktSys nxHistory stHistory stSys

/-- They meet the hypotheses of C104. -/
example : ∃ (sig : Schnorr.Sig) (b : Program.JobSt), Schnorr.verify Program.sumHash (.pt (timesAdd base 5)) 9 sig = .ok () ∧
    b ∈ (stSys [2, 0] false).jobs ∧ b.lines.Perm [(2, some sig), (0, some sig)] := by
  obtain ⟨f, h1, h2⟩ := C104_any_quorum kt_together nk_wired nk_online (toy_proper (by decide) (by decide)) kt_generating kt_savable
    (fun p => by cases p <;> decide) (fun p => (kt_facts p).2.2.2.1) (ls := [5, 7]) (fun x hx => kt_shares hx) (T := 2) (fun p => by cases p <;> rfl)
    (by decide)
  have hf : f = ktFile := by
    funext p
    exact Option.some.inj ((h1 p).symm.trans (kt_facts p).2.2.2.2.2)
  subst hf
  obtain ⟨st, h3, h4⟩ := h2 {false} (fun _ => stWorld) (fun _ => "u") (fun _ => st_again)
  have hst : st = fun p : First => stStarted p.1 := by
    funext p
    exact Outcome.ok.inj ((h3 p).1.symm.trans (st_start p.1))
  subst hst
  obtain ⟨sig, hv, h⟩ := h4 (fun _ => stRest [2, 0]) (fun p => stHistory [2, 0] p.1) (fun p => stSys [2, 0] p.1) stJob [11, 13] (toyNet [2, 0] [11, 13])
    Program.sumHash exSH sumHash_length (fun _ => ⟨rfl, rfl⟩) (st_in_time st_alone) ⟨by decide, by decide⟩ (by decide) [2, 0] (by decide) (by decide)
    (fun x hx => ⟨false, Finset.mem_singleton_self _, hx⟩) (st_generating st_alone) _ nx_first
  obtain ⟨b, hb, _, _, h5⟩ := h first
  exact ⟨sig, b, hv, hb, h5⟩

/-! The first process makes long-term keys without the other. -/

def kaCfg : Cfg Toy := keyCfg (ktStarted false) (ktRestOf [2, 0])

def kaHistory : List Ev := ktPrefix [2, 0] false

def kaRun : Outcome (Sys Toy) := Verif.KeyProgram.run kaCfg (Verif.KeyProgram.init kaCfg) kaHistory

/-- Where it has got to. -/
def kaSys : Sys Toy :=
  match kaRun with
  | .ok s => s
  | _ => Verif.KeyProgram.init kaCfg

def kaNet : Network.Net Unit (Sys Toy) Ev := Network.keyNet (fun _ => kaCfg) (fun _ => (ktStarted false).callers) fun _ => (ktStarted false).listen

/-- What happens in it and in the network. -/
def kaEvents : List (Network.Ev Unit Ev) :=
  let part := nkPart [()] (fun _ => ()) fun _ => false
  ((nkParts [2, 0]).take 1).flatMap part ++ nxDial (fun _ => ()) [2, 0] 0 ++ ((nkParts [2, 0]).drop 1).flatMap part

/-- It has nothing left to do but to take the output of a run. -/
def kaCheck1 : Bool :=
  kpPrompt kaCfg (Verif.KeyProgram.init kaCfg) kaHistory &&
  kaHistory.all (fun e => match e with
    | .prog (.net m) => (match m.dto with
      | .response r => r.response.isSome
      | .partsig _ => false
      | _ => true)
    | _ => true) &&
  match kaRun with
  | .ok s => decide (s.prog.node.fw.now = 625) && kpIdle kaCfg s && decide (s.main.pc = .collecting ∧ s.main.done = [])
  | _ => false

def kaCheck2 : Bool :=
  nxAlone kaEvents &&
  Network.check kaNet (fun s => s.prog.node.fw.now) (fun s m => nxRoom s.prog m) (Network.queues kaNet [()])
    (fun S => decide (S.hist () = kaHistory)) (Network.init kaNet) kaEvents

theorem kaCheck_ok : (kaCheck1 && kaCheck2) = true := by decide +kernel

theorem kaRun_eq : kaRun = Verif.KeyProgram.run kaCfg (Verif.KeyProgram.init kaCfg) kaHistory := rfl

theorem kaCheck2_eq : kaCheck2 = (nxAlone kaEvents &&
  Network.check kaNet (fun s => s.prog.node.fw.now) (fun s m => nxRoom s.prog m) (Network.queues kaNet [()])
    (fun S => decide (S.hist () = kaHistory)) (Network.init kaNet) kaEvents) := rfl

theorem ka_fit : Verif.KeyProgram.Fit kaCfg :=
  ⟨KeyProgram.inj (show (0 : Int) ≤ 100000000 by decide) (show (0 : Int) ≤ 1525000000 by decide), by show [(2 : Int), 0].Nodup; decide⟩

theorem ka_facts : Verif.KeyProgram.run kaCfg (Verif.KeyProgram.init kaCfg) kaHistory = .ok kaSys ∧ Spec.KeyProgram.Prompt kaCfg kaHistory ∧
    (∀ m, .prog (.net m) ∈ kaHistory → Complete m.dto) ∧
    kaSys.prog.node.fw.now = 625 ∧ kpIdle kaCfg kaSys = true ∧ kaSys.main.pc = .collecting ∧ kaSys.main.done = [] := by
  have h := ((Bool.and_eq_true _ _).mp kaCheck_ok).1
  rw [kaCheck1, Bool.and_eq_true, Bool.and_eq_true] at h
  obtain ⟨⟨h1, h2⟩, h3⟩ := h
  rw [kaSys]
  cases hr : kaRun with
  | panic => rw [hr] at h3; cases h3
  | err => rw [hr] at h3; cases h3
  | ok s =>
    rw [hr] at h3
    dsimp only at h3 ⊢
    rw [Bool.and_eq_true, Bool.and_eq_true, decide_eq_true_eq, decide_eq_true_eq] at h3
    refine ⟨kaRun_eq.symm.trans hr, kp_prompt ka_fit h1, fun m hm => ?_, h3.1.1, h3.1.2, h3.2.1, h3.2.2⟩
    have h4 := List.all_eq_true.1 h2 _ hm
    dsimp only at h4
    cases hd : m.dto with
    | response r =>
      rw [hd] at h4
      intro e
      dsimp only at h4
      rw [e] at h4; cases h4
    | partsig s =>
      rw [hd] at h4
      cases h4
    | _ => trivial

attribute [local irreducible] kaSys kaRun kaHistory kaEvents

/-- The process with its files. -/
def kaCast : Cast Unit Toy :=
  ⟨fun _ => ktWorld, fun _ => ktCmd false, fun _ => exHosts, fun _ => ktStarted false, fun _ => ktRestOf [2, 0], fun _ => kaHistory, fun _ => kaSys⟩

theorem ka_meeting : Meeting kaCast 0 3 45000000 where
  punctual _ := ⟨exSort_contract, ⟨rfl, by show (files exHosts).Nodup; decide⟩, kt_start false, by show (0 : Int) ≤ 100000000; decide,
    by show (-2955 : Int) ≤ 45000000 / 1000000 + 55; decide, ka_facts.1, ka_facts.2.1⟩
  files _ := by show (files exHosts).length = 3; decide
  drop _ := rfl
  once _ _ _ _ _ := rfl
  over _ := by
    show (45000000 : Int) / 1000000 + 580 + 1525 * ((0 : Nat) : Int) ≤ kaSys.prog.node.fw.now
    rw [ka_facts.2.2.2.1]; decide

theorem ka_wired : Wired kaCast.a kaCast.entries kaCast.st [timesAdd base 3, timesAdd base 1, timesAdd base 2] :=
  ⟨⟨_, fun _ => rfl⟩, fun _ => nk_wired.keys false, nk_wired.nodup, fun _ _ _ _ _ => rfl⟩

theorem ka_online : kaCast.Online (idOf 45000000 0) kaEvents := by
  have h := kaCheck2_eq.symm.trans ((Bool.and_eq_true _ _).mp kaCheck_ok).2
  rw [Bool.and_eq_true] at h
  refine ⟨?_, Network.check_works (fun _ _ h => nx_room h) (fun _ _ _ h => Network.mem_queues (fun _ => List.mem_singleton.2 rfl) h) h.2,
    fun _ _ hm _ _ hp => (nx_alone h.1 hm hp).elim⟩
  obtain ⟨S, h1, h2⟩ := Network.check_run h.2
  have hh : ∀ p, S.hist p = kaHistory := fun p => of_decide_eq_true h2
  refine ⟨S, h1, hh, fun p => ?_⟩
  have := Network.key_hist (c := fun _ => kaCfg) h1 p
  rw [hh] at this
  exact Outcome.ok.inj (this.symm.trans ka_facts.1)

theorem ka_generating : Spec.KeyProgram.Generating kaCast.crew (toyNet [2, 0] [5, 7]) 3 (idOf 45000000 0) := by
  refine ⟨fun x => ⟨fun h => ⟨(), mem_guests.2 h⟩, fun ⟨_, h⟩ => mem_guests.1 h⟩, fun p x r o _ _ _ => ?_⟩
  refine ⟨Generation.toyPhases [2, 0] x, ?_⟩
  show Generates (toyKyb [2, 0] [5, 7] 3 ((x : Int).toNat)) (toyNet [2, 0] [5, 7]) 3 x toy0 _
  rw [Int.toNat_natCast]
  exact toy_generates (by decide) _ 3 x

/-- It has no keys, and all that is left is to panic: it meets the hypotheses of C105. -/
example : kaSys.file = none ∧ ∃ x ∈ [2, 0], Verif.KeyProgram.step kaCfg kaSys (.main ((x : Nat) : Int)) = .panic := by
  have hp : ∀ x : Int, x ∈ kaCfg.base.guests → Verif.KeyProgram.step kaCfg kaSys (.main x) = .panic := fun x hx =>
    (KeyProgram.C105_first (C100_on_schedule ka_meeting) (toy_proper (by decide) (by decide)) ka_generating (C103_carried ka_meeting ka_wired ka_online)
      (x := 1) (by decide) (by rintro _ h; exact absurd h (by show (1 : Int) ∉ [2, 0]; decide)) () (fun g _ _ => toy_calm _ _ 3 g.toNat)
      ka_facts.2.2.1 ka_facts.2.2.2.2.2.1 x hx).2
  obtain ⟨h1, _, h2⟩ := C105_started ka_meeting ka_wired ka_online (toy_proper (by decide) (by decide)) ka_generating (x := 1) (by decide)
    (by rintro _ h; exact absurd h (by show (1 : Nat) ∉ [2, 0]; decide)) () (by show [2, 0] ≠ []; decide) (fun g _ => toy_calm _ _ 3 g.toNat) ka_facts.2.2.1
  refine ⟨h1, h2 fun e he s' => ?_⟩
  show Verif.KeyProgram.step kaCfg kaSys e ≠ _
  cases e with
  | prog e =>
    rw [kp_idle (Verif.KeyProgram.Reach.known ⟨_, ka_facts.1⟩ ka_fit) ka_facts.2.2.2.2.1 e he]
    exact nofun
  | check o =>
    rw [Verif.KeyProgram.step, if_neg (by show ¬ kaSys.file.isSome = true; have h1 : kaSys.file = none := h1; rw [h1]; exact nofun)]
    show Verif.KeyProgram.checkStep kaCfg kaSys o ≠ _
    rw [Verif.KeyProgram.checkStep, if_neg (by rw [ka_facts.2.2.2.2.2.1]; rintro ⟨h, _⟩; cases h)]
    exact nofun
  | main g =>
    by_cases hg : g ∈ kaCfg.base.guests
    · rw [hp g hg]; exact nofun
    · rw [Verif.KeyProgram.step, if_neg (by show ¬ kaSys.file.isSome = true; have h1 : kaSys.file = none := h1; rw [h1]; exact nofun)]
      show Verif.KeyProgram.mainStep kaCfg kaSys g ≠ _
      rw [Verif.KeyProgram.mainStep, ka_facts.2.2.2.2.2.1]
      dsimp only
      rw [if_neg (by rw [ka_facts.2.2.2.2.2.2]; show ¬ ([(2 : Int), 0].all fun g => decide (g ∈ ([] : List Int))) = true; decide),
        if_neg (by rw [Bool.and_eq_true, decide_eq_true_eq]; exact fun h => hg h.1)]
      exact nofun

end Verif.Props.KeyStart
