import Verif.Proofs.NetworkCheck
import Verif.Props.NetworkTogether
import Verif.Props.SignTogetherExample

/-!
C103 is not vacuous: the processes of `Verif.Props.KeyTogetherExample` and `Verif.Props.SignTogetherExample` with the network between them, whose callers have connected when the processes begin to listen, three seconds after their start.
-/
deriving instance DecidableEq for Verif.Program.Ev
deriving instance DecidableEq for Verif.KeyProgram.Ev

namespace Verif.Props.Program
open Verif.Prot Verif.Dto Verif.Dss Verif.Dkg Verif.Signode Verif.Program
open Verif.Spec.Program
open Verif.Props.Generation (Toy)

/-- The process of a member, of two. -/
def nxHost (x : Int) : Bool := decide (x = 1)

section
variable {κ E : Type} (host : Int → κ)

/-- Callers of protocol `pc` connect, from each guest in `P` to the others. -/
def nxDial (P : List Nat) (pc : Int) : List (Network.Ev κ E) :=
  P.flatMap fun x : Nat => (P.filter (· ≠ x)).flatMap fun y : Nat =>
    [.caller (host x) (pc, x) y (.spawn 0), .caller (host x) (pc, x) y (.tried 0 (some 0)), .caller (host x) (pc, x) y (.recv 0)]

/-- What happens in the network so that `m` comes in at process `p`. What is of no known type is from outside. -/
def nxCall (p : κ) (m : Message Dto) : List (Network.Ev κ E) :=
  if m.dto = .other then [.outside p m] else [.caller (host m.sender) (m.pc, m.sender) m.rcpt .get, .call (host m.sender) (m.pc, m.sender) m.rcpt true (some p)]

/-- A part of the history of the processes `qs`. -/
def nxPart (qs : List κ) (e : κ → Bool) (f : Bool → List Ev) : List (Network.Ev κ Ev) :=
  qs.flatMap fun p => (f (e p)).flatMap fun e => match e with
    | .net m => nxCall host p m
    | e => [.prog p e]
end

/-- The parts of `stHistory`. -/
def nxParts (P : List Nat) : List (Bool → List Ev) :=
  [fun p => .request stJob :: stGo p ++ [.job 0 0, .job 0 0] ++ stEach p (fun k => [.runner k, .runner k, .fwStep k, .task 0]) ++
    [.tick 5045, .latch],
   fun p => [.tick 5095] ++ stEach p (fun k => [.fwStep k, .runner k]) ++ [.tick 5100] ++
    stEach p (fun k => [.fwStep k, .runner k, .runner k, .task 0]) ++ stEach p (fun k => [.thread k, .thread k]),
   fun p => stStage p 0, fun p => stTake P p 1, fun p => stStage p 1, fun p => stTake P p 2, fun p => stStage p 2, fun p => stStage p 3,
   fun p => stStage p 4, fun p => stTake P p 5, fun p => stStage p 5, fun p => stStage p 6, fun p => stStage p 7, fun p => stStage p 8,
   fun p => stStage p 9, fun p => stTake P p 10, fun p => stStage p 10,
   fun p => [.tick 5750] ++ stEach p (fun k => [.thread k, .task 0, .task 0, .runner k, .runner k, .task 0, .task 0]) ++
    [.job 0 0] ++ stGo p ++ [.job 0 0] ++ stGo p ++ [.job 0 0, .tick 5751]]

section
variable {κ : Type} [DecidableEq κ]

/-- What happens in the processes and in the network. -/
def nxHistory (P : List Nat) (e : κ → Bool) (qs : List κ) (host : Int → κ) : List (Network.Ev κ Ev) :=
  ((nxParts P).take 1).flatMap (nxPart host qs e) ++ nxDial host P 1 ++ ((nxParts P).drop 1).flatMap (nxPart host qs e)

def nxNet (P : List Nat) (e : κ → Bool) : Network.Net κ (Sys Toy) Ev :=
  Network.signNet (fun p => stCfg P (e p)) (fun p => (stStarted (e p)).callers) fun p => (stStarted (e p)).listen

def nxRoom (s : Sys Toy) (m : Message Dto) : Bool := decide ((s.node.queues (m.pc, m.rcpt)).length < Node.rcvBufMax)

def nxAlone {E : Type} (h : List (Network.Ev κ E)) : Bool := h.all fun e => match e with | .outside _ m => decide (m.dto = .other) | _ => true

omit [DecidableEq κ] in
theorem nx_alone {E : Type} {h : List (Network.Ev κ E)} (ha : nxAlone h = true) {p : κ} {m : Message Dto} (hm : .outside p m ∈ h) {n : Nat}
    (hp : Spec.Generation.Plausible n m) : False :=
  Verif.Generation.other_implausible (of_decide_eq_true (List.all_eq_true.1 ha _ hm)) hp

def nxCheck (P : List Nat) (e : κ → Bool) (qs : List κ) (host : Int → κ) : Bool :=
  nxAlone (nxHistory P e qs host) &&
  Network.check (nxNet P e) (fun s => s.node.fw.now) nxRoom (Network.queues (nxNet P e) qs)
    (fun S => qs.all fun p => decide (S.hist p = stHistory P (e p))) (Network.init (nxNet P e)) (nxHistory P e qs host)

theorem nx_room {s : Sys Toy} {m : Message Dto} (h : nxRoom s m = true) : Spec.Network.signRoom s m := by
  rw [nxRoom, decide_eq_true_eq] at h; exact h

attribute [local irreducible] nxHistory stHistory stSys

variable {P : List Nat} {e : κ → Bool} {qs : List κ} {host : Int → κ} (hc : nxCheck P e qs host = true) (hqs : ∀ p, p ∈ qs)
include hc hqs

theorem nx_run (h1 : ∀ p, stCheck1 P (e p) = true) : ∃ S, Network.run (nxNet P e) (Network.init (nxNet P e)) (nxHistory P e qs host) = .ok S ∧
    (∀ p, S.hist p = stHistory P (e p)) ∧ ∀ p, S.procs p = stSys P (e p) := by
  rw [nxCheck, Bool.and_eq_true] at hc
  obtain ⟨S, h2, h3⟩ := Network.check_run hc.2
  rw [List.all_eq_true] at h3
  have hh : ∀ p, S.hist p = stHistory P (e p) := fun p => of_decide_eq_true (h3 p (hqs p))
  refine ⟨S, h2, hh, fun p => ?_⟩
  have := Network.sign_hist (c := fun p => stCfg P (e p)) h2 p
  rw [hh] at this
  exact Outcome.ok.inj (this.symm.trans (st_facts (h1 p)).1)

theorem nx_works : Spec.Network.Works (nxNet P e) Spec.Network.signClock Spec.Network.signRoom (nxHistory P e qs host) := by
  rw [nxCheck, Bool.and_eq_true] at hc
  exact Network.check_works (fun _ _ h => nx_room h) (fun _ _ _ h => Network.mem_queues hqs h) hc.2

end

theorem nxCheck_ok : (nxCheck [0, 1, 2] (fun p : Bool => p) [false, true] nxHost &&
    nxCheck [2, 0] (Subtype.val : KeyStart.First → Bool) [KeyStart.first] fun _ => KeyStart.first) = true := by decide +kernel

end Verif.Props.Program

namespace Verif.Props.KeyStart
open Verif.Prot Verif.Layout Verif.Dto Verif.Dss Verif.Dkg Verif.Signode Verif.Tables Verif.Start Verif.Props Verif.Spec.Prot Verif.Spec.Signode
open Verif.Spec.Generation Verif.Props.Start Verif.Point
open Verif.Props.Program (stGuests stWorld stStarted stRest stCfg stJob stHistory stSys nxHost nxDial nxCall nxHistory nxNet nxRoom nxCheck nxCheck_ok
  nx_run nx_works nx_room nxAlone nx_alone)
open Verif.Props.Generation (Toy toyNet toyKyb toy0 toy_generates toy_proper)
open Verif.KeyProgram (Sys Ev)

def nkPart {κ : Type} (qs : List κ) (host : Int → κ) (e : κ → Bool) (f : Bool → List Ev) : List (Network.Ev κ Ev) :=
  qs.flatMap fun p => (f (e p)).flatMap fun e => match e with
    | .prog (.net m) => nxCall host p m
    | e => [.prog p e]

/-- The parts of `ktPrefix`. -/
def nkParts (P : List Nat) : List (Bool → List Ev) :=
  [fun p => [.main ((ktGuests p).headD 0 : Int)] ++
    ktEach p (fun k => [.prog (.runner k), .prog (.task 0), .prog (.runner k), .prog (.fwStep k)]) ++
    [.prog (.tick 45), .prog .latch],
   fun p => [.prog (.tick 95)] ++ ktEach p (fun k => [.prog (.fwStep k), .prog (.runner k)]) ++
    [.prog (.tick 100)] ++ ktEach p (fun k => [.prog (.fwStep k), .prog (.runner k), .prog (.runner k), .prog (.task 0)]) ++
    ktEach p (fun k => [.prog (.thread k), .prog (.thread k)]),
   fun p => ktStage p 125, fun p => ktTake P p 1, fun p => ktStage p 200, fun p => ktTake P p 2, fun p => ktStage p 275, fun p => ktStage p 350,
   fun p => ktStage p 375, fun p => ktTake P p 5, fun p => ktStage p 450, fun p => ktStage p 525, fun p => ktStage p 600,
   fun p => [.prog (.tick 625)] ++
    ktEach p (fun k => [.prog (.thread k), .prog (.task 0), .prog (.task 0), .prog (.task 0), .prog (.task 0), .prog (.runner k), .prog (.runner k)]) ++
    [.main ((ktGuests p).headD 0 : Int)]]

/-- The outputs of the runs are taken. -/
def nkTaken (p : Bool) : List Ev :=
  (ktGuests p).map (fun x => .main x) ++ [.main ((ktGuests p).headD 0 : Int), .check ((ktGuests p).map Int.ofNat)]

/-- What happens in the processes and in the network while they make their keys. -/
def nkHistory : List (Network.Ev Bool Ev) :=
  let part := nkPart [false, true] nxHost fun p => p
  ((nkParts [0, 1, 2]).take 1).flatMap part ++ nxDial nxHost [0, 1, 2] 0 ++ ((nkParts [0, 1, 2]).drop 1 ++ [nkTaken]).flatMap part

def nkNet : Network.Net Bool (Sys Toy) Ev := Network.keyNet ktCfg (fun p => (ktStarted p).callers) fun p => (ktStarted p).listen

def nkCheck : Bool :=
  Network.check nkNet (fun s => s.prog.node.fw.now) (fun s m => nxRoom s.prog m) (Network.queues nkNet [false, true])
    (fun S => [false, true].all fun p => decide (S.hist p = ktHistory p)) (Network.init nkNet) nkHistory

theorem nkCheck_ok : nkCheck = true := by decide +kernel

theorem nk_complete (p : Bool) (k : Int × Int) (x : Int) (h : Spec.Network.Leads nkNet p k x) : (p, k, x) ∈ Network.queues nkNet [false, true] :=
  Network.mem_queues (by decide) h

theorem nkCheck_eq : nkCheck = Network.check nkNet (fun s => s.prog.node.fw.now) (fun s m => nxRoom s.prog m) (Network.queues nkNet [false, true])
    (fun S => [false, true].all fun p => decide (S.hist p = ktHistory p)) (Network.init nkNet) nkHistory := rfl

theorem nkAlone_ok : nxAlone nkHistory = true := by decide +kernel

attribute [local irreducible] nkHistory ktHistory ktSys nxHistory stHistory stSys

theorem nk_run : ∃ S, Network.run nkNet (Network.init nkNet) nkHistory = .ok S ∧ (∀ p, S.hist p = ktHistory p) ∧ ∀ p, S.procs p = ktSys p := by
  obtain ⟨S, h1, h2⟩ := Network.check_run (nkCheck_eq.symm.trans nkCheck_ok)
  rw [List.all_eq_true] at h2
  have hh : ∀ p, S.hist p = ktHistory p := fun p => of_decide_eq_true (h2 p (by cases p <;> decide))
  refine ⟨S, h1, hh, fun p => ?_⟩
  have := Network.key_hist (c := ktCfg) h1 p
  rw [hh] at this
  exact Outcome.ok.inj (this.symm.trans (kt_facts p).1)

theorem nk_works : Spec.Network.Works nkNet Spec.Network.keyClock Spec.Network.keyRoom nkHistory :=
  Network.check_works (fun _ _ h => nx_room h) nk_complete (nkCheck_eq.symm.trans nkCheck_ok)

theorem nk_online : ktCast.Online (idOf 45000000 0) nkHistory := ⟨nk_run, nk_works, fun _ _ h _ _ hp => (nx_alone nkAlone_ok h hp).elim⟩

theorem nx_online {κ : Type} [DecidableEq κ] {P : List Nat} {e : κ → Bool} {ps : List Bool} (hc : StCase P e ps) {qs : List κ} {host : Int → κ}
    (hn : nxCheck P e qs host = true) (hqs : ∀ p, p ∈ qs) : (stSigners P e).Online stJob (nxHistory P e qs host) :=
  ⟨nx_run hn hqs (st_check1 hc), nx_works hn hqs, fun _ _ h _ _ _ hp => (nx_alone (by rw [nxCheck, Bool.and_eq_true] at hn; exact hn.1) h hp).elim⟩

theorem nx_both : (stSigners [0, 1, 2] fun p : Bool => p).Online stJob (nxHistory [0, 1, 2] (fun p : Bool => p) [false, true] nxHost) :=
  nx_online st_both ((Bool.and_eq_true _ _).mp nxCheck_ok).1 (by decide)

theorem nx_first : (stSigners [2, 0] (Subtype.val : First → Bool)).Online stJob (nxHistory [2, 0] (Subtype.val : First → Bool) [first] fun _ => first) :=
  nx_online st_alone ((Bool.and_eq_true _ _).mp nxCheck_ok).2 fun p => List.mem_singleton.2 (eq_first p)

theorem nk_wired : Wired ktCmd (fun _ => exHosts) ktStarted [timesAdd base 3, timesAdd base 1, timesAdd base 2] where
  hosts := ⟨_, fun _ => rfl⟩
  keys := kt_keys
  nodup := by decide +kernel
  apart p q ad hp hq := by
    have key : ∀ p, ad ∈ (ktStarted p).listen → (p = true ↔ ad = "10.0.0.2:1") := by
      intro p h
      cases p
      · have : ad = "10.0.0.1:1" := List.mem_singleton.1 h
        rw [this]; decide
      · have : ad = "10.0.0.2:1" := List.mem_singleton.1 h
        rw [this]; decide
    rw [Bool.eq_iff_iff, key p hp, key q hq]

theorem nx_wired {κ : Type} {P : List Nat} {e : κ → Bool} {ps : List Bool} (hc : StCase P e ps) :
    Wired (stSigners P e).a (stSigners P e).entries (stSigners P e).st [timesAdd base 3, timesAdd base 1, timesAdd base 2] :=
  ⟨⟨_, fun _ => rfl⟩, fun p => nk_wired.keys (e p), nk_wired.nodup, fun p q ad hp hq => hc.inj (nk_wired.apart (e p) (e q) ad hp hq)⟩

/-- They meet the hypotheses of C103 for messages, -/
example : Program.Relayed ⟨jobId stJob, [timesAdd base 3, timesAdd base 1, timesAdd base 2], 2, [5, 7], [11, 13], 9⟩
      ((stSigners [0, 1, 2] fun p : Bool => p).all stJob) ∧
    Program.Relayed ⟨jobId stJob, [timesAdd base 3, timesAdd base 1, timesAdd base 2], 2, [5, 7], [11, 13], 9⟩
      ((stSigners [2, 0] (Subtype.val : First → Bool)).all stJob) ∧
    Spec.KeyProgram.Carried ktCast.crew (idOf 45000000 0) :=
  ⟨C103_relayed (st_set st_both).sorts (st_set st_both).compiled (st_set st_both).start (nx_wired st_both) (st_in_time st_both) nx_both 2 [5, 7] [11, 13],
   C103_relayed (st_set st_alone).sorts (st_set st_alone).compiled (st_set st_alone).start (nx_wired st_alone) (st_in_time st_alone) nx_first 2 [5, 7]
    [11, 13],
   C103_carried kt_together.toMeeting nk_wired nk_online⟩

/-- for signing, by both processes -/
example : ∃ sig, Schnorr.verify Program.sumHash (.pt (timesAdd base 5)) 9 sig = .ok () ∧
    ∀ p, ∃ b ∈ (stSys [0, 1, 2] p).jobs, b.job = stJob ∧ b.pc = .ended ∧
      b.lines.Perm ((stStarted p).guests.keys.map fun x : Nat => ((x : Int), some sig)) :=
  C103_signs (st_set st_both) (nx_wired st_both) st_saved sumHash_length (fun _ => ⟨rfl, rfl⟩) (st_in_time st_both) (by decide)
    (by unfold GoodKey; decide) ⟨by decide, by decide⟩ (by decide) (S := [0, 1, 2]) (by decide) (by decide) (fun x hx => by
      have : ∀ x ∈ [0, 1, 2], ∃ p, x ∈ (stStarted p).guests.keys := by decide
      exact this x hx) ⟨by decide, by decide⟩ (st_generating st_both) nx_both

/-- and by the first alone, -/
example : ∃ sig, Schnorr.verify Program.sumHash (.pt (timesAdd base 5)) 9 sig = .ok () ∧
    ∃ b ∈ (stSys [2, 0] false).jobs, b.lines.Perm [(2, some sig), (0, some sig)] := by
  obtain ⟨sig, h1, h2⟩ := C103_signs (st_set st_alone) (nx_wired st_alone) (fun p => st_saved p) sumHash_length (fun _ => ⟨rfl, rfl⟩)
    (st_in_time st_alone) (by decide) (by unfold GoodKey; decide) (rs := [11, 13]) ⟨by decide, by decide⟩ (by decide) (S := [2, 0]) (by decide)
    (by decide) (fun x hx => ⟨first, hx⟩) ⟨by decide, by decide⟩ (st_generating st_alone) nx_first
  obtain ⟨b, hb, _, _, h⟩ := h2 first
  exact ⟨sig, h1, b, hb, h⟩

/-- for making keys, -/
example (p : Bool) : (∀ e, Verif.KeyProgram.step (ktCfg p) (ktSys p) e ≠ .panic) ∧
    ∃ (lts : GoMap Int KeyShare) (f : GoMap Int DksDTO), (ktSys p).file = some f ∧ saveLongterms lts = .ok f ∧
      ∀ x ∈ (ktStarted p).guests.keys, lts.get? (x : Int) = some ((toyNet [0, 1, 2] [5, 7]).key x) := by
  obtain ⟨h1, h2⟩ := C103_keys kt_together nk_wired nk_online (toy_proper (by decide) (by decide)) kt_generating kt_savable p (by cases p <;> decide)
    (fun _ _ => toy_calm _ _ _ _) (fun m hm => ((kt_check2 p).1 m hm).2)
  obtain ⟨lts, f, h3, h4, _, h5⟩ := h2 (kt_facts p).2.2.2.1
  exact ⟨h1, lts, f, h3, h4, h5⟩

/-- and for both, one after the other, with both processes or with the first alone. -/
example :
    (∃ (sig : Schnorr.Sig) (b b' : Program.JobSt), Schnorr.verify Program.sumHash (.pt (timesAdd base 5)) 9 sig = .ok () ∧
      b ∈ (stSys [0, 1, 2] false).jobs ∧ b' ∈ (stSys [0, 1, 2] true).jobs ∧ b.lines.Perm [(2, some sig), (0, some sig)] ∧ b'.lines = [(1, some sig)]) ∧
    ∃ (sig : Schnorr.Sig) (b : Program.JobSt), Schnorr.verify Program.sumHash (.pt (timesAdd base 5)) 9 sig = .ok () ∧
      b ∈ (stSys [2, 0] false).jobs ∧ b.lines.Perm [(2, some sig), (0, some sig)] := by
  obtain ⟨f, h1, h2⟩ := C103_end_to_end kt_together nk_wired nk_online (toy_proper (by decide) (by decide)) kt_generating kt_savable (fun p => by cases p <;> decide)
    (fun p => (kt_facts p).2.2.2.1) (ls := [5, 7]) (fun x hx => kt_shares hx) (T := 2) (fun p => by cases p <;> rfl) (by decide)
  have hf : f = ktFile := by
    funext p
    exact Option.some.inj ((h1 p).symm.trans (kt_facts p).2.2.2.2.2)
  subst hf
  have go : ∀ {κ : Type} [DecidableEq κ] [Fintype κ] {P : List Nat} {e : κ → Bool} {ps : List Bool} (_ : StCase P e ps) (_ : P.Nodup) (_ : 2 ≤ P.length)
      {h : List (Network.Ev κ Program.Ev)} (_ : (stSigners P e).Online stJob h),
      ∃ sig, Schnorr.verify Program.sumHash (.pt (timesAdd base 5)) 9 sig = .ok () ∧ ∀ p, ∃ b ∈ (stSys P (e p)).jobs, b.job = stJob ∧ b.pc = .ended ∧
        b.lines.Perm ((ktStarted (e p)).guests.keys.map fun x : Nat => ((x : Int), some sig)) := by
    intro κ _ _ P e ps hc hP h2P h hon
    obtain ⟨st, h3, h4⟩ := h2 e hc.inj (fun _ => stWorld) (fun _ => "u") (fun _ => st_again)
    have hst : st = fun p => stStarted (e p) := by
      funext p
      exact Outcome.ok.inj ((h3 p).1.symm.trans (st_start (e p)))
    subst hst
    exact h4 (fun _ => stRest P) (fun p => stHistory P (e p)) (fun p => stSys P (e p)) stJob [11, 13] (toyNet P [11, 13]) Program.sumHash exSH
      sumHash_length (fun _ => ⟨rfl, rfl⟩) (st_in_time hc) ⟨by decide, by decide⟩ (by decide) P hP (by omega) (fun x hx => by
        obtain ⟨p, hp⟩ := (hc.guests x).1 hx
        refine ⟨p, ?_⟩
        show x ∈ (ktStarted (e p)).guests.keys
        cases he : e p <;> (rw [he] at hp; exact hp)) (st_generating hc) h hon
  constructor
  · obtain ⟨sig, hv, h⟩ := go st_both (by decide) (by decide) nx_both
    obtain ⟨b, hb, _, _, h5⟩ := h false
    obtain ⟨b', hb', _, _, h6⟩ := h true
    exact ⟨sig, b, b', hv, hb, hb', h5, List.perm_singleton.1 h6⟩
  · obtain ⟨sig, hv, h⟩ := go st_alone (by decide) (by decide) nx_first
    obtain ⟨b, hb, _, _, h5⟩ := h first
    exact ⟨sig, b, hv, hb, h5⟩

end Verif.Props.KeyStart
