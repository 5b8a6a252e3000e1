import Verif.Props.RabinProgram
import Verif.Props.RabinRunExample
import Verif.Props.KeyExample

/-! The hypotheses of C119 can be met: a process with member 0 of three makes a key with the others, and one signs document 9 with member 2. -/
namespace Verif.Props.RabinProgram
open Verif.Rabin Verif.Prot Verif.Spec.Prot Verif.Point Verif.Props Verif.Dkg Verif.Dto Verif.Dss Verif.Spec.Rabin Verif.Props.Rabin Verif.Spec.Generation
open Verif.Tables Verif.Signode Verif.Props.RabinRun
open Verif.Props.Program (pgCfg pgStages pgEnd pgJob1)
open Verif.Props.KeyStart (kxCfg kxId)

/-- A false response in the name of member 1, and a deal with an impossible number. -/
def noise (pc : Int) (id : String) : List (Message Dto) := [⟨1, pc, 0, id, 2, .response ⟨2, some ⟨[], 1, false, []⟩⟩⟩, ⟨7, pc, 0, id, 1, .other⟩]

/-- What comes to member 0 as it makes a key. -/
def keyMsgs : List (Message Dto) := noise 0 (kxId 0) ++ (Rabin.exMsgs [0, 1, 2] 0).map fun m => { m with runId := kxId 0 }

/-- The process of member 0. -/
def rpBase (long : GoMap Int KeyShare) : Program.Cfg Gen :=
  { y := fun _ _ => kyb (exS true) (exR.member 0), gen := fun _ _ => first (exS true) exR 0, H := toyHash, SH := exSH, members := 3, guests := [0],
    secret := fun _ => 5, participants := exR.keys, threshold := 2, longterms := long, nonce := fun _ => 17, allow := pgCfg.allow, dropUntil := 0,
    started := (kxCfg 0).base.started }

/-- As it makes keys. -/
def rpKey : KeyProgram.Cfg Gen := ⟨{ rpBase [] with dropUntil := (kxCfg 0).base.dropUntil }, (kxCfg 0).start, (kxCfg 0).interval, (kxCfg 0).allow⟩

/-- What happens. -/
def rpKeyHist : List KeyProgram.Ev :=
  [.main 0, .prog (.runner 0), .prog (.task 0), .prog (.runner 0), .prog (.fwStep 0), .prog (.tick 45), .prog .latch, .prog (.tick 95), .prog (.fwStep 0), .prog (.runner 0)] ++
  keyMsgs.map (fun m => .prog (.net m)) ++ [.prog (.tick 100), .prog (.fwStep 0), .prog (.runner 0), .prog (.runner 0), .prog (.task 0)] ++
  keyMsgs.flatMap (fun _ => [.prog (.cons (0, 0)), .prog (.cons (0, 0)), .prog (.cons (0, 0))]) ++ [.prog (.thread 0), .prog (.thread 0)] ++
  [25, 105, 185, 265, 295, 375, 455, 535].flatMap (fun d : Int =>
    [.prog (.tick (100 + d)), .prog (.thread 0), .prog (.tick (100 + d + 5)), .prog (.thread 0)]) ++
  [.prog (.tick 670), .prog (.thread 0), .prog (.task 0), .prog (.task 0), .prog (.task 0), .prog (.task 0),
   .prog (.runner 0), .main 0, .main 0, .main 0, .check [0]]

/-- A message that is fine for member 0. -/
def fineB (m : Message Dto) : Bool := completeB m.dto && decide (m.sender ≠ 0) && decide (m.rcpt = 0)

theorem fineB_sound {m : Message Dto} (h : fineB m = true) : Fine m := by
  simp only [fineB, Bool.and_eq_true, decide_eq_true_eq] at h
  refine ⟨completeB_sound h.1.1, fun i hi x _ e => h.1.2 ?_⟩
  rw [e, ← hi, h.2]

def rpKeyCheck : Bool :=
  keyMsgs.all fineB && (match KeyProgram.run rpKey (KeyProgram.init rpKey) rpKeyHist with
  | .ok s => s.file.isSome
  | _ => false)

theorem rpKeyCheck_ok : rpKeyCheck = true := by decide +kernel

/-- As it signs. -/
def rpSign : Program.Cfg Gen := rpBase [(0, (net (exS true) exR [2, 0]).key 0)]

/-- What comes to member 0 as it signs. -/
def signMsgs : List (Message Dto) := noise 1 (jobId pgJob1) ++ (Rabin.exMsgs [2, 0] 0 ++ partOf2).map fun m => { m with runId := jobId pgJob1, pc := 1 }

def rpSignHist : List Program.Ev :=
  [.request pgJob1, .job 0 0, .job 0 0, .job 0 0, .runner 0, .runner 0, .fwStep 0, .task 0, .tick 95, .fwStep 0, .runner 0] ++
  signMsgs.map .net ++ [.tick 100, .fwStep 0, .runner 0, .runner 0, .task 0] ++ signMsgs.flatMap (fun _ => [.cons (1, 0), .cons (1, 0), .cons (1, 0)]) ++
  [.thread 0, .thread 0] ++ pgStages [0] ++ pgEnd 0

def rpSignCheck : Bool :=
  signMsgs.all fineB && (match Program.run rpSign (Program.init rpSign) rpSignHist with
  | .ok s => s.jobs.any fun b => decide (b.job = pgJob1) && b.lines.any fun p => decide (p.1 = 0) && p.2.isSome
  | _ => false)

theorem rpSignCheck_ok : rpSignCheck = true := by decide +kernel

theorem key_run : (∀ m ∈ keyMsgs, Fine m) ∧ ∃ s f, KeyProgram.run rpKey (KeyProgram.init rpKey) rpKeyHist = .ok s ∧ s.file = some f := by
  have h := rpKeyCheck_ok
  rw [rpKeyCheck, Bool.and_eq_true] at h
  refine ⟨fun m hm => fineB_sound (List.all_eq_true.1 h.1 m hm), ?_⟩
  have h2 := h.2
  cases hr : KeyProgram.run rpKey (KeyProgram.init rpKey) rpKeyHist with
  | panic => rw [hr] at h2; cases h2
  | err => rw [hr] at h2; cases h2
  | ok s =>
    rw [hr] at h2
    obtain ⟨f, hf⟩ := Option.isSome_iff_exists.1 h2
    exact ⟨s, f, rfl, hf⟩

theorem sign_run : (∀ m ∈ signMsgs, Fine m) ∧ ∃ s, ∃ b ∈ s.jobs, ∃ sig, Program.run rpSign (Program.init rpSign) rpSignHist = .ok s ∧ b.job = pgJob1 ∧
    ((0 : Int), some sig) ∈ b.lines := by
  have h := rpSignCheck_ok
  rw [rpSignCheck, Bool.and_eq_true] at h
  refine ⟨fun m hm => fineB_sound (List.all_eq_true.1 h.1 m hm), ?_⟩
  have h2 := h.2
  cases hr : Program.run rpSign (Program.init rpSign) rpSignHist with
  | panic => rw [hr] at h2; cases h2
  | err => rw [hr] at h2; cases h2
  | ok s =>
    rw [hr] at h2
    obtain ⟨b, hb, h3⟩ := List.any_eq_true.1 h2
    rw [Bool.and_eq_true, decide_eq_true_eq] at h3
    obtain ⟨⟨g, o⟩, hp, h4⟩ := List.any_eq_true.1 h3.2
    rw [Bool.and_eq_true, decide_eq_true_eq] at h4
    obtain ⟨rfl, h5⟩ := h4
    obtain ⟨sig, rfl⟩ := Option.isSome_iff_exists.1 h5
    exact ⟨s, b, hb, sig, rfl, h3.1, hp⟩

/-- Which messages come in a history of the key tool, and in one of the signing. -/
theorem key_net {m : Message Dto} (h : .prog (.net m) ∈ rpKeyHist) : m ∈ keyMsgs := by
  simpa [rpKeyHist] using h

theorem sign_net {m : Message Dto} (h : .net m ∈ rpSignHist) : m ∈ signMsgs := by
  simpa [rpSignHist, pgStages, pgEnd] using h

theorem sign_requests : Spec.Program.requests rpSignHist = [pgJob1] := by
  decide +kernel

theorem members (long : GoMap Int KeyShare) : Members (rpBase long) (exS true) (fun _ _ => exR) 2 := by
  intro g hg r
  obtain rfl : g = 0 := by simpa [rpBase] using hg
  exact ⟨0, rfl, ex_able (by decide), rfl, rfl, rfl, newGen_able (ex_able (by decide))⟩

theorem own : Own rpSign 2 where
  few := by decide
  threshold := rfl
  long := by
    intro g hg
    obtain rfl : g = 0 := by simpa [rpSign, rpBase] using hg
    obtain ⟨a1, r1, q, a2, a3⟩ := key_facts
    exact ⟨_, rfl, C118_share (ex_able (by decide)) (newGen_able (ex_able (by decide))) ((exRun_eq [2, 0] 0).symm.trans a2) (fun m hm _ _ => (a1 m hm).2) a3, key0⟩
  index := by
    intro g hg r d
    obtain rfl : g = 0 := by simpa [rpSign, rpBase] using hg
    exact own0

attribute [local irreducible] rpKeyHist rpSignHist keyMsgs signMsgs

/-- The key tool writes a file, with a share of member 0. -/
example : ∃ s f lts, KeyProgram.run rpKey (KeyProgram.init rpKey) rpKeyHist = .ok s ∧ s.file = some f ∧ saveLongterms lts = .ok f ∧
    ∀ share, lts.get? 0 = some share → Proper 0 2 share ∧ share.commits.headD null ≠ null := by
  obtain ⟨h1, s, f, h2, h3⟩ := key_run
  obtain ⟨lts, h4, _, h5⟩ := C119_saved rpKey (members []) rpKeyHist s h2 (by decide) (by decide) (by decide) (fun m hm => h1 m (key_net hm)) f h3
  exact ⟨s, f, lts, h2, h3, h4, fun share h => h5 0 share h⟩

/-- Member 0 prints a signature of document 9, which verifies. -/
example : ∃ s, ∃ b ∈ s.jobs, ∃ sig, Program.run rpSign (Program.init rpSign) rpSignHist = .ok s ∧ ((0 : Int), some sig) ∈ b.lines ∧
    Schnorr.verify toyHash (.pt (((net (exS true) exR [2, 0]).key 0).commits.headD null)) 9 sig = .ok () := by
  obtain ⟨h1, s, b, h2, sig, h3, h4, h5⟩ := sign_run
  obtain ⟨long, h6, h7⟩ := C119_prints rpSign (members _) own (fun b => by simp [rpSign, rpBase, toyHash]) (by decide) rpSignHist s h3
    (by rw [sign_requests]; decide) (fun m hm => h1 m (sign_net hm)) b h2 (by rw [h4]; decide) 0 sig h5
  cases h6
  rw [h4] at h7
  exact ⟨s, b, h2, sig, h3, h5, h7⟩

/-- It does not crash at any prefix of this, nor is it ever stuck. -/
example : Program.run rpSign (Program.init rpSign) rpSignHist ≠ .panic ∧ ∀ s, Program.run rpSign (Program.init rpSign) rpSignHist = .ok s →
    ∃ h s', Program.run rpSign s h = .ok s' ∧ Spec.Program.Settled rpSign s' :=
  ⟨C119_calm rpSign (members _) own (by decide) _ (by rw [sign_requests]; decide) fun m hm => sign_run.1 m (sign_net hm), fun s hs => by
    obtain ⟨h, s', _, h1, h2⟩ := C119_reaches rpSign (members _) own (by decide) _ s hs (by rw [sign_requests]; decide) fun m hm => sign_run.1 m (sign_net hm)
    exact ⟨h, s', h1, h2⟩⟩

/-- A key tool whose run gets no messages, until its guest gives up. -/
def rpAlone : List KeyProgram.Ev := (rpKeyHist.filter fun e => match e with | .prog (.net _) | .prog (.cons _) => false | _ => true).take 57

def rpAloneCheck : Bool :=
  (rpAlone.all fun e => match e with | .prog (.net _) => false | _ => true) && match KeyProgram.run rpKey (KeyProgram.init rpKey) rpAlone with
  | .ok s => (match KeyProgram.step rpKey s (.main 0) with | .panic => true | _ => false)
  | _ => false

theorem rpAloneCheck_ok : rpAloneCheck = true := by decide +kernel

/-- Nothing else than the missing key is the reason. -/
example : ∃ s, KeyProgram.run rpKey (KeyProgram.init rpKey) rpAlone = .ok s ∧ KeyProgram.step rpKey s (.main 0) = .panic ∧
    ∃ r u, Spec.KeyProgram.RanTo rpKey rpAlone s s.main.i 0 r u ∧ Spec.KeyProgram.NoKey 3 u := by
  have h := rpAloneCheck_ok
  rw [rpAloneCheck, Bool.and_eq_true] at h
  obtain ⟨h1, h2⟩ := h
  cases hr : KeyProgram.run rpKey (KeyProgram.init rpKey) rpAlone with
  | panic => rw [hr] at h2; cases h2
  | err => rw [hr] at h2; cases h2
  | ok s =>
    rw [hr] at h2
    have hp : KeyProgram.step rpKey s (.main 0) = .panic := by
      revert h2
      cases hx : KeyProgram.step rpKey s (.main 0) <;> simp [hx]
    refine ⟨s, rfl, hp, ?_⟩
    rcases C119_gives_up rpKey (members []) rpAlone s hr (by decide) (by decide) (by decide) (fun m hm => by
      have := List.all_eq_true.1 h1 _ hm
      cases this) _ hp with ⟨g, hg, r, u, he, h3, h4⟩ | ⟨_, _, _, _, he, _⟩
    · cases he
      exact ⟨r, u, h3, h4⟩
    · cases he

end Verif.Props.RabinProgram
