import Verif.Props.Dkg

/-!
Concrete runs of the two protocols: three members, threshold 2, this is member 0, and member 1 sends one message of each kind.
They show that the theorems on the protocols are not vacuous, and where C60 and C65 fail.
-/
namespace Verif.Props
open Verif.Prot Verif.Spec.Prot Verif.Dkg Verif.Dto Verif.Dss Verif.Point

/-- A deal inside other objects. -/
def exVssDeal : VssDeal := ⟨[1], ⟨0, 3⟩, ⟨0, 4⟩, 2, [base]⟩
/-- A deal of member `i`. -/
def exDeal (i : Nat) : Deal := ⟨i, ⟨base, [2], [3], [4]⟩⟩
/-- A response of member `i`. -/
def exResponse (i : Nat) : Response := ⟨0, some ⟨[1], i, true, [5]⟩⟩
/-- A justification of member `i`. -/
def exJustification (i : Nat) : Justification := ⟨i, [1], i, exVssDeal, [6]⟩
/-- Commitments of member `i`. -/
def exCommits (i : Nat) : SecretCommits := ⟨i, [base], [1], [7]⟩
/-- A complaint of member `i`. -/
def exCompl (i : Nat) : ComplaintCommits := ⟨i, 2, exVssDeal, [8]⟩
/-- A reconstruction of member `i`. -/
def exRecons (i : Nat) : ReconsCommits := ⟨[1], i, 2, ⟨0, 3⟩, [9]⟩

/-- A generator that always has something to say and yields the share of member 0 of 11 + 13x. -/
def exKyb : Kyb Unit where
  deals _ := ((), .ok [(1, exDeal 0), (2, exDeal 0)])
  processDeal _ _ := ((), .ok (some (exResponse 0)))
  processResponse _ _ := ((), .ok (some (exJustification 0)))
  processJustification _ _ := ((), .ok ())
  setTimeout _ := ()
  certified _ := true
  qual _ := [0, 1, 2]
  secretCommits _ := ((), .ok (exCommits 0))
  processSecretCommits _ _ := ((), .ok (some (exCompl 0)))
  processComplaintCommits _ _ := ((), .ok (some (exRecons 0)))
  processReconstructCommits _ _ := ((), .ok ())
  finished _ := true
  distKeyShare _ := .ok ⟨⟨0, 11 + 13⟩, [11, 13].map (timesAdd base)⟩

theorem exKyb_calm : Calm exKyb := by
  refine ⟨?_, ?_, ?_, ?_, ?_, ?_, ?_, ?_, ?_⟩ <;> intros <;> simp [exKyb]

/-- The environment of member 0 for long-term polynomial `ls`, document 9. -/
def exEnv (ls : List Nat) : Env := ⟨1, exPubs, 2, some ⟨⟨0, peval ls 1⟩, ls.map (timesAdd base)⟩, some 9, 17⟩

/-- The DTO of an object; `other` if there is none. -/
def dtoOf {T S : Type} (wrap : S → Dto) (mar : T → Outcome S) (x : T) : Dto :=
  match mar x with
  | .ok d => wrap d
  | _ => .other

/-- The partial signature that member 1 makes under the same polynomials. -/
def exPeer (ls : List Nat) : PartialSig :=
  match newDSS toyHash ⟨2, exPubs, ⟨⟨1, peval ls 2⟩, ls.map (timesAdd base)⟩, ⟨⟨1, 11 + 13 * 2⟩, [11, 13].map (timesAdd base)⟩, [0, 1, 2], 9, 2⟩ with
  | .ok d => match (partialSig toyHash exSH 17 d).2 with
    | .ok ps => ps
    | _ => ⟨⟨0, 0⟩, [], none⟩
  | _ => ⟨⟨0, 0⟩, [], none⟩

/-- One message of each kind from member 1. -/
def exMsgs (pc : Int) (ps : PartialSig) : List (Message Dto) :=
  [ (1, dtoOf .deal dealToDto (exDeal 1)), (2, .response (exResponse 1)), (3, dtoOf .justification justificationToDto (exJustification 1)),
    (5, dtoOf .commits commitsToDto (exCommits 1)), (6, dtoOf .complCommits complCommitsToDto (exCompl 1)),
    (7, dtoOf .reconsCommits reconsCommitsToDto (exRecons 1)), (10, dtoOf .partsig partsigToDto ps) ].map
    fun p => ⟨1, pc, 0, "run", p.1, p.2⟩

/-- Start the thread and go on to stage `n`, with ample time. -/
def goTo : Nat → List (Ev Dto)
  | 0 => [.tick 0, .thread, .thread]
  | n + 1 => goTo n ++ [.tick (1000 * (n + 1)), .thread, .tick (1000 * (n + 1) + 500), .thread]

/-- The signing run of member 0. -/
def exSigning (ls : List Nat) : Conf Dto Obj (Data Unit) := dssConf exKyb toyHash exSH (exEnv ls) "run" 0 3

/-- Run it on a history. -/
def exRunOf (ls : List Nat) (h : List (Ev Dto)) : Outcome (Run Dto Obj (Data Unit)) :=
  exec (exSigning ls) (newRun Dto Obj (newData ()) 0) h

/-- All messages arrive early, then the run goes on to its end. -/
def exHistory (ls : List Nat) : List (Ev Dto) := (exMsgs 1 (exPeer ls)).map .msg ++ goTo 11 ++ [.tick 20000, .thread]

/-- The op codes with which an outcome asks to send, without repetition. -/
def sentOps (x : Outcome (Run Dto Obj (Data Unit))) : List Int :=
  match x with
  | .ok r => [0, 1, 2, 3, 4, 5, 6, 7, 8, 9, 10, 11].filter fun n => !(sentOf n r.log).isEmpty
  | _ => []

/-- The signatures an outcome puts out. -/
def sigsOf (x : Outcome (Run Dto Obj (Data Unit))) : List Schnorr.Sig :=
  match x with
  | .ok r => r.user.out.filterMap fun o => match o with | .sig s => some s | _ => none
  | _ => []

/-- Whether an outcome is a panic. -/
def isPanic (x : Outcome (Run Dto Obj (Data Unit))) : Bool := match x with | .panic => true | _ => false

theorem isPanic_eq {x : Outcome (Run Dto Obj (Data Unit))} (h : isPanic x = true) : x = .panic := by
  cases x <;> first | rfl | cases h

/-- Number of calls of processors. -/
def invocations (x : Outcome (Run Dto Obj (Data Unit))) : Nat :=
  match x with
  | .ok r => r.log.countP fun e => match e with | .invoked _ _ => true | _ => false
  | _ => 0

/-- Whether one signature is put out, and verifies. -/
def oneVerifies (x : Outcome (Run Dto Obj (Data Unit))) : Bool :=
  match sigsOf x with
  | [s] => decide (Schnorr.verify toyHash (.pt (timesAdd base 5)) 9 s = .ok ())
  | _ => false

/-- Whether one signature is put out, and does not verify. -/
def oneFails (x : Outcome (Run Dto Obj (Data Unit))) : Bool :=
  match sigsOf x with
  | [s] => decide (Schnorr.verify toyHash (.pt (timesAdd base 5)) 9 s ≠ .ok ())
  | _ => false

/-- Each of the seven kinds is sent, each processor is called, and the one signature put out verifies. -/
theorem exRun_good : (decide (sentOps (exRunOf [5, 7] (exHistory [5, 7])) = [1, 2, 3, 5, 6, 7, 10]) &&
    decide (invocations (exRunOf [5, 7] (exHistory [5, 7])) = 7) && oneVerifies (exRunOf [5, 7] (exHistory [5, 7]))) = true := by
  decide +kernel

theorem isElt_commits (ls : List Nat) : ∀ c ∈ ls.map (timesAdd base), IsElt c := by
  intro c hc
  obtain ⟨n, _, rfl⟩ := List.mem_map.1 hc
  exact (exists_log_iff _).2 ⟨_, log_timesAdd log_base n⟩

/-- `Complete`, decided. -/
def completeB : Dto → Bool
  | .response r => r.response.isSome
  | .partsig s => match s.signature with | some (_, some _) => true | _ => false
  | _ => true

theorem completeB_sound {d : Dto} (h : completeB d = true) : Complete d := by
  cases d with
  | response r => exact Option.isSome_iff_ne_none.1 h
  | partsig s =>
    rw [completeB] at h
    rcases hs : s.signature with _ | ⟨a, _ | n⟩
    · rw [hs] at h; cases h
    · rw [hs] at h; cases h
    · exact ⟨a, n, hs⟩
  | _ => trivial

/-- The hypotheses of `C60_dss_partial` hold of this run. -/
example : GoodEnv exKyb (exEnv [5, 7]) ∧ ∀ m ∈ msgs (exHistory [5, 7]), 0 ≤ m.op ∧ Complete m.dto := by
  refine ⟨⟨⟨_, rfl, ⟨by simp, isElt_commits _⟩, by decide +kernel⟩, by simp [exEnv], ?_, by decide⟩, ?_⟩
  · intro k random h
    rw [← Outcome.ok.inj h]
    exact ⟨by simp, isElt_commits _⟩
  · have h : ((msgs (exHistory [5, 7])).all fun m => decide (0 ≤ m.op) && completeB m.dto) = true := by decide +kernel
    rw [List.all_eq_true] at h
    intro m hm
    have := h m hm
    rw [Bool.and_eq_true, decide_eq_true_eq] at this
    exact ⟨this.1, completeB_sound this.2⟩

/-- The hypotheses of `C65_verifies_partial` on the shares hold of this run. -/
example : (∀ i, OwnIndex (exEnv [5, 7]) i → ((peval [5, 7] 1 : Int) - peval [5, 7] (i + 1)) % secp256k1N = 0) ∧
    ∀ k random, exKyb.distKeyShare k = .ok random → ∃ rs : List Nat, rs ≠ [] ∧ random.commits = rs.map (timesAdd base) ∧
      (rs.length : Int) ≤ (exEnv [5, 7]).threshold ∧
      ∀ i, OwnIndex (exEnv [5, 7]) i → (random.share.V - peval rs (i + 1)) % secp256k1N = 0 := by
  have own : ∀ i, OwnIndex (exEnv [5, 7]) i → i = 0 := by
    rintro i ⟨pub, h1, h2⟩
    have h3 : mulBase (exEnv [5, 7]).secret = .ok (timesAdd base 1) := by decide +kernel
    have e := Outcome.ok.inj (h1.symm.trans h3)
    subst e
    have h4 : ((exEnv [5, 7]).participants.findIdx? fun p => equal p (timesAdd base 1)) = some 0 := by decide +kernel
    exact Option.some.inj (h2.symm.trans h4)
  refine ⟨fun i hi => by rw [own i hi]; decide, fun k random h => ⟨[11, 13], by simp, ?_, by decide, fun i hi => ?_⟩⟩
  · rw [← Outcome.ok.inj h]
  · rw [own i hi, ← Outcome.ok.inj h]; decide

/-- A response without inner part, from another member. -/
def nilResponse : Message Dto := ⟨1, 0, 0, "run", 2, .response ⟨0, none⟩⟩

theorem exRun_nil_response :
    isPanic (exec (dkgConf exKyb "run" 0 3) (newRun Dto Obj (newData ()) 0) (goTo 2 ++ [.msg nilResponse])) = true := by
  decide +kernel

/-- C60 is false: a member crashes a node by sending a response without inner part in a key generation, although the
generator never panics. -/
theorem C60_counterexample_response :
    ∃ (K : Type) (y : Kyb K) (k : K) (h : List (Ev Dto)) (m : Message Dto), Calm y ∧ 0 ≤ m.op ∧ m.op < 9 ∧
      (exec (dkgConf y "run" 0 3) (newRun Dto Obj (newData k) 0) h).isOk = true ∧
      exec (dkgConf y "run" 0 3) (newRun Dto Obj (newData k) 0) (h ++ [.msg m]) = .panic :=
  ⟨Unit, exKyb, (), goTo 2, nilResponse, exKyb_calm, by decide, by decide, by decide +kernel, isPanic_eq exRun_nil_response⟩

/-- A partial signature of another member without the signature on it. -/
def nilSignature : Message Dto :=
  ⟨1, 1, 0, "run", 10, dtoOf .partsig partsigToDto { exPeer [5, 7] with signature := none }⟩

theorem exRun_nil_signature : isPanic (exRunOf [5, 7] (goTo 10 ++ [.msg nilSignature])) = true := by
  decide +kernel

/-- C60 is false: a member crashes a node by sending a partial signature without the signature on it in a signing run. -/
theorem C60_counterexample_partsig :
    ∃ (h : List (Ev Dto)) (m : Message Dto), 0 ≤ m.op ∧ m.op < 12 ∧
      (exec (exSigning [5, 7]) (newRun Dto Obj (newData ()) 0) h).isOk = true ∧
      exec (exSigning [5, 7]) (newRun Dto Obj (newData ()) 0) (h ++ [.msg m]) = .panic :=
  ⟨goTo 10, nilSignature, by decide, by decide, by decide +kernel, isPanic_eq exRun_nil_signature⟩

/-- The partial signature of member 1 arrives, then the run goes to its end. -/
def exBadHistory : List (Ev Dto) :=
  [.msg ⟨1, 1, 0, "run", 10, dtoOf .partsig partsigToDto (exPeer [5, 7, 2])⟩] ++ goTo 11

theorem exRun_bad : oneFails (exRunOf [5, 7, 2] exBadHistory) = true := by
  decide +kernel

/-- C65 is false: with threshold 2 and a long-term share made under threshold 3 (three commitments, all shares consistent), a
run puts out a signature that does not verify under the long-term public key. -/
theorem C65_counterexample :
    ∃ (h : List (Ev Dto)) (r : Run Dto Obj (Data Unit)) (sig : Schnorr.Sig),
      exec (exSigning [5, 7, 2]) (newRun Dto Obj (newData ()) 0) h = .ok r ∧ .sig sig ∈ r.user.out ∧
      Schnorr.verify toyHash (.pt (timesAdd base 5)) 9 sig ≠ .ok () := by
  have hb := exRun_bad
  rw [exRunOf, oneFails] at hb
  cases hx : exec (exSigning [5, 7, 2]) (newRun Dto Obj (newData ()) 0) exBadHistory with
  | panic => rw [hx] at hb; cases hb
  | err => rw [hx] at hb; cases hb
  | ok r =>
    rw [hx] at hb
    cases hs : sigsOf (.ok r) with
    | nil => rw [hs] at hb; cases hb
    | cons s t =>
      cases t with
      | cons _ _ => rw [hs] at hb; cases hb
      | nil =>
        rw [hs, decide_eq_true_eq] at hb
        refine ⟨exBadHistory, r, s, hx, ?_, hb⟩
        have hmem : s ∈ sigsOf (.ok r) := by rw [hs]; simp
        rw [sigsOf, List.mem_filterMap] at hmem
        obtain ⟨o, h1, h2⟩ := hmem
        cases o with
        | key _ _ => cases h2
        | sig s' => rw [← Option.some.inj h2]; exact h1

end Verif.Props
