import Verif.Props.Signing
import Verif.Props.DkgExample

/-! C72 and C73 are not vacuous: members 0 and 1 of a group of three with threshold 2 sign document 9. -/
namespace Verif.Props
open Verif.Prot Verif.Spec.Prot Verif.Dkg Verif.Dto Verif.Dss Verif.Point

/-- The group of the example. -/
def exGroup : Group := ⟨"run", exPubs, 2, [5, 7], [11, 13], 9⟩

theorem exGroup_sound : exGroup.Sound := by
  refine ⟨by decide, by decide, ⟨by decide, by decide⟩, ?_, by decide, by decide⟩
  intro p hp
  exact isElt_commits [1, 2, 3] p hp

/-- The generator of member `i`, with its share of 11 + 13x. -/
def exKybOf (i : Nat) : Kyb Unit := { exKyb with distKeyShare := fun _ => .ok ⟨⟨i, peval [11, 13] (i + 1)⟩, [11, 13].map (timesAdd base)⟩ }

/-- The environment of member `i`, with its share of 5 + 7x. -/
def exEnvOf (i : Nat) : Env := ⟨i + 1, exPubs, 2, some ⟨⟨i, peval [5, 7] (i + 1)⟩, [5, 7].map (timesAdd base)⟩, some 9, 17⟩

/-- The run of member `i` after a history. -/
def exRunAt (i : Nat) (h : List (Ev Dto)) : Outcome (Run Dto Obj (Data Unit)) :=
  exec (dssConf (exKybOf i) toyHash exSH (exEnvOf i) "run" i 3) (newRun Dto Obj (newData ()) 0) h

/-- What member `i` sends to `j` in the stage of partial signatures, if nothing reaches it. -/
def exSent (i j : Nat) : List (Message Dto) :=
  match exRunAt i (goTo 10) with
  | .ok r => (sentOf 10 r.log).filter fun m => decide (m.rcpt = j)
  | _ => []

/-- The history of member 0: the partial signature of member 1 and one of somebody else arrive early. -/
def exFull : List (Ev Dto) :=
  [.msg ⟨2, 1, 0, "run", 10, .other⟩] ++ (exSent 1 0).map .msg ++ goTo 11 ++ [.tick 20000, .thread]

/-- It ends, is not abandoned, and the message of member 1 came in time. -/
def exFullCheck : Bool :=
  match exRunAt 1 (goTo 10), exRunAt 0 exFull with
  | .ok r1, .ok r => r.terminated && !gaveUp r.log &&
    match (sentOf 10 r1.log).filter (fun m => decide (m.rcpt = 0)) with
    | m :: _ => (early 10 r.log).contains m
    | [] => false
  | _, _ => false

theorem exFullCheck_ok : exFullCheck = true := by decide +kernel

theorem exEnvOf_own : OwnIndex (exEnvOf 0) 0 ∧ OwnIndex (exEnvOf 1) 1 :=
  ⟨⟨timesAdd base 1, by decide +kernel, by decide +kernel⟩, ⟨timesAdd base 2, by decide +kernel, by decide +kernel⟩⟩

theorem exHonest (i : Nat) (hi : i < 2) (h : List (Ev Dto)) (r : Run Dto Obj (Data Unit)) (hr : exRunAt i h = .ok r) :
    Honest toyHash exSH exGroup i ⟨exKybOf i, exEnvOf i, (), 0, h, r⟩ := by
  refine ⟨hr, ?_, ?_, rfl, rfl, rfl, ⟨_, rfl, rfl, ?_⟩, fun random e => ?_⟩
  · rcases (show i = 0 ∨ i = 1 by omega) with rfl | rfl
    exacts [exEnvOf_own.1, exEnvOf_own.2]
  · rcases (show i = 0 ∨ i = 1 by omega) with rfl | rfl 
    · show (((0 : Nat) : Int) + 1) % (secp256k1N : Int) ≠ 0; decide
    · show (((1 : Nat) : Int) + 1) % (secp256k1N : Int) ≠ 0; decide
  · show (peval [5, 7] (i + 1) - peval [5, 7] (i + 1)) % _ = 0
    rw [sub_self]; rfl
  · have e' := (Outcome.ok.inj e).symm
    subst e'
    refine ⟨rfl, ?_⟩
    show (peval [11, 13] (i + 1) - peval [11, 13] (i + 1)) % _ = 0
    rw [sub_self]; rfl

/-- The hypotheses of `C72_signs` hold for member 0 with the one other member 1. -/
theorem exFull_hypotheses : ∃ p : Party Unit, Honest toyHash exSH exGroup 0 p ∧ p.r.terminated = true ∧
    (∀ l1 l2, p.r.log = l1 ++ .abandoned :: l2 → 9 < stageOf l1) ∧ exGroup.T ≤ ([1] : List Nat).length + 1 ∧
    (∀ j ∈ ([1] : List Nat), ∀ random, p.y.distKeyShare p.r.user.kyb = .ok random → (j : Int) ∈ p.y.qual p.r.user.kyb) ∧
    ∀ j ∈ ([1] : List Nat), ∃ (q : Party Unit) (m : Message Dto), Honest toyHash exSH exGroup j q ∧ .sent m ∈ q.r.log ∧ m.op = 10 ∧
      m ∈ early 10 p.r.log ++ inTime 10 p.r.log := by
  have hc := exFullCheck_ok
  rw [exFullCheck] at hc
  cases h1 : exRunAt 1 (goTo 10) with
  | err => rw [h1] at hc; cases hc
  | panic => rw [h1] at hc; cases hc
  | ok r1 =>
  cases h0 : exRunAt 0 exFull with
  | err => rw [h0, h1] at hc; cases hc
  | panic => rw [h0, h1] at hc; cases hc
  | ok r =>
  rw [h0, h1] at hc
  simp only [Bool.and_eq_true, Bool.not_eq_true'] at hc
  obtain ⟨⟨c1, c2⟩, c3⟩ := hc
  refine ⟨⟨exKybOf 0, exEnvOf 0, (), 0, exFull, r⟩, exHonest 0 (by omega) _ _ h0, c1, fun l1 l2 e => ?_, by decide, ?_, ?_⟩
  · have : gaveUp r.log = true := by
      rw [show r.log = _ from e]; exact gaveUp_mid l1 l2
    rw [c2] at this; cases this
  · intro j hj random _
    rw [List.mem_singleton] at hj
    subst hj
    show (1 : Int) ∈ ([0, 1, 2] : List Int)
    decide
  · intro j hj
    rw [List.mem_singleton] at hj
    subst hj
    cases hf : (sentOf 10 r1.log).filter (fun m => decide (m.rcpt = 0)) with
    | nil => rw [hf] at c3; cases c3
    | cons m _ =>
    rw [hf] at c3
    dsimp only at c3
    rw [List.contains_iff_mem] at c3
    refine ⟨⟨exKybOf 1, exEnvOf 1, (), 0, goTo 10, r1⟩, m, exHonest 1 (by omega) _ _ h1, ?_⟩
    have hm' : m ∈ sentOf 10 r1.log := (List.mem_filter.1 (by rw [hf]; simp : m ∈ (sentOf 10 r1.log).filter _)).1
    rw [sentOf, List.mem_filterMap] at hm'
    obtain ⟨x, hx, hx'⟩ := hm'
    cases x with
    | sent m' =>
      dsimp only at hx'
      by_cases ho : m'.op = 10
      · rw [if_pos ho] at hx'
        have := Option.some.inj hx'
        subst this
        exact ⟨hx, ho, List.mem_append_left _ c3⟩
      · rw [if_neg ho] at hx'; cases hx'
    | _ => cases hx'

/-- So it signs. -/
example : ∃ (p : Party Unit) (sig : Schnorr.Sig), Honest toyHash exSH exGroup 0 p ∧ .sig sig ∈ p.r.user.out ∧
    Schnorr.verify toyHash (.pt (timesAdd base 5)) 9 sig = .ok () := by
  obtain ⟨p, h1, h2, h3, h4, h5, h6⟩ := exFull_hypotheses
  obtain ⟨⟨sig, h7, h8⟩, _⟩ := C72_signs toyHash (fun b => by simp [toyHash]) exSH exGroup exGroup_sound 0 p h1 h2 h3 [1] (by simp)
    (by simp) h4 h5 h6
  exact ⟨p, sig, h1, h7, h8⟩

end Verif.Props
