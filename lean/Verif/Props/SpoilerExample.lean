import Verif.Props.Spoiler
import Verif.Props.RabinRunExample

/-! The hypotheses of C123 can be met, and the runs of a signing: members 0 and 2 of three sign document 9 with a threshold of two if member 1 tells both the same
commitments, and do not if it tells them different ones, though nothing else is different. -/
namespace Verif.Props.Spoiler
open Verif.Rabin Verif.Prot Verif.Spec.Prot Verif.Point Verif.Props Verif.Dkg Verif.Dto Verif.Dss Verif.Spec.Rabin Verif.Props.Rabin Verif.Spec.Generation
open Verif.Props.RabinRun (exEnvOf signOf)

/-- What member 1 tells `i`, 0 or 2: its polynomial is `4 + x`, and it commits itself to `4 + x + (x - (i + 1))`. -/
def lieF (i a : Nat) : List Nat := if a = 1 then [4 - (i + 1), 2] else exR.f a

/-- Member 1 lies to `i`. -/
def lieTo (i : Nat) : Ev Dto → Ev Dto
  | .msg m => .msg (if m.sender = 1 ∧ m.op = 5 then { m with dto := dtoOf .commits commitsToDto (commitsOf (exS true) exR (lieF i) 1) } else m)
  | e => e

/-- What happens at `i` in the stages up to `s`, if member 1 lies or not. -/
def liarTo (lie : Bool) (i s : Nat) : List (Ev Dto) := if lie then (exTo [0, 1, 2] i s).map (lieTo i) else exTo [0, 1, 2] i s

/-- The partial signature that `i` sends to `k`. -/
def partOf (lie : Bool) (i k : Nat) : List (Message Dto) :=
  match signOf i (liarTo lie i 10) with
  | .ok r => (sentOf 10 r.log).filter fun m => decide (m.rcpt = k)
  | _ => []

/-- All that happens at `i`: `k` sends its partial signature, member 1 none. -/
def liarHist (lie : Bool) (i k : Nat) : List (Ev Dto) := liarTo lie i 10 ++ (partOf lie k i).map .msg ++ [.tick 11000, .thread, .tick 11500, .thread, .tick 20000, .thread]

/-- How far `i` gets, whether it puts out a signature, and whether a partial signature came to it. -/
def liarCheck (lie : Bool) (i k : Nat) : Bool :=
  match signOf i (liarHist lie i k) with
  | .ok r => (r.user.out.any fun o => match o with | .sig _ => true | _ => false) == !lie && decide (stageOf r.log = 11) && decide ((partOf lie k i).length = 1)
  | _ => false

theorem liarCheck_02 : liarCheck true 0 2 = true := by decide +kernel
theorem liarCheck_20 : liarCheck true 2 0 = true := by decide +kernel
theorem trueCheck_02 : liarCheck false 0 2 = true := by decide +kernel
theorem trueCheck_20 : liarCheck false 2 0 = true := by decide +kernel

theorem liarCheck_spec {lie : Bool} {i k : Nat} (h : liarCheck lie i k = true) : ∃ r, signOf i (liarHist lie i k) = .ok r ∧ stageOf r.log = 11 ∧
    (partOf lie k i).length = 1 ∧ ((∃ sig, .sig sig ∈ r.user.out) ↔ lie = false) := by
  rw [liarCheck] at h
  cases hr : signOf i (liarHist lie i k) with
  | panic => rw [hr] at h; cases h
  | err => rw [hr] at h; cases h
  | ok r =>
    rw [hr] at h
    dsimp only at h
    rw [Bool.and_eq_true, Bool.and_eq_true] at h
    obtain ⟨⟨h1, h2⟩, h3⟩ := h
    refine ⟨r, rfl, of_decide_eq_true h2, of_decide_eq_true h3, ?_⟩
    have h1 := eq_of_beq h1
    constructor
    · rintro ⟨sig, hs⟩
      have : (r.user.out.any fun o => match o with | .sig _ => true | _ => false) = true := List.any_eq_true.2 ⟨_, hs, rfl⟩
      rw [this] at h1
      cases lie
      · rfl
      · cases h1
    · rintro rfl
      obtain ⟨o, ho, hs⟩ := List.any_eq_true.1 h1
      cases o with
      | sig sig => exact ⟨sig, ho⟩
      | key _ _ => cases hs

attribute [local irreducible] signOf liarHist partOf

/-- C123 (witness). Two honest members, as many as the threshold, go through all stages of a signing and get each other's partial signatures. If member 1 tells
them the truth, both sign; if not, neither does. -/
theorem C123_counterexample : ∀ p ∈ [(0, 2), (2, 0)], ∀ lie : Bool, ∃ r, signOf p.1 (liarHist lie p.1 p.2) = .ok r ∧ stageOf r.log = 11 ∧
    (partOf lie p.2 p.1).length = 1 ∧ ((∃ sig, .sig sig ∈ r.user.out) ↔ lie = false) := by
  intro p hp lie
  rcases List.mem_cons.1 hp with rfl | hp
  · cases lie
    · exact liarCheck_spec trueCheck_02
    · exact liarCheck_spec liarCheck_02
  · rw [List.mem_singleton] at hp
    subst hp
    cases lie
    · exact liarCheck_spec trueCheck_20
    · exact liarCheck_spec liarCheck_20

theorem ex_sums : ∀ i ∈ [0, 1, 2], i ≠ 1 → ∀ x ∈ total (exR.told (shifted exR 1 i 1)) [0, 1, 2], x % secp256k1N ≠ 0 := by decide +kernel

theorem ex_base : Reduced base.X base.Y ∧ OnCurve base.X base.Y := by unfold OnCurve Reduced; decide +kernel

theorem ex_find : ∃ pub i, mulBase 5 = .ok pub ∧ exR.keys.findIdx? (fun p => equal p pub) = some i := ⟨timesAdd base 5, 0, by decide +kernel, by decide +kernel⟩

/-- The hypotheses of `C123_stopped` can be met, with the threshold two: the hash is injective, member 0 makes its partial signature, and gets one of the
session of member 2. -/
example : ∃ (sh : Nat → KeyShare) (d : DSS) (ps : PartialSig), newDSS (fun b => b) ⟨5, exR.keys, ⟨⟨0, 3⟩, [base]⟩, sh 0, [0, 1, 2], 9, 2⟩ = .ok d ∧
    ps.sessionID = sessionIDOf (fun b => b) ⟨⟨2, 4⟩, [base]⟩ (sh 2) ∧ signature (fun b => b) (run (fun b => b) exSH d [.partialSig 17, .process ps]) = .err := by
  obtain ⟨sh, _, h⟩ := C123_stopped (ex_honest (P := [0, 1, 2]) (timeout := true) (by decide) (by decide) (by decide) (.inl rfl)) (j := 1) (by decide)
    (fun b => b) exSH [base] (fun P hP => by rw [List.mem_singleton.1 hP]; exact ex_base) ex_sums
  obtain ⟨pub, i, e1, e2⟩ := ex_find
  have hd : ∃ d, newDSS (fun b => b) ⟨5, exR.keys, ⟨⟨0, 3⟩, [base]⟩, sh 0, [0, 1, 2], 9, 2⟩ = .ok d := by
    rw [newDSS, e1, Outcome.bind_ok, e2]
    exact ⟨_, rfl⟩
  obtain ⟨d, hd⟩ := hd
  refine ⟨sh, d, ⟨⟨2, 7⟩, _, none⟩, hd, rfl, ?_⟩
  refine h 0 (by decide) (by decide) (fun _ _ _ e => e) _ d rfl rfl hd _ (fun ps hps => ?_) (.inr ⟨by show (1 : Int) < 2; decide, fun ps hps => ?_⟩)
  · simp only [List.mem_cons, List.not_mem_nil, or_false, reduceCtorEq, false_or, Dss.Call.process.injEq] at hps
    subst hps
    exact .inr ⟨2, by decide, by decide, by decide, ⟨⟨2, 4⟩, [base]⟩, rfl, rfl⟩
  · simp only [List.mem_cons, List.not_mem_nil, or_false, reduceCtorEq, false_or, Dss.Call.process.injEq] at hps
    subst hps
    show (2 : Int) ≠ 1
    decide

end Verif.Props.Spoiler
