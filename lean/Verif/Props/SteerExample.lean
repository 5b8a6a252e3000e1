import Verif.Props.Steer
import Verif.Props.RabinExample

/-! The hypotheses of C124 can be met, and a run of the key generation: the secrets of three members add up to 12, and member 1 makes member 0 finish with the public key that belongs
to 10. -/
namespace Verif.Props.Steer
open Verif.Rabin Verif.Prot Verif.Spec.Prot Verif.Point Verif.Props Verif.Dkg Verif.Dto Verif.Dss Verif.Spec.Rabin Verif.Props.Rabin Verif.Spec.Generation

/-- The inverse of the number of member 2. -/
def third : Nat := (2 * secp256k1N + 1) / 3

/-- The hypotheses of `C124_forged`, for members 0 and 2: member 1 can make each of them take a key of its own. -/
example : (∃ Q, mulBase 77 = .ok Q ∧ ∃ c, (commitsOf (exS true) exR (shifted exR 1 0 c) 1).commitments =
      steered ((net (exS true) exR [0, 1, 2]).commits 1).commitments (((net (exS true) exR [0, 1, 2]).key 0).commits.headD null) Q 1) ∧
    ∃ Q, mulBase 77 = .ok Q ∧ ∃ c, (commitsOf (exS true) exR (shifted exR 1 2 c) 1).commitments =
      steered ((net (exS true) exR [0, 1, 2]).commits 1).commitments (((net (exS true) exR [0, 1, 2]).key 2).commits.headD null) Q third := by
  have h := ex_honest (P := [0, 1, 2]) (timeout := true) (by decide) (by decide) (by decide) (.inl rfl)
  obtain ⟨Q, h1, c, h2, _⟩ := C124_forged h (i := 0) (j := 1) (w := 1) (by decide) (by decide) (by decide) (by decide) toyHash 77 (by decide)
  obtain ⟨Q', g1, c', g2, _⟩ := C124_forged h (i := 2) (j := 1) (w := third) (by decide) (by decide) (by decide) (by decide) toyHash 77 (by decide)
  exact ⟨⟨Q, h1, c, h2⟩, Q', g1, c', g2⟩

/-- Member 1 tells member 0 `steered` commitments. -/
def steerTo : Ev Dto → Ev Dto
  | .msg m => .msg (if m.sender = 1 ∧ m.op = 5 then
      { m with dto := dtoOf .commits commitsToDto ⟨1, steered ((net (exS true) exR [0, 1, 2]).commits 1).commitments (timesAdd base 12) (timesAdd base 10) 1,
        ((net (exS true) exR [0, 1, 2]).commits 1).sessionID,
        (exS true).commitsHash 1 ((net (exS true) exR [0, 1, 2]).commits 1).sessionID
          (steered ((net (exS true) exR [0, 1, 2]).commits 1).commitments (timesAdd base 12) (timesAdd base 10) 1)⟩ } else m)
  | e => e

/-- What happens at `i`, if member 1 lies or not. -/
def steerHist (lie : Bool) (i : Nat) : List (Ev Dto) := if lie then (exHist [0, 1, 2] i).map steerTo else exHist [0, 1, 2] i

/-- The run of `i`. -/
def steerRun (lie : Bool) (i : Nat) : Outcome (Run Dto Obj (Data Gen)) := exec (exConf i) (newRun Dto Obj (newData (first (exS true) exR i)) 0) (steerHist lie i)

/-- Whether it puts out a share with the public key `Q`. -/
def steerCheck (lie : Bool) (i : Nat) (Q : Pt) : Bool :=
  match steerRun lie i with
  | .ok r => r.user.out.any fun o => match o with | .key sh _ => decide (sh.commits.headD null = Q) | _ => false
  | _ => false

theorem steerCheck_lie : steerCheck true 0 (timesAdd base 10) = true := by decide +kernel
theorem steerCheck_true : steerCheck false 0 (timesAdd base 12) = true := by decide +kernel

theorem steerCheck_spec {lie : Bool} {i : Nat} {Q : Pt} (h : steerCheck lie i Q = true) :
    ∃ r sh q, steerRun lie i = .ok r ∧ .key sh q ∈ r.user.out ∧ sh.commits.headD null = Q := by
  rw [steerCheck] at h
  cases hr : steerRun lie i with
  | panic => rw [hr] at h; cases h
  | err => rw [hr] at h; cases h
  | ok r =>
    rw [hr] at h
    obtain ⟨o, ho, h3⟩ := List.any_eq_true.1 h
    cases o with
    | sig _ => cases h3
    | key sh q => exact ⟨r, sh, q, rfl, ho, of_decide_eq_true h3⟩

attribute [local irreducible] steerRun

/-- C124 (witness). In a run of the key generation, member 0 puts out the public key that belongs to 12, the sum of the secrets, if member 1 is honest, and the one that belongs to 10 if
member 1 wants that; nothing else is different. -/
theorem C124_counterexample : ∀ lie : Bool, ∃ r sh q, steerRun lie 0 = .ok r ∧ .key sh q ∈ r.user.out ∧
    sh.commits.headD null = timesAdd base (if lie then 10 else 12) := by
  intro lie
  cases lie
  · exact steerCheck_spec steerCheck_true
  · exact steerCheck_spec steerCheck_lie

end Verif.Props.Steer
