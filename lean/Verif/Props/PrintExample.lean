import Verif.Props.Print
import Verif.Props.ProgramExample

/-! C93 on a concrete history: the two requests of `Verif.Props.ProgramExample`, which print at the same time. -/
namespace Verif.Props.Print
open Verif.Dto Verif.Dss Verif.Dkg Verif.Point Verif.Tables Verif.Signode Verif.Program Verif.Print Verif.Props.Program Verif.Spec.Program

/-- Both runs end; then the first request prints that it is done, then the second, which goes on to print its signature. -/
def prHistory : List Ev :=
  pgBegin ++ pgStages [0, 1] ++ [.task 0, .task 0, .runner 0, .runner 0, .task 0, .task 0, .task 0, .task 0, .runner 1, .job 0 0, .job 0 0, .job 0 0,
    .job 1 0, .job 1 0, .job 1 0, .job 1 0, .job 0 0, .job 0 0, .job 1 0]

/-- Whether a line is that of a signature that a request printed for guest 0 and that verifies for this document and not for the other. -/
def prSig (s : Sys Unit) (i : Nat) (doc other : Int) (line : List Char) : Bool :=
  match s.jobs[i]? with
  | some b => match b.lines with
    | [(_, some sig)] => decide (line = sigText sig) && decide (Schnorr.verify sumHash (.pt (timesAdd base 5)) doc sig = .ok ()) &&
        !decide (Schnorr.verify sumHash (.pt (timesAdd base 5)) other sig = .ok ())
    | _ => false
  | none => false

def prCheck : Bool :=
  match Verif.Print.run pgCfg (init pgCfg) prHistory with
  | .ok (s, [a, b, x, y]) => decide (a = doneText (jobId pgJob1)) && decide (b = doneText (jobId pgJob2)) && prSig s 1 10 9 x && prSig s 0 9 10 y &&
    s.jobs.all fun b => decide (b.pc = .ended)
  | _ => false

theorem prCheck_ok : prCheck = true := by decide +kernel

theorem pr_sig {s : Sys Unit} {i : Nat} {doc other : Int} {line : List Char} (h : prSig s i doc other line = true) :
    ∃ b g sig, s.jobs[i]? = some b ∧ (g, some sig) ∈ b.lines ∧ line = sigText sig ∧
      Schnorr.verify sumHash (.pt (timesAdd base 5)) doc sig = .ok () ∧ Schnorr.verify sumHash (.pt (timesAdd base 5)) other sig ≠ .ok () := by
  unfold prSig at h
  cases hb : s.jobs[i]? with
  | none => rw [hb] at h; cases h
  | some b =>
    rw [hb] at h
    dsimp only at h
    match hl : b.lines with
    | [] => rw [hl] at h; cases h
    | (_, none) :: _ => rw [hl] at h; cases h
    | (_, some sig) :: _ :: _ => rw [hl] at h; cases h
    | [(g, some sig)] =>
      rw [hl] at h
      dsimp only at h
      rw [Bool.and_eq_true, Bool.and_eq_true, Bool.not_eq_true', decide_eq_true_eq, decide_eq_true_eq, decide_eq_false_iff_not] at h
      exact ⟨b, g, sig, rfl, by rw [hl]; exact List.mem_cons_self .., h.1.1, h.1.2, h.2⟩

/-- A finding on C93: the line of a signature does not say for which request it is, and need not follow the line that names the run.
The lines of two requests whose runs have ended can come as here: the line that names the run of the first, that of the second, the
signature of the second, the signature of the first. -/
theorem C93_not_attributed : ∃ (s : Sys Unit) (sig1 sig2 : Schnorr.Sig) (b1 b2 : JobSt) (g1 g2 : Int),
    Verif.Print.run pgCfg (init pgCfg) prHistory =
      .ok (s, [doneText (jobId pgJob1), doneText (jobId pgJob2), sigText sig2, sigText sig1]) ∧
    s.jobs[0]? = some b1 ∧ s.jobs[1]? = some b2 ∧ (g1, some sig1) ∈ b1.lines ∧ (g2, some sig2) ∈ b2.lines ∧ sig1 ≠ sig2 ∧
    jobId pgJob1 ≠ jobId pgJob2 := by
  have h := prCheck_ok
  unfold prCheck at h
  match hr : Verif.Print.run pgCfg (init pgCfg) prHistory with
  | .err => rw [hr] at h; cases h
  | .panic => rw [hr] at h; cases h
  | .ok (s, out) =>
    rw [hr] at h
    match out with
    | [] => cases h
    | [_] => cases h
    | [_, _] => cases h
    | [_, _, _] => cases h
    | _ :: _ :: _ :: _ :: _ :: _ => cases h
    | [a, b, x, y] =>
      dsimp only at h
      rw [Bool.and_eq_true, Bool.and_eq_true, Bool.and_eq_true, Bool.and_eq_true, decide_eq_true_eq, decide_eq_true_eq] at h
      obtain ⟨⟨⟨⟨e1, e2⟩, h3⟩, h4⟩, _⟩ := h
      obtain ⟨b2, g2, sig2, f1, f2, f3, f4, _⟩ := pr_sig h3
      obtain ⟨b1, g1, sig1, k1, k2, k3, _, k5⟩ := pr_sig h4
      exact ⟨s, sig1, sig2, b1, b2, g1, g2, by rw [e1, e2, f3, k3], k1, f1, k2, f2, fun e => k5 (by rw [e]; exact f4), by decide +kernel⟩

/-- What `C93_output` says of this history: the lines of each request, and that there are no others. -/
example : ∃ (s : Sys Unit) (out : List (List Char)), Verif.Print.run pgCfg (init pgCfg) prHistory = .ok (s, out) ∧ out.length = 4 ∧
    out.Perm (s.jobs.flatMap jobText) := by
  obtain ⟨s, sig1, sig2, _, _, _, _, h, _⟩ := C93_not_attributed
  obtain ⟨_, _, _, _, _, hp⟩ := C93_output _ _ _ _ h
  exact ⟨s, _, h, rfl, hp⟩

/-- The line of a signature. -/
example : sigText ⟨[1, 0, 255], -12⟩ = "&{[1 0 255] -12}".toList := by decide +kernel

end Verif.Props.Print
