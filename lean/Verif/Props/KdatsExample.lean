import Verif.Props.Kdats
import Verif.Props.DkgExample

/-! C107 is not vacuous: one process has two guests, and their runs sign two documents by turns. -/
namespace Verif.Props.Kdats
open Verif.Prot Verif.Dto Verif.Dss Verif.Dkg Verif.Point Verif.Tables Verif.Kdats Verif.Spec.Kdats

/-- A generator that knows of which member it is. -/
def kxKyb : Kyb Nat where
  deals k := (k, .ok [])
  processDeal k _ := (k, .ok none)
  processResponse k _ := (k, .ok none)
  processJustification k _ := (k, .ok ())
  setTimeout k := k
  certified _ := true
  qual _ := [0, 1, 2]
  secretCommits k := (k, .ok (exCommits 0))
  processSecretCommits k _ := (k, .ok none)
  processComplaintCommits k _ := (k, .ok none)
  processReconstructCommits k _ := (k, .ok ())
  finished _ := true
  distKeyShare k := .ok ⟨⟨k, peval [11, 13] (k + 1)⟩, [11, 13].map (timesAdd base)⟩

/-- Guests 0 and 1 with their shares of 5 + 7x. -/
def kxWorld : World Nat where
  y := kxKyb
  H := toyHash
  SH := exSH
  secret g := g + 1
  pubs := exPubs
  threshold := 2
  longterms := [(0, ⟨⟨0, peval [5, 7] 1⟩, [5, 7].map (timesAdd base)⟩), (1, ⟨⟨1, peval [5, 7] 2⟩, [5, 7].map (timesAdd base)⟩)]

/-- A step of both runs. -/
def both (n : Nat) : List (Kdats.Ev Nat) := [.call 1 (.step n) 17, .call 0 (.step n) 17]

/-- Both runs get to the last stage, the partial signature of member 1 reaches the run of guest 0 only, and that run ends. -/
def kxHistory : List (Kdats.Ev Nat) :=
  [.verify 0 0, .verify 1 1, .doc (.register 0 "a" 9), .doc (.register 1 "b" 8), .new true 0 "a" 0, .new true 1 "b" 1] ++
  [0, 1, 4, 5, 8, 9, 10].flatMap both ++
  [.call 0 (.proc 10 (.partsig (exPeer [5, 7]))) 0] ++ both 11 ++ [.cleanup 0]

/-- The run of guest 0 has signed document 9 (its key share is its other output), the other has not signed; the tables have the two entries of the start and that of the other run. -/
def kxCheck : Bool :=
  match Verif.Kdats.exec kxWorld (start [0, 1]) kxHistory with
  | .ok M => decide (M.runs.map (fun o => (o.signs, o.terminated, o.out.length)) = [(true, true, 2), (true, false, 1)]) &&
    decide (M.args.keys = [3, 1, 0]) && decide (M.kdats.keys = [1]) && decide ((signing M).length = 1) &&
    match view M 1 with
    | some u => match u.dss with
      | some d => decide (d.partials.length = 1) && decide (d.msg = 8)
      | none => false
    | none => false
  | _ => false

theorem kxCheck_ok : kxCheck = true := by decide +kernel

/-- So the hypotheses of C107 hold after this history, with one run to sign, one cleaned up and one partial signature made. -/
example : ∃ M, Verif.Kdats.exec kxWorld (start [0, 1]) kxHistory = .ok M ∧ M.args.length = 2 + 1 ∧ ∃ o, M.runs[1]? = some o ∧ o.terminated = false := by
  have h := kxCheck_ok
  unfold kxCheck at h
  cases hx : Verif.Kdats.exec kxWorld (start [0, 1]) kxHistory with
  | err => rw [hx] at h; cases h
  | panic => rw [hx] at h; cases h
  | ok M =>
    rw [hx] at h
    simp only [Bool.and_eq_true, decide_eq_true_eq] at h
    obtain ⟨⟨⟨⟨h1, _⟩, _⟩, h2⟩, _⟩ := h
    refine ⟨M, rfl, (C107_nothing_left [0, 1] kxHistory M hx).1.trans (by rw [h2]; rfl), ?_⟩
    have h3 := congrArg (fun l => l[1]?) h1
    rw [List.getElem?_map] at h3
    cases ho : M.runs[1]? with
    | none => rw [ho] at h3; cases h3
    | some o =>
      rw [ho] at h3
      exact ⟨o, rfl, congrArg (fun p => p.2.1) (Option.some.inj h3)⟩

end Verif.Props.Kdats
