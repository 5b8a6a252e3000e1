import Verif.Model.NetCaller

/-! What is said about outgoing connections without their code. -/
namespace Verif.Spec.NetCaller
open Verif.NetCaller

/-- The publications among what a connector did: `none` for nil. -/
def pubs : List Act → List (Option Nat)
  | [] => []
  | .pubNil :: l => none :: pubs l
  | .pubConn c :: l => some c :: pubs l
  | .slept _ :: l => pubs l

/-- The sleeps. -/
def sleeps : List Act → List Int
  | [] => []
  | .slept d :: l => d :: sleeps l
  | _ :: l => sleeps l

/-- The i-th delay of exponential back-off from `d`, at most `cap`. -/
def backoff (d cap : Int) (i : Nat) : Int := if d * 2 ^ i < cap then d * 2 ^ i else cap

/-- The first success among the results number `i`, …, `i + n - 1`. -/
def firstSome (r : Nat → Option Nat) (n i : Nat) : Option Nat := ((List.range' i n).filterMap r).head?

/-- The messages of calls. -/
def called {M : Type} (l : List (Nat × M × Bool)) : List M := l.map fun x => x.2.1

/-- The messages given to `try_send`. -/
def sends {M : Type} : List (Ev M) → List M
  | [] => []
  | .send m :: h => m :: sends h
  | _ :: h => sends h

theorem pubs_append (l m : List Act) : pubs (l ++ m) = pubs l ++ pubs m := by
  induction l with
  | nil => rfl
  | cons x l ih => cases x <;> simp [pubs, ih]

theorem sleeps_append (l m : List Act) : sleeps (l ++ m) = sleeps l ++ sleeps m := by
  induction l with
  | nil => rfl
  | cons x l ih => cases x <;> simp [sleeps, ih]

end Verif.Spec.NetCaller
