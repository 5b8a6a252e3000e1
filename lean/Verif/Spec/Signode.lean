import Verif.Model.Signode
import Verif.Spec.Curve
import Mathlib.Data.Nat.Digits.Defs

/-! What is said about the node program without its code. -/
namespace Verif.Spec.Signode
open Verif.Signode Verif.Dkg Verif.Dss Verif.Tables

/-- The outputs hold, for the guest and the run, a key share with its QUAL. -/
def Delivered (o : Outputs Output) (g : Int) (id : String) (share : KeyShare) (qual : List Int) : Prop :=
  (o.get? (0, g)).bind (fun m => m.get? id) = some (.key share qual)

/-- Delivered, with at least `n` members in QUAL. -/
def Enough (n : Nat) (o : Outputs Output) (g : Int) (id : String) (share : KeyShare) : Prop :=
  ∃ qual, Delivered o g id share qual ∧ n ≤ qual.length

/-- The share has a public key, and it is a point of the curve. -/
def OnChain (k : KeyShare) : Prop := ∃ c cs, k.commits = c :: cs ∧ OnCurve c.X c.Y

/-- The identifier of the i-th run of DKG. -/
def attemptId (start interval : Int) (i : Nat) : String :=
  "longterm" ++ toString (unixMilli start) ++ toString i ++ toString (unixMilli (start + i * interval))

/-- The complete triples of a list of tokens, by position. -/
def triples (ts : List String) : List Request :=
  (List.range (ts.length / 3)).map fun k => ⟨ts.getD (3 * k) "", ts.getD (3 * k + 1) "", ts.getD (3 * k + 2) ""⟩

/-- `c` is the digit of value `d` in base 16. -/
def HexDigit (c : Char) (d : Nat) : Prop :=
  "0123456789abcdef".toList[d]? = some c ∨ "0123456789ABCDEF".toList[d]? = some c

/-- The text is one or more digits and denotes `n`. -/
def HexNum (cs : List Char) (n : Nat) : Prop :=
  cs ≠ [] ∧ ∃ vs, List.Forall₂ HexDigit cs vs ∧ n = Nat.ofDigits 16 vs.reverse

end Verif.Spec.Signode
