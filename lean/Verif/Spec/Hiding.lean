import Verif.Spec.Rabin

/-!
What others see of a member of a key generation before it publishes the commitments to its polynomial: its deals for them, and its answers to
whatever they send.
-/
namespace Verif.Spec.Hiding
open Verif.Rabin Verif.Dkg Verif.Dto Verif.Dss

/-- The member with the coefficients `f` and `g`. -/
def with_ (m : Member) (f g : List Nat) : Member := { m with f := f.map Int.ofNat, g := g.map Int.ofNat }

/-- What a member may be told before its commitments: deals and responses, forged or not, and the end of the time for them. -/
inductive Ask
  | deal (d : Deal)
  | resp (r : Response)
  | timeout

/-- Not a complaint about the deals of member `i` itself: kyber justifies these by publishing the deal in question, which the model leaves out. -/
def Ask.Plain (i : Nat) : Ask → Prop
  | .resp r => r.index = i → ∀ w, r.response = some w → w.approved = true
  | _ => True

/-- What it answers. -/
inductive Answer
  | deal (o : Outcome (Option Response))
  | resp (o : Outcome (Option Justification))
  | nothing

/-- What it does. -/
def Ask.run (S : Suite) (m : Member) (k : Gen) : Ask → Gen × Answer
  | .deal d => let (k, o) := processDeal S m k d; (k, .deal o)
  | .resp r => let (k, o) := processResponse S m k r; (k, .resp o)
  | .timeout => (setTimeout S m k, .nothing)

/-- The generator after all of it, and all answers. -/
def told (S : Suite) (m : Member) (k : Gen) : List Ask → Gen × List Answer
  | [] => (k, [])
  | a :: as => let (k, o) := a.run S m k; let (k, os) := told S m k as; (k, o :: os)

/-- What others can find out: the deals for those in `B`, all answers, who is qualified in the end, and whether it goes on to publish its commitments. -/
structure View where
  deals : List (Int × Deal)
  answers : List Answer
  qual : List Nat
  publishes : Bool

/-- The view of those in `B` when the members send `as`; nothing if the member did not get as far as its deals. -/
def view (S : Suite) (m : Member) (B : List Nat) (as : List Ask) : Outcome View := do
  let k ← newGen S m
  match deals S m k with
  | (k, .ok ds) =>
    let (k, os) := told S m k as
    return ⟨ds.filter fun p => p.1 ∈ B.map Int.ofNat, os, qual m k, dealCertified m.participants.length k.dealer⟩
  | (_, .err) => .err
  | (_, .panic) => .panic

end Verif.Spec.Hiding
