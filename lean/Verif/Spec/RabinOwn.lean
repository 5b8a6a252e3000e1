import Verif.Spec.Rabin

/-! A member that does its own part of a key generation after Rabin, among others that may do anything. -/
namespace Verif.Spec.Rabin
open Verif.Rabin Verif.Point Verif.Props Verif.Dkg Verif.Dto Verif.Dss
variable (S : Suite) (R : Choice)

/-- The member `i` is in the list with its key, the threshold is possible, its polynomials have as many coefficients, and it can read its own deal.
Nothing is said of others. -/
structure Able (i : Nat) : Prop where
  mem : i < R.keys.length
  low : 2 ≤ R.T
  high : R.T ≤ R.keys.length
  few : R.keys.length ≤ 2 ^ 32
  key : mul (R.long i) base = .ok (R.key i)
  polys : (R.f i).length = R.T ∧ (R.g i).length = R.T
  second : IsElt (S.deriveH R.keys)
  encrypt : S.decrypt (R.long i) (R.key i) R.keys (R.encrypt i i (dealOf S R i i)) = some (dealOf S R i i)
  iter : ∀ l, (R.iter i l).Perm l

/-- The commitments of member `i` do not come to it from outside. -/
def Foreign (i : Nat) (m : Message Dto) : Prop := ∀ x, m.dto = .commits x → m.sender ≠ i

end Verif.Spec.Rabin
