import Verif.Spec.RabinOwn

/-! What commitments came to a member, and the sum of points. -/
namespace Verif.Spec.Rabin
open Verif.Point Verif.Dto Verif.Dkg

/-- Among the messages there is one from `j` with the commitments `cs`. -/
def Heard (L : List (Message Dto)) (j : Nat) (cs : List Pt) : Prop :=
  ∃ m ∈ L, m.sender = j ∧ ∃ x c, m.dto = .commits x ∧ dtoToCommits x = .ok c ∧ c.commitments = cs

/-- None of the messages that the model of the generator of `i` does not act on, while kyber does: justifications, complaints about commitments,
reconstructions, and complaints about the deals of `i`, which kyber answers by justifications. -/
def Plain (i : Nat) (x : Message Dto) : Prop :=
  (∀ y, x.dto = .response y → y.index = i → ∀ w, y.response = some w → w.approved = true) ∧ (∀ y, x.dto ≠ .justification y) ∧ (∀ y, x.dto ≠ .complCommits y) ∧ ∀ y, x.dto ≠ .reconsCommits y

/-- The sum of points. -/
def sumPts : List Pt → Pt
  | [] => null
  | p :: ps => ps.foldl add p

end Verif.Spec.Rabin
