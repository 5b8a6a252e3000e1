import Verif.Spec.NetTime

/-! What is said about outgoing messages after the peer was away. -/
namespace Verif.Spec.NetTime
open Verif.NetTime
variable {M : Type}

/-- During `h`, which begins in state `s`, the peer is there: dialling gives a connection, and calls with a connection made during `h` succeed. Nothing is
said about a connection that was made before. -/
def Back (s : St M) (h : List (Ev M)) : Prop :=
  (∀ i r, .dialled i r ∈ h → r ≠ none) ∧
  ∀ g1 ok g2, h = g1 ++ .call ok :: g2 → ∀ s1, run s g1 = .ok s1 → ∀ c, s1.base.client = some c → (∃ i, .dialled i (some c) ∈ g1) → ok = true

/-- How many calls have failed. -/
def failures (s : St M) : Nat := (s.base.calls.filter fun x => !x.2.2).length

end Verif.Spec.NetTime
