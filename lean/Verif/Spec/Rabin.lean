import Verif.Model.Rabin
import Verif.Spec.Generation
import Verif.Props.Dss
import Verif.Props.Dto

/-!
A key generation after Rabin among honest members: what they choose, and what they say by it.
-/
namespace Verif.Spec.Rabin
open Verif.Rabin Verif.Spec.Generation Verif.Point Verif.Props Verif.Dkg Verif.Dto Verif.Dss

/-- What the members choose: public keys of all members and the threshold; and for each member its secret key, the coefficients of
its two polynomials, its signatures, its encryptions, and the orders of its maps. -/
structure Choice where
  keys : List Pt
  T : Nat
  long : Nat → Int
  f : Nat → List Nat
  g : Nat → List Nat
  sign : Nat → List UInt8 → List UInt8
  encrypt : Nat → Nat → VssDeal → EncryptedDeal
  iter : Nat → List Nat → List Nat

variable (S : Suite) (R : Choice)

/-- The member `i`. -/
def Choice.member (i : Nat) : Member :=
  ⟨i, R.long i, R.keys, R.T, (R.f i).map Int.ofNat, (R.g i).map Int.ofNat, R.sign i, R.encrypt i, R.iter i⟩

/-- The public key of member `a`. -/
def Choice.key (a : Nat) : Pt := R.keys.getD a null

/-- The commitments in the deals of `a`: `f_k · G + g_k · H`. -/
def commitments (a : Nat) : List Pt :=
  List.zipWith (fun x y => add (timesAdd base x) (timesAdd (S.deriveH R.keys) y)) (R.f a) (R.g a)

/-- The session of the dealer `a`. -/
def session (a : Nat) : List UInt8 := S.sid (R.key a) R.keys (commitments S R a) R.T

/-- The deal of `a` for `b`: the values of the polynomials at `b + 1`. -/
def dealOf (a b : Nat) : VssDeal :=
  ⟨session S R a, ⟨b, peval (R.f a) (b + 1) % secp256k1N⟩, ⟨b, peval (R.g a) (b + 1) % secp256k1N⟩, R.T, commitments S R a⟩

/-- The generator of `a` before its deals. -/
def first (a : Nat) : Gen :=
  ⟨[], ⟨session S R a, R.T, none, [], false⟩, (List.range R.keys.length).map (fun b => dealOf S R a b), (R.f a).map (timesAdd base), []⟩

/-- The sum of the first polynomials of the members in `P`. -/
def total (P : List Nat) : List Nat := (List.range R.T).map fun k => (P.map fun a => (R.f a).getD k 0).sum

/-- The same choices with other first polynomials. -/
def Choice.told (F : Nat → List Nat) : Choice := { R with f := F }

/-- Commitments to the polynomial `F a`, signed by `a`. -/
def commitsOf (F : Nat → List Nat) (a : Nat) : SecretCommits :=
  ⟨a, (F a).map (timesAdd base), session S R a, R.sign a (S.commitsHash a (session S R a) ((F a).map (timesAdd base)))⟩

/-- What the members in `P` say, and the shares of the key that they get. -/
def net (P : List Nat) : Net where
  on a := a ∈ P
  deal a b := ⟨a, R.encrypt a b (dealOf S R a b)⟩
  resp d v := ⟨d, some ⟨session S R d, v, true, R.sign v (S.respHash (session S R d) v true)⟩⟩
  commits := commitsOf S R R.f
  key i := ⟨⟨i, peval (total R P) (i + 1) % secp256k1N⟩, (total R P).map (timesAdd base)⟩

/-- The members in `P` are at least as many as the threshold, and it is possible; their keys are in the list; signatures can be checked and
deals can be read; and what is missing of those not in `P` does not keep the own deals from being certified. -/
structure Honest (P : List Nat) : Prop where
  once : P.Nodup
  mem : ∀ a ∈ P, a < R.keys.length
  low : 2 ≤ R.T
  high : R.T ≤ P.length
  few : R.keys.length ≤ 2 ^ 32
  key : ∀ a ∈ P, mul (R.long a) base = .ok (R.key a)
  polys : ∀ a ∈ P, (R.f a).length = R.T ∧ (R.g a).length = R.T
  second : IsElt (S.deriveH R.keys)
  sign : ∀ a ∈ P, ∀ b, S.verify (R.key a) b (R.sign a b) = true
  encrypt : ∀ a ∈ P, ∀ b ∈ P, S.decrypt (R.long b) (R.key a) R.keys (R.encrypt a b (dealOf S R a b)) = some (dealOf S R a b)
  iter : ∀ a ∈ P, ∀ l, (R.iter a l).Perm l
  timeout : S.dealerTimeout = true ∨ ∀ a < R.keys.length, a ∈ P

/-- What they say can be sent: the keys of the encryption are points of the curve, and so are the commitments. -/
structure Sent (P : List Nat) : Prop where
  deal : ∀ a ∈ P, ∀ b d, Sendable (R.encrypt a b d).dhKey
  commits : ∀ a ∈ P, ∀ x ∈ R.f a, x % secp256k1N ≠ 0

/-- The generator of `i`, when it is given what honest members in `P` say, in the order of `P`, but as commitments those to the polynomials `F`. -/
def after (P : List Nat) (i : Nat) (F : Nat → List Nat) : Outcome Gen := do
  let k ← newGen S (R.member i)
  let k := (deals S (R.member i) k).1
  let o := P.filter (· ≠ i)
  let k := o.foldl (fun k j => (processDeal S (R.member i) k ((net S R P).deal j i)).1) k
  let k := (o.flatMap fun v => (P.filter (· ≠ v)).map fun d => (d, v)).foldl
    (fun k p => (processResponse S (R.member i) k ((net S R P).resp p.1 p.2)).1) k
  let k := (secretCommits S (R.member i) (setTimeout S (R.member i) k)).1
  return o.foldl (fun k j => (processSecretCommits S (R.member i) k (commitsOf S R F j)).1) k

/-- The polynomials when `j` adds `c · (x - (i + 1))` to its own, modulo `N`. -/
def shifted (j i c : Nat) (a : Nat) : List Nat :=
  if a = j then
    match R.f a with
    | x :: y :: l => (x + c * (secp256k1N - (i + 1))) :: (y + c) :: l
    | l => l
  else R.f a

/-- What a generator may be told: any calls in any order. Commitments come from messages. -/
inductive Call
  | deal (d : Deal)
  | resp (r : Response)
  | timeout
  | own
  | commits (x : CommitsDTO) (c : SecretCommits) (h : dtoToCommits x = .ok c)

/-- A call. -/
def Call.run (m : Member) (k : Gen) : Call → Gen
  | .deal d => (processDeal S m k d).1
  | .resp r => (processResponse S m k r).1
  | .timeout => setTimeout S m k
  | .own => (secretCommits S m k).1
  | .commits _ c _ => (processSecretCommits S m k c).1

end Verif.Spec.Rabin
