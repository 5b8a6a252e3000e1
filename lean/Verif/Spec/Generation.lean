import Verif.Model.Dkg
import Verif.Spec.Prot

/-!
What is expected of a key generation among the members that take part, who are honest: the messages they say, and what kyber's generator of one member
does when it is given exactly what the generators of the others made. The order in which the messages of one kind are given to
it does not matter, and neither do repetitions.
-/
namespace Verif.Spec.Generation
open Verif.Dkg Verif.Dto Verif.Dss

/-- What the generators of the members make: the deal of a dealer for another member, the response of a verifier to the deal
of a dealer, the commitments of a member, and its share of the key in the end; and who takes part. Of the others nothing is
heard. -/
structure Net where
  on : Nat → Prop
  deal : (dealer verifier : Nat) → Deal
  resp : (dealer verifier : Nat) → Response
  commits : Nat → SecretCommits
  key : Nat → KeyShare

/-- The messages of the honest ones of the members `0, …, n - 1` in the run `id` of protocol `pc`: each sends its deals to all others, tells all others
its responses to deals, and tells all others that take part its commitments. -/
inductive Says (net : Net) (n : Nat) (pc : Int) (id : String) : Message Dto → Prop
  | deal {a b : Nat} {x : DealDTO} : net.on a → b < n → a ≠ b → dealToDto (net.deal a b) = .ok x → Says net n pc id ⟨a, pc, b, id, 1, .deal x⟩
  | response {v b d : Nat} : net.on v → b < n → net.on d → v ≠ b → d ≠ v → Says net n pc id ⟨v, pc, b, id, 2, .response (net.resp d v)⟩
  | commits {a b : Nat} {x : CommitsDTO} : net.on a → net.on b → a ≠ b → commitsToDto (net.commits a) = .ok x →
    Says net n pc id ⟨a, pc, b, id, 5, .commits x⟩

/-- A message that passes the checks before it is given to the processor of its stage: it is of the type that goes with its op code and can be decoded, its
sender is one of `n` members, and the number of the sender is also inside. Anybody can make such a message. -/
inductive Plausible (n : Nat) : Message Dto → Prop
  | deal {s : Nat} {pc b : Int} {id : String} {x : DealDTO} {o : Deal} : s < n → dtoToDeal x = .ok o → o.index = s % 2 ^ 32 →
    Plausible n ⟨s, pc, b, id, 1, .deal x⟩
  | response {s : Nat} {pc b : Int} {id : String} {x : Response} {v : VssResponse} : s < n → x.response = some v → v.index = s % 2 ^ 32 →
    Plausible n ⟨s, pc, b, id, 2, .response x⟩
  | justification {s : Nat} {pc b : Int} {id : String} {x : JustificationDTO} {o : Justification} : s < n → dtoToJustification x = .ok o →
    o.index = s % 2 ^ 32 → o.jIndex = s % 2 ^ 32 → Plausible n ⟨s, pc, b, id, 3, .justification x⟩
  | commits {s : Nat} {pc b : Int} {id : String} {x : CommitsDTO} {o : SecretCommits} : s < n → dtoToCommits x = .ok o → o.index = s % 2 ^ 32 →
    Plausible n ⟨s, pc, b, id, 5, .commits x⟩
  | complCommits {s : Nat} {pc b : Int} {id : String} {x : ComplCommitsDTO} {o : ComplaintCommits} : s < n → dtoToComplCommits x = .ok o →
    o.index = s % 2 ^ 32 → Plausible n ⟨s, pc, b, id, 6, .complCommits x⟩
  | reconsCommits {s : Nat} {pc b : Int} {id : String} {x : ReconsCommitsDTO} {o : ReconsCommits} : s < n → dtoToReconsCommits x = .ok o →
    o.index = s % 2 ^ 32 → Plausible n ⟨s, pc, b, id, 7, .reconsCommits x⟩
  | partsig {s : Nat} {pc b : Int} {id : String} {x : PartSigDTO} {o : PartialSig} : s < n → dtoToPartsig x = .ok o → o.part.I = s →
    Plausible n ⟨s, pc, b, id, 10, .partsig x⟩

/-- Those that take part are members, and what they make carries its origin and can be sent. -/
structure Proper (net : Net) (n : Nat) : Prop where
  few : n ≤ 2 ^ 32
  on : ∀ a, net.on a → a < n
  deal : ∀ a b, net.on a → b < n → a ≠ b → (net.deal a b).index = a ∧ ∃ x, dealToDto (net.deal a b) = .ok x ∧ dtoToDeal x = .ok (net.deal a b)
  resp : ∀ d v, net.on d → net.on v → d ≠ v → (net.resp d v).index = d ∧ ∃ w, (net.resp d v).response = some w ∧ w.index = v
  commits : ∀ a, net.on a → (net.commits a).index = a ∧ ∃ x, commitsToDto (net.commits a) = .ok x ∧ dtoToCommits x = .ok (net.commits a)

/-- The states of a generator: with its own deals made and the deals of these members processed; with all deals processed and
the responses `(dealer, verifier)`; after the time for responses; with its commitments made and those of these members
processed. -/
structure Phases (K : Type) where
  dealing : List Nat → K → Prop
  responding : List (Nat × Nat) → K → Prop
  settled : K → Prop
  committing : List Nat → K → Prop

/-- A list of those that qualify: each of those that take part, once. -/
def Qualify (net : Net) (q : List Int) : Prop := q.Nodup ∧ ∀ x, x ∈ q ↔ ∃ b : Nat, net.on b ∧ x = b

/-- What kyber's generator of member `i` does among honest members (external), beginning in the state `k0`. -/
structure Generates {K : Type} (y : Kyb K) (net : Net) (n i : Nat) (k0 : K) (ph : Phases K) : Prop where
  /-- it makes a deal for each other member -/
  deals : ∃ ds, (y.deals k0).2 = .ok ds ∧ (∀ j d, (j, d) ∈ ds ↔ ∃ b : Nat, b < n ∧ b ≠ i ∧ j = b ∧ d = net.deal i b) ∧
    ph.dealing [] (y.deals k0).1
  /-- it responds to a deal, once -/
  deal : ∀ js k j, ph.dealing js k → net.on j → j ≠ i → ph.dealing (js ++ [j]) (y.processDeal k (net.deal j i)).1 ∧
    (y.processDeal k (net.deal j i)).2 = if j ∈ js then .err else .ok (some (net.resp j i))
  dealt : ∀ js k, ph.dealing js k → (∀ j, net.on j → j ≠ i → j ∈ js) → ph.responding [] k
  /-- it takes a response, once -/
  resp : ∀ ps k d v, ph.responding ps k → net.on d → net.on v → v ≠ i → d ≠ v →
    ph.responding (ps ++ [(d, v)]) (y.processResponse k (net.resp d v)).1 ∧
    (y.processResponse k (net.resp d v)).2 = if (d, v) ∈ ps then .err else .ok none
  responded : ∀ ps k, ph.responding ps k → (∀ d v, net.on d → net.on v → v ≠ i → d ≠ v → (d, v) ∈ ps) → ph.settled (y.setTimeout k)
  /-- with all responses, all that take part qualify -/
  settled : ∀ k, ph.settled k → y.certified k = true ∧ Qualify net (y.qual k) ∧
    (y.secretCommits k).2 = .ok (net.commits i) ∧ ph.committing [] (y.secretCommits k).1
  /-- it takes commitments -/
  commits : ∀ js k j, ph.committing js k → net.on j → j ≠ i → ph.committing (js ++ [j]) (y.processSecretCommits k (net.commits j)).1 ∧
    (y.processSecretCommits k (net.commits j)).2 = .ok none
  /-- with all commitments, it has its share, and they still qualify -/
  done : ∀ js k, ph.committing js k → (∀ j, net.on j → j ≠ i → j ∈ js) → y.finished k = true ∧ y.distKeyShare k = .ok (net.key i) ∧
    Qualify net (y.qual k)

/-- The two protocols that begin with a key generation: the one of member `i` of `n` in the run `id`. -/
def Runs {K : Type} (c : Prot.Conf Dto Obj (Data K)) (y : Kyb K) (id : String) (i n : Nat) : Prop :=
  c = dkgConf y id i n ∨ ∃ H SH env, c = dssConf y H SH env id i n

/-- What the run handled and accepted with op codes up to `k` is said by honest members to this one. -/
def Honestly {K : Type} (c : Prot.Conf Dto Obj (Data K)) (net : Net) (k : Int) (l : List (Prot.Entry Dto Obj)) : Prop :=
  ∀ m, .handled m ∈ l → m.op ≤ k → (∃ a, Spec.Prot.Accepts c m a) → Says net c.members c.pc c.id m ∧ m.rcpt = c.self

/-- All that honest members say to this one with op codes up to `k` was handled. -/
def Heard {K : Type} (c : Prot.Conf Dto Obj (Data K)) (net : Net) (k : Int) (l : List (Prot.Entry Dto Obj)) : Prop :=
  ∀ m, Says net c.members c.pc c.id m → m.rcpt = c.self → m.op ≤ k → .handled m ∈ l

end Verif.Spec.Generation
