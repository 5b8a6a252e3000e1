import Verif.Model.Dkg

/-!
Kyber's distributed key generation (`share/dkg/rabin` with `share/vss/rabin` and `share/poly.go`), as far as members without
complaints use it: the library is not in /repo, which calls it in /repo/siggy/src/protocol/dkg.go:21-132. The model is written after the
published version 3 of the library, from memory. Random numbers, signatures, hashes and the encryption of deals are parameters.
Left out: justifications, complaints about commitments and the reconstruction of commitments. Kyber acts on them; here they change nothing and
give an error, and so does a complaint about an own deal, for which kyber makes a justification. Theorems about this model say nothing of kyber
on receiving these. A verifier whose deal cannot be read has no
aggregator, and where kyber would follow the nil pointer nothing happens.
-/
namespace Verif.Rabin
open Verif.Point Verif.Dkg Verif.Dto Verif.Dss

/-- What the members share: the decryption of a deal with the key of the verifier, with the check of its signature
(`decryptDeal`); the check of a Schnorr signature; the hashes of responses, of commitments and of complaints; the session identifier; the second
base (`deriveH`); and whether `SetTimeout` of the generator also reaches the responses that its dealer has. -/
structure Suite where
  decrypt : Int → Pt → List Pt → EncryptedDeal → Option VssDeal
  verify : Pt → List UInt8 → List UInt8 → Bool
  respHash : List UInt8 → Nat → Bool → List UInt8
  commitsHash : Nat → List UInt8 → List Pt → List UInt8
  complHash : Nat → Nat → VssDeal → List UInt8
  sid : Pt → List Pt → List Pt → Nat → List UInt8
  deriveH : List Pt → Pt
  dealerTimeout : Bool

/-- A member: its index, key and threshold, the public keys of all, and what it makes with its random numbers: the coefficients of its
two polynomials, its signatures and its encrypted deals. `iter` is the order of iteration over a map. -/
structure Member where
  index : Nat
  long : Int
  participants : List Pt
  T : Nat
  f : List Int
  g : List Int
  sign : List UInt8 → List UInt8
  encrypt : Nat → VssDeal → EncryptedDeal
  iter : List Nat → List Nat

/-! Polynomials (poly.go). -/

/-- `PriPoly.Eval`. -/
def evalPoly (cs : List Int) (i : Int) : Int :=
  cs.foldr (fun c v => Scalar.add (Scalar.mul v (Scalar.setInt64 (1 + i))) c) Scalar.zero

/-- `PriPoly.Commit`. -/
def commit (b : Pt) : List Int → Outcome (List Pt)
  | [] => .ok []
  | c :: cs => do
    let p ← mul c b
    let ps ← commit b cs
    return p :: ps

/-- `PubPoly.Add`. -/
def addPolys (a b : List Pt) : Outcome (List Pt) := if a.length ≠ b.length then .err else .ok (List.zipWith add a b)

/-- `PubPoly.Check` with the base of the curve. -/
def checkShare (cs : List Pt) (s : Share) : Outcome Bool := do
  let v ← evalCommits cs s.I
  let p ← mul s.V base
  return equal v p

/-! Verifiable secret sharing (vss.go). -/

/-- The aggregator of a dealer or of a verifier: responses are kept as whether they approve. -/
structure Agg where
  sid : List UInt8
  T : Nat
  deal : Option VssDeal
  resps : GoMap Nat Bool
  bad : Bool

/-- `addResponse`, and whether it was done. -/
def addResponse (n : Nat) (a : Agg) (v : Nat) (ok : Bool) : Agg × Bool :=
  if n ≤ v ∨ (a.resps.get? v).isSome = true then (a, false) else ({ a with resps := a.resps.set v ok }, true)

/-- `verifyResponse`. -/
def verifyResponse (S : Suite) (pubs : List Pt) (a : Agg) (r : VssResponse) : Agg × Bool :=
  if r.sessionID ≠ a.sid then (a, false)
  else match pubs[r.index]? with
    | none => (a, false)
    | some p => if S.verify p (S.respHash r.sessionID r.index r.approved) r.signature then addResponse pubs.length a r.index r.approved else (a, false)

/-- `VerifyDeal` on a deal that is the first of its verifier. -/
def verifyDeal (S : Suite) (pubs : List Pt) (d : VssDeal) : Outcome Bool :=
  if d.T < 2 ∨ pubs.length < d.T then .ok false
  else if d.secShare.I ≠ d.rndShare.I then .ok false
  else if d.secShare.I < 0 ∨ (pubs.length : Int) ≤ d.secShare.I then .ok false
  else do
    let p ← mul d.secShare.V base
    let q ← mul d.rndShare.V (S.deriveH pubs)
    let e ← evalCommits d.commitments d.secShare.I
    return equal (add p q) e

/-- `cleanVerifiers`: who has not responded complains. -/
def cleanVerifiers (n : Nat) (a : Agg) : Agg :=
  (List.range n).foldl (fun a v => if (a.resps.get? v).isSome = true then a else { a with resps := a.resps.set v false }) a

/-- `DealCertified`: all have responded, enough of them with approval. -/
def dealCertified (n : Nat) (a : Agg) : Bool :=
  decide (a.T ≤ (a.resps.filter fun p => p.2).length) && ((List.range n).all fun v => (a.resps.get? v).isSome) && !a.bad

/-! The generator (dkg.go). -/

/-- `DistKeyGenerator`: verifiers by dealer, each with its aggregator if it has one; the dealer with its deals and the commitments
to its polynomial; the commitments of others. -/
structure Gen where
  vers : GoMap Nat (Option Agg)
  dealer : Agg
  deals : List VssDeal
  secret : List Pt
  coms : GoMap Nat (List Pt)

/-- `NewDealer`. -/
def newGen (S : Suite) (m : Member) : Outcome Gen := do
  let F ← commit base m.f
  let G ← commit (S.deriveH m.participants) m.g
  let C ← addPolys F G
  let pub ← mul m.long base
  let sid := S.sid pub m.participants C m.T
  return {
    vers := []
    dealer := ⟨sid, m.T, none, [], false⟩
    deals := (List.range m.participants.length).map fun (i : Nat) => ⟨sid, ⟨i, evalPoly m.f i⟩, ⟨i, evalPoly m.g i⟩, m.T, C⟩
    secret := F
    coms := [] }

/-- `ProcessDeal` with `ProcessEncryptedDeal`. -/
def processDeal (S : Suite) (m : Member) (k : Gen) (d : Deal) : Gen × Outcome (Option Response) :=
  match m.participants[d.index]? with
  | none => (k, .err)
  | some pub =>
    if (k.vers.get? d.index).isSome = true then (k, .err)
    else match S.decrypt m.long pub m.participants d.deal with
      | none => ({ k with vers := k.vers.set d.index none }, .err)
      | some e =>
        if e.secShare.I ≠ m.index then ({ k with vers := k.vers.set d.index none }, .err)
        else match verifyDeal S m.participants e with
          | .ok ok =>
            let sid := S.sid pub m.participants e.commitments e.T
            let a : Agg := (addResponse m.participants.length ⟨e.sessionID, e.T, some e, [], false⟩ m.index ok).1
            let a := (addResponse m.participants.length a d.index true).1
            ({ k with vers := k.vers.set d.index (some a) }, .ok (some ⟨d.index, some ⟨sid, m.index, ok, m.sign (S.respHash sid m.index ok)⟩⟩))
          | .err => (k, .err)
          | .panic => (k, .panic)

/-- The deals for others in `Deals`. -/
def otherDeals (m : Member) (ds : List VssDeal) : List (Int × Deal) :=
  ((List.range m.participants.length).filter (· ≠ m.index)).filterMap fun (b : Nat) =>
    ds[b]?.map fun d => ((b : Int), (⟨m.index, m.encrypt b d⟩ : Deal))

/-- `Deals`: the own deal is processed, if it was not, and must be approved. -/
def deals (S : Suite) (m : Member) (k : Gen) : Gen × Outcome (List (Int × Deal)) :=
  if (k.vers.get? m.index).isSome = true then (k, .ok (otherDeals m k.deals))
  else match k.deals[m.index]? with
    | none => (k, .panic)
    | some own =>
      match processDeal S m k ⟨m.index, m.encrypt m.index own⟩ with
      | (k, .ok (some ⟨_, some r⟩)) =>
        if r.approved then ({ k with dealer := (addResponse m.participants.length k.dealer m.index true).1 }, .ok (otherDeals m k.deals))
        else (k, .panic)
      | (k, _) => (k, .panic)

/-- `ProcessResponse`. For its own deal the dealer looks at the response too; the justification of a complaint is left out. -/
def processResponse (S : Suite) (m : Member) (k : Gen) (r : Response) : Gen × Outcome (Option Justification) :=
  match k.vers.get? r.index, r.response with
  | some (some a), some w =>
    match verifyResponse S m.participants a w with
    | (_, false) => (k, .err)
    | (a, true) =>
      let k := { k with vers := k.vers.set r.index (some a) }
      if r.index ≠ m.index then (k, .ok none)
      else match verifyResponse S m.participants k.dealer w with
        | (_, false) => (k, .err)
        | (b, true) => ({ k with dealer := b }, if w.approved then .ok none else .err)
  | _, _ => (k, .err)

/-- `SetTimeout`. -/
def setTimeout (S : Suite) (m : Member) (k : Gen) : Gen :=
  { k with
    vers := k.vers.map fun p => (p.1, p.2.map (cleanVerifiers m.participants.length))
    dealer := if S.dealerTimeout then cleanVerifiers m.participants.length k.dealer else k.dealer }

/-- `qualIter`: the dealers whose deals are certified, in the order of the map. -/
def qual (m : Member) (k : Gen) : List Nat :=
  (m.iter k.vers.keys).filter fun j => match k.vers.get? j with
    | some (some a) => dealCertified m.participants.length a
    | _ => false

/-- `Certified`. -/
def certified (m : Member) (k : Gen) : Bool := decide (m.T ≤ (qual m k).length)

/-- `SecretCommits`. -/
def secretCommits (S : Suite) (m : Member) (k : Gen) : Gen × Outcome SecretCommits :=
  if dealCertified m.participants.length k.dealer then
    ({ k with coms := k.coms.set m.index k.secret },
      .ok ⟨m.index, k.secret, k.dealer.sid, m.sign (S.commitsHash m.index k.dealer.sid k.secret)⟩)
  else (k, .err)

/-- `ProcessSecretCommits`. -/
def processSecretCommits (S : Suite) (m : Member) (k : Gen) (c : SecretCommits) : Gen × Outcome (Option ComplaintCommits) :=
  match m.participants[c.index]?, k.vers.get? c.index with
  | some pub, some (some a) =>
    if c.index ∉ qual m k ∨ c.sessionID ≠ a.sid then (k, .err)
    else if S.verify pub (S.commitsHash c.index c.sessionID c.commitments) c.signature then
      match a.deal with
      | none => (k, .err)
      | some d =>
        match checkShare c.commitments d.secShare with
        | .ok true => ({ k with coms := k.coms.set c.index c.commitments }, .ok none)
        | .ok false => (k, .ok (some ⟨m.index, c.index, d, m.sign (S.complHash m.index c.index d)⟩))
        | .err => (k, .err)
        | .panic => (k, .panic)
    else (k, .err)
  | _, _ => (k, .err)

/-- `Finished`. -/
def finished (m : Member) (k : Gen) : Bool :=
  decide (m.T ≤ (qual m k).length) && (qual m k).all fun j => (k.coms.get? j).isSome

/-- The loop of `DistKeyShare`: the sum of the shares, and of the commitments. -/
def sumShares (k : Gen) : List Nat → Int × Option (List Pt) → Outcome (Int × Option (List Pt))
  | [], x => .ok x
  | j :: js, (sh, pub) =>
    match k.vers.get? j, k.coms.get? j with
    | some (some a), some cs =>
      match a.deal with
      | none => .err
      | some d =>
        let sh := Scalar.add sh d.secShare.V
        match pub with
        | none => sumShares k js (sh, some cs)
        | some p => do
          let p ← addPolys p cs
          sumShares k js (sh, some p)
    | _, _ => .err

/-- `DistKeyShare`. -/
def distKeyShare (m : Member) (k : Gen) : Outcome KeyShare :=
  if certified m k then do
    let (sh, pub) ← sumShares k (qual m k) (Scalar.zero, none)
    match pub with
    | none => .panic
    | some cs => .ok ⟨⟨m.index, sh⟩, cs⟩
  else .err

/-- The generator of a member. -/
def kyb (S : Suite) (m : Member) : Kyb Gen where
  deals := deals S m
  processDeal := processDeal S m
  processResponse := processResponse S m
  processJustification k _ := (k, .err)
  setTimeout := setTimeout S m
  certified := certified m
  qual k := (qual m k).map Int.ofNat
  secretCommits := secretCommits S m
  processSecretCommits := processSecretCommits S m
  processComplaintCommits k _ := (k, .err)
  processReconstructCommits k _ := (k, .err)
  finished := finished m
  distKeyShare := distKeyShare m

end Verif.Rabin
