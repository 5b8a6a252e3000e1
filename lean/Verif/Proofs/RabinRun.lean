import Verif.Spec.RabinOwn
import Verif.Proofs.Rabin
import Verif.Proofs.ProtHeld
import Verif.Proofs.DkgSafe

/-! Runs of a member with kyber's generator, whatever others do. -/
namespace Verif.Rabin
open Verif.Point Verif.Props Verif.Dkg Verif.Dto Verif.Dss Verif.Spec.Rabin Verif.Prot

/-! No panics -/

theorem mul_total (s : Int) (p : Pt) : ∃ r, mul s p = .ok r := by
  obtain ⟨r, h, _⟩ := log_base.mul s
  rw [mul] at h
  obtain ⟨bs, h1, _⟩ := (Outcome.bind_eq_ok _ _ _).1 h
  exact ⟨_, by rw [mul, h1]; rfl⟩

theorem evalCommits_total (cs : List Pt) (i : Int) : ∃ r, evalCommits cs i = .ok r := by
  induction cs with
  | nil => exact ⟨_, rfl⟩
  | cons c cs ih =>
    obtain ⟨r, hr⟩ := ih
    obtain ⟨v, hv⟩ := mul_total (Scalar.setInt64 (1 + i)) r
    refine ⟨add v c, ?_⟩
    show (evalCommits cs i >>= fun v => mul (Scalar.setInt64 (1 + i)) v >>= fun v => pure (add v c)) = _
    rw [hr, Outcome.bind_ok, hv]
    rfl

theorem checkShare_total (cs : List Pt) (s : Share) : ∃ b, checkShare cs s = .ok b := by
  obtain ⟨v, hv⟩ := evalCommits_total cs s.I
  obtain ⟨p, hp⟩ := mul_total s.V base
  exact ⟨_, by rw [checkShare, hv, Outcome.bind_ok, hp]; rfl⟩

theorem verifyDeal_total (S : Suite) (pubs : List Pt) (d : VssDeal) : ∃ b, verifyDeal S pubs d = .ok b := by
  obtain ⟨p, hp⟩ := mul_total d.secShare.V base
  obtain ⟨q, hq⟩ := mul_total d.rndShare.V (S.deriveH pubs)
  obtain ⟨e, he⟩ := evalCommits_total d.commitments d.secShare.I
  rw [verifyDeal, hp, Outcome.bind_ok, hq, Outcome.bind_ok, he, Outcome.bind_ok]
  split
  · exact ⟨_, rfl⟩
  · split
    · exact ⟨_, rfl⟩
    · split <;> exact ⟨_, rfl⟩

theorem sumShares_some {k : Gen} (q : List Nat) (sh : Int) (pub : Option (List Pt)) (r : Int × Option (List Pt)) (hq : q ≠ [] ∨ pub ≠ none)
    (h : sumShares k q (sh, pub) = .ok r) : r.2 ≠ none := by
  induction q generalizing sh pub with
  | nil => cases h; exact hq.resolve_left fun h => h rfl
  | cons j q ih =>
    rw [sumShares] at h
    split at h
    · split at h
      · cases h
      · dsimp only at h
        split at h
        · exact ih _ _ (.inr (by simp)) h
        · obtain ⟨p, _, h⟩ := (Outcome.bind_eq_ok _ _ _).1 h
          exact ih _ _ (.inr (by simp)) h
    · cases h

theorem sumShares_ne_panic {k : Gen} (q : List Nat) (x : Int × Option (List Pt)) : sumShares k q x ≠ .panic := by
  induction q generalizing x with
  | nil => simp [sumShares]
  | cons j q ih =>
    obtain ⟨sh, pub⟩ := x
    rw [sumShares]
    split
    · split
      · simp
      · dsimp only
        split
        · exact ih _
        · rw [Outcome.bind_ne_panic]
          refine ⟨?_, fun _ _ => ih _⟩
          rw [addPolys]
          split <;> simp
    · simp

theorem distKeyShare_ne_panic {m : Member} (hT : 1 ≤ m.T) (k : Gen) : distKeyShare m k ≠ .panic := by
  rw [distKeyShare]
  split
  · rename_i hc
    rw [Outcome.bind_ne_panic]
    refine ⟨sumShares_ne_panic _ _, ?_⟩
    rintro ⟨sh, pub⟩ hr
    have : qual m k ≠ [] := by
      intro e
      rw [certified, e, decide_eq_true_eq] at hc
      exact absurd hc (by show ¬ m.T ≤ 0; omega)
    have := sumShares_some _ _ _ _ (.inl this) hr
    cases pub with
    | none => exact absurd rfl this
    | some p => simp
  · simp

theorem processDeal_ne_panic (S : Suite) (m : Member) (k : Gen) (d : Deal) : (processDeal S m k d).2 ≠ .panic := by
  rw [processDeal]
  split
  · simp
  · split
    · simp
    · split
      · simp
      · split
        · simp
        · rename_i e _ _
          obtain ⟨b, hb⟩ := verifyDeal_total S m.participants e
          rw [hb]
          simp

theorem processResponse_ne_panic (S : Suite) (m : Member) (k : Gen) (r : Response) : (processResponse S m k r).2 ≠ .panic := by
  rw [processResponse]
  split
  · split
    · simp
    · dsimp only
      split
      · simp
      · split
        · simp
        · dsimp only
          split <;> simp
  · simp

theorem secretCommits_ne_panic (S : Suite) (m : Member) (k : Gen) : (secretCommits S m k).2 ≠ .panic := by
  rw [secretCommits]
  split <;> simp

theorem processSecretCommits_ne_panic (S : Suite) (m : Member) (k : Gen) (c : SecretCommits) : (processSecretCommits S m k c).2 ≠ .panic := by
  rw [processSecretCommits]
  split
  · split
    · simp
    · split
      · split
        · simp
        · rename_i d _
          obtain ⟨b, hb⟩ := checkShare_total c.commitments d.secShare
          rw [hb]
          cases b <;> simp
      · simp
  · simp

/-! The own deal -/
section
variable {S : Suite} {R : Choice} {i : Nat}

theorem newGen_able (h : Able S R i) : newGen S (R.member i) = .ok (first S R i) := by
  obtain ⟨h1, h2⟩ := h.polys
  have e : addPolys ((R.f i).map (timesAdd base)) ((R.g i).map (timesAdd (S.deriveH R.keys))) = .ok (commitments S R i) := by
    rw [addPolys, if_neg (by simp [h1, h2]), zip_map]
    rfl
  rw [newGen]
  simp only [Choice.member]
  rw [commit_eq isElt_base, Outcome.bind_ok, commit_eq h.second, Outcome.bind_ok, e, Outcome.bind_ok, h.key, Outcome.bind_ok]
  simp only [evalPoly_eq]
  rfl

theorem verifyDeal_able (h : Able S R i) : verifyDeal S R.keys (dealOf S R i i) = .ok true := by
  obtain ⟨h1, h2⟩ := h.polys
  have hm := h.mem
  have := h.low
  have := h.high
  obtain ⟨p, q, e, p1, q1, e1, e2⟩ := check_pair h.second (R.f i) (R.g i) (h1.trans h2.symm) i
  rw [verifyDeal, if_neg (by show ¬ (R.T < 2 ∨ R.keys.length < R.T); omega), if_neg (by simp [dealOf]),
    if_neg (by show ¬ ((i : Int) < 0 ∨ (R.keys.length : Int) ≤ i); omega)]
  show (mul (peval (R.f i) (i + 1) % secp256k1N) base >>= fun p => mul (peval (R.g i) (i + 1) % secp256k1N) (S.deriveH R.keys) >>= fun q =>
    evalCommits (commitments S R i) i >>= fun e => pure (equal (add p q) e)) = _
  rw [p1, Outcome.bind_ok, q1, Outcome.bind_ok, commitments, e1, Outcome.bind_ok, e2]
  rfl

/-- The own verifier and the own dealer after the own deal. -/
def ownAgg (S : Suite) (R : Choice) (i : Nat) : Agg := ⟨session S R i, R.T, some (dealOf S R i i), GoMap.set [] i true, false⟩
@[inherit_doc ownAgg] def ownDealer (S : Suite) (R : Choice) (i : Nat) : Agg := ⟨session S R i, R.T, none, GoMap.set [] i true, false⟩

/-- The generator after its deals. -/
def dealtGen (S : Suite) (R : Choice) (i : Nat) : Gen :=
  ⟨GoMap.set [] i (some (ownAgg S R i)), ownDealer S R i, (List.range R.keys.length).map (fun b => dealOf S R i b), (R.f i).map (timesAdd base), []⟩

theorem own_processDeal (h : Able S R i) : processDeal S (R.member i) (first S R i) ⟨i, R.encrypt i i (dealOf S R i i)⟩ =
    ({ first S R i with vers := GoMap.set [] i (some (ownAgg S R i)) },
      .ok (some ⟨i, some ⟨session S R i, i, true, R.sign i (S.respHash (session S R i) i true)⟩⟩)) := by
  have hk : R.keys[i]? = some (R.key i) := by
    rw [Choice.key, List.getD_eq_getElem?_getD, List.getElem?_eq_getElem h.mem, Option.getD_some]
  have e1 := add_new (n := R.keys.length) (a := ⟨session S R i, R.T, some (dealOf S R i i), [], false⟩) true h.mem rfl
  have e2 := add_old (n := R.keys.length) (a := ⟨session S R i, R.T, some (dealOf S R i i), GoMap.set [] i true, false⟩) (v := i) true (c := true)
    ((GoMap.get?_set [] i true i).trans (if_pos rfl))
  rw [processDeal]
  show (match R.keys[i]? with
    | none => (first S R i, Outcome.err)
    | some pub => _) = _
  rw [hk]
  dsimp only
  rw [if_neg (by show ¬ (GoMap.get? [] i).isSome = true; simp [GoMap.get?])]
  show (match S.decrypt (R.long i) (R.key i) R.keys (R.encrypt i i (dealOf S R i i)) with
    | none => _
    | some e => _) = _
  rw [h.encrypt]
  dsimp only
  rw [if_neg (by simp [dealOf, Choice.member])]
  show (match verifyDeal S R.keys (dealOf S R i i) with
    | .ok ok => _
    | .err => _
    | .panic => _) = _
  rw [verifyDeal_able h]
  dsimp only
  show (({ first S R i with vers := GoMap.set [] i (some (addResponse R.keys.length (addResponse R.keys.length
    ⟨session S R i, R.T, some (dealOf S R i i), [], false⟩ i true).1 i true).1) } : Gen), _) = _
  rw [e1]
  dsimp only
  rw [e2]
  rfl

theorem deals_able (h : Able S R i) : deals S (R.member i) (first S R i) =
    (dealtGen S R i, .ok (otherDeals (R.member i) ((List.range R.keys.length).map (fun b => dealOf S R i b)))) := by
  have e2 := add_new (n := R.keys.length) (a := ⟨session S R i, R.T, none, [], false⟩) true h.mem rfl
  rw [deals, if_neg (by show ¬ (GoMap.get? [] _).isSome = true; simp [GoMap.get?])]
  show (match ((List.range R.keys.length).map (fun b => dealOf S R i b))[i]? with
    | none => (first S R i, Outcome.panic)
    | some own => _) = _
  rw [List.getElem?_map, List.getElem?_range h.mem]
  dsimp only [Option.map_some]
  show (match processDeal S (R.member i) (first S R i) ⟨i, R.encrypt i i (dealOf S R i i)⟩ with
    | (k, .ok (some ⟨_, some r⟩)) => _
    | (k, _) => _) = _
  rw [own_processDeal h]
  dsimp only
  rw [if_pos rfl]
  show ((⟨_, (addResponse R.keys.length ⟨session S R i, R.T, none, [], false⟩ i true).1, _, _, _⟩ : Gen), _) = _
  rw [e2]
  rfl

/-! The generator in the stages of a run -/

/-- The own verifier has the same responses as the own dealer. -/
def Synced (i : Nat) (k : Gen) : Prop :=
  ∃ a, k.vers.get? i = some (some a) ∧ a.resps = k.dealer.resps ∧ a.T = k.dealer.T ∧ a.bad = k.dealer.bad ∧ a.sid = k.dealer.sid

/-- The generator in stage `n`. -/
structure Kst (S : Suite) (R : Choice) (i : Nat) (n : Int) (k : Gen) : Prop where
  first : n < 1 → k = first S R i
  inv : 1 ≤ n → Verif.Rabin.Inv (R.member i) (R.f i) k
  synced : 1 ≤ n → n ≤ 3 → Synced i k
  cert : n = 4 → dealCertified R.keys.length k.dealer = true → ∃ a, k.vers.get? i = some (some a) ∧ dealCertified R.keys.length a = true
  own : 5 ≤ n → i ∈ qual (R.member i) k ∧ k.coms.get? i = some ((R.f i).map (timesAdd base))

theorem kst_first (n : Int) (hn : n < 1) : Kst S R i n (Spec.Rabin.first S R i) :=
  ⟨fun _ => rfl, fun h => by omega, fun h => by omega, fun h => by omega, fun h => by omega⟩

theorem kst_deals (h : Able S R i) : Kst S R i 1 (dealtGen S R i) := by
  refine ⟨fun h => by omega, fun _ => ?_, fun _ _ => ?_, fun h => by omega, fun h => by omega⟩
  · have := Verif.Rabin.Inv.first (S := S) (m := R.member i) (fs := R.f i) rfl (k0 := Spec.Rabin.first S R i) ?_ (newGen_able h)
      (ds := otherDeals (R.member i) ((List.range R.keys.length).map (fun b => dealOf S R i b))) (by rw [deals_able h])
    · rw [deals_able h] at this
      exact this
    · intro pub d h1 h2
      change R.keys[i]? = some pub at h1
      change ((List.range R.keys.length).map (fun b => dealOf S R i b))[i]? = some d at h2
      rw [List.getElem?_map, List.getElem?_range h.mem] at h2
      cases h2
      have hk : pub = R.key i := by rw [Choice.key, List.getD_eq_getElem?_getD, h1]; rfl
      rw [hk]
      exact h.encrypt
  · exact ⟨ownAgg S R i, (GoMap.get?_set [] i _ i).trans (if_pos rfl), rfl, rfl, rfl, rfl⟩

theorem synced_deal {k : Gen} (x : Synced i k) (m : Member) (d : Deal) : Synced i (processDeal S m k d).1 := by
  obtain ⟨a, h1, h2⟩ := x
  rcases processDeal_cases S m k d with e | ⟨hn, e | ⟨_, b, _, _, _, _, _, e⟩⟩
  · rw [e]; exact ⟨a, h1, h2⟩
  all_goals
    rw [e]
    refine ⟨a, ?_, h2⟩
    refine (GoMap.get?_set _ _ _ _).trans ((if_neg ?_).trans h1)
    rintro rfl
    rw [h1] at hn
    cases hn

theorem addResponse_alike {n : Nat} {a b : Agg} (h1 : a.resps = b.resps) (h2 : a.T = b.T) (h3 : a.bad = b.bad) (h4 : a.sid = b.sid) (v : Nat) (ok : Bool) :
    (addResponse n a v ok).2 = (addResponse n b v ok).2 ∧ (addResponse n a v ok).1.resps = (addResponse n b v ok).1.resps ∧
      (addResponse n a v ok).1.T = (addResponse n b v ok).1.T ∧ (addResponse n a v ok).1.bad = (addResponse n b v ok).1.bad ∧
      (addResponse n a v ok).1.sid = (addResponse n b v ok).1.sid := by
  rw [addResponse, addResponse, h1]
  split
  · exact ⟨rfl, h1, h2, h3, h4⟩
  · exact ⟨rfl, rfl, h2, h3, h4⟩

theorem verifyResponse_alike {pubs : List Pt} {a b : Agg} (h1 : a.resps = b.resps) (h2 : a.T = b.T) (h3 : a.bad = b.bad) (h4 : a.sid = b.sid) (r : VssResponse) :
    (verifyResponse S pubs a r).2 = (verifyResponse S pubs b r).2 ∧ (verifyResponse S pubs a r).1.resps = (verifyResponse S pubs b r).1.resps ∧
      (verifyResponse S pubs a r).1.T = (verifyResponse S pubs b r).1.T ∧ (verifyResponse S pubs a r).1.bad = (verifyResponse S pubs b r).1.bad ∧
      (verifyResponse S pubs a r).1.sid = (verifyResponse S pubs b r).1.sid := by
  rw [verifyResponse, verifyResponse, h4]
  split
  · exact ⟨rfl, h1, h2, h3, h4⟩
  · split
    · exact ⟨rfl, h1, h2, h3, h4⟩
    · split
      · exact addResponse_alike h1 h2 h3 h4 _ _
      · exact ⟨rfl, h1, h2, h3, h4⟩

theorem synced_resp {k : Gen} {m : Member} (hm : m.index = i) (x : Synced i k) (r : Response) : Synced i (processResponse S m k r).1 := by
  rw [processResponse]
  split
  · rename_i a w hv hr
    obtain ⟨a', g1, g2, g3, g4, g5⟩ := x
    rcases hvr : verifyResponse S m.participants a w with ⟨b, _ | _⟩
    · exact ⟨a', g1, g2, g3, g4, g5⟩
    · dsimp only
      by_cases hi : r.index ≠ m.index
      · rw [if_pos hi]
        refine ⟨a', ?_, g2, g3, g4, g5⟩
        exact (GoMap.get?_set _ _ _ _).trans ((if_neg (by rw [← hm]; exact hi)).trans g1)
      · rw [if_neg hi]
        have hi : r.index = i := (not_not.1 hi).trans hm
        rw [hi, g1] at hv
        cases hv
        obtain ⟨e1, e2, e3, e4, e5⟩ := verifyResponse_alike (S := S) (pubs := m.participants) g2 g3 g4 g5 w
        rw [hvr] at e1 e2 e3 e4 e5
        rcases hvd : verifyResponse S m.participants k.dealer w with ⟨c, _ | _⟩
        · rw [hvd] at e1; cases e1
        · rw [hvd] at e2 e3 e4 e5
          exact ⟨b, (GoMap.get?_set _ _ _ _).trans (if_pos hi), e2, e3, e4, e5⟩
  · exact x

theorem certified_alike {n : Nat} {a b : Agg} (h1 : a.resps = b.resps) (h2 : a.T = b.T) (h3 : a.bad = b.bad) : dealCertified n a = dealCertified n b := by
  rw [dealCertified, dealCertified, h1, h2, h3]

theorem clean_resps (l : List Nat) {a b : Agg} (h : a.resps = b.resps) (h2 : a.T = b.T) (h3 : a.bad = b.bad) :
    let f := fun (a : Agg) (v : Nat) => if (a.resps.get? v).isSome = true then a else { a with resps := a.resps.set v false }
    (l.foldl f a).resps = (l.foldl f b).resps ∧ (l.foldl f a).T = (l.foldl f b).T ∧ (l.foldl f a).bad = (l.foldl f b).bad := by
  induction l generalizing a b with
  | nil => exact ⟨h, h2, h3⟩
  | cons v l ih =>
    dsimp only
    rw [List.foldl_cons, List.foldl_cons]
    refine ih ?_ ?_ ?_
    all_goals
      by_cases hv : (a.resps.get? v).isSome = true
      · rw [if_pos hv, if_pos (by rw [← h]; exact hv)]
        assumption
      · rw [if_neg hv, if_neg (by rw [← h]; exact hv)]
        simp only [h, h2, h3]

theorem clean_full (l : List Nat) (a : Agg) (h : ∀ v ∈ l, (a.resps.get? v).isSome = true) :
    l.foldl (fun a v => if (a.resps.get? v).isSome = true then a else { a with resps := a.resps.set v false }) a = a := by
  induction l with
  | nil => rfl
  | cons v l ih =>
    rw [List.foldl_cons, if_pos (h v List.mem_cons_self)]
    exact ih fun w hw => h w (List.mem_cons_of_mem _ hw)

theorem cert_timeout {k : Gen} {m : Member} (x : Synced i k) (hd : dealCertified m.participants.length (setTimeout S m k).dealer = true) :
    ∃ a, (setTimeout S m k).vers.get? i = some (some a) ∧ dealCertified m.participants.length a = true := by
  obtain ⟨a, g1, g2, g3, g4, _⟩ := x
  refine ⟨cleanVerifiers m.participants.length a, ?_, ?_⟩
  · show GoMap.get? (k.vers.map _) i = _
    rw [get?_mapVal, g1]
    rfl
  · change dealCertified m.participants.length (if S.dealerTimeout then cleanVerifiers m.participants.length k.dealer else k.dealer) = true at hd
    split at hd
    · obtain ⟨e1, e2, e3⟩ := clean_resps (List.range m.participants.length) g2 g3 g4
      rw [certified_alike (a := cleanVerifiers m.participants.length a) (b := cleanVerifiers m.participants.length k.dealer) e1 e2 e3]
      exact hd
    · have h1 := certified_alike (n := m.participants.length) g2 g3 g4
      rw [← h1] at hd
      have : cleanVerifiers m.participants.length a = a := by
        refine clean_full _ _ fun v hv => ?_
        rw [dealCertified, Bool.and_eq_true, Bool.and_eq_true, List.all_eq_true] at hd
        exact hd.1.2 v hv
      rw [this]
      exact hd

theorem mem_qual (h : Able S R i) {k : Gen} {a : Agg} (h1 : k.vers.get? i = some (some a)) (h2 : dealCertified R.keys.length a = true) :
    i ∈ qual (R.member i) k := by
  rw [qual, List.mem_filter]
  refine ⟨(h.iter _).mem_iff.2 ?_, ?_⟩
  · exact List.mem_map.2 ⟨_, mem_of_get? h1, rfl⟩
  · rw [h1]; exact h2

/-! Sums -/

theorem sumShares_length {k : Gen} (q : List Nat) (sh : Int) (pub : Option (List Pt)) (v : Int) (p : List Pt)
    (h : sumShares k q (sh, pub) = .ok (v, some p)) :
    (∀ p0, pub = some p0 → p0.length = p.length) ∧ ∀ j ∈ q, ∀ cs, k.coms.get? j = some cs → cs.length = p.length := by
  induction q generalizing sh pub with
  | nil => cases h; exact ⟨fun p0 e => by cases e; rfl, fun j hj => by cases hj⟩
  | cons j q ih =>
    rw [sumShares] at h
    split at h
    · rename_i a cs _ hcs
      split at h
      · cases h
      · dsimp only at h
        split at h
        · obtain ⟨e1, e2⟩ := ih _ _ h
          refine ⟨fun p0 e => (by cases e), fun l hl cs' hc => ?_⟩
          rcases List.mem_cons.1 hl with rfl | hl
          · rw [hcs] at hc
            cases hc
            exact e1 _ rfl
          · exact e2 l hl cs' hc
        · rename_i p1
          obtain ⟨p2, hp, h⟩ := (Outcome.bind_eq_ok _ _ _).1 h
          obtain ⟨e1, e2⟩ := ih _ _ h
          rw [addPolys] at hp
          split at hp
          · cases hp
          · rename_i hl
            have hl : p1.length = cs.length := not_not.1 hl
            cases hp
            have e3 := e1 _ rfl
            rw [List.length_zipWith] at e3
            refine ⟨fun p0 e => by cases e; omega, fun l hl' cs' hc => ?_⟩
            rcases List.mem_cons.1 hl' with rfl | hl'
            · rw [hcs] at hc
              cases hc
              omega
            · exact e2 l hl' cs' hc
    · cases h

/-- The share that a generator gives. -/
theorem share_fits (h : Able S R i) {n : Int} (hn : 5 ≤ n) {k : Gen} (x : Kst S R i n k) {sh : KeyShare} (hk : distKeyShare (R.member i) k = .ok sh) :
    sh.share.I = i ∧ ∃ ls : List Nat, sh.commits = ls.map (timesAdd base) ∧ ls.length = R.T ∧ (sh.share.V - peval ls (i + 1)) % secp256k1N = 0 := by
  rw [distKeyShare] at hk
  split at hk
  · obtain ⟨⟨v, pub⟩, e1, e2⟩ := (Outcome.bind_eq_ok _ _ _).1 hk
    dsimp only at e2
    split at e2
    · cases e2
    · rename_i p
      cases e2
      obtain ⟨ls, h1, h2⟩ := (x.inv (by omega)).sum _ _ _ _ (fun _ => rfl) (fun _ h => by cases h) e1 p rfl
      refine ⟨rfl, ls, h1, ?_, h2⟩
      obtain ⟨g1, g2⟩ := x.own hn
      have := (sumShares_length _ _ _ _ _ e1).2 i g1 _ g2
      rw [List.length_map, h.polys.1, h1, List.length_map] at this
      exact this.symm
  · cases hk

end
end Verif.Rabin
