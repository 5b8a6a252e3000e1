import Verif.Spec.Rabin

/-! Kyber's generators among honest members. -/
namespace Verif.Rabin
open Verif.Point Verif.Props Verif.Dkg Verif.Dto Verif.Dss Verif.Spec.Rabin Verif.Spec.Generation

/-! Polynomials -/

theorem modG_eq (x : Int) : Scalar.modG x = x % secp256k1N := rfl

theorem evalPoly_eq (cs : List Nat) (i : Int) : evalPoly (cs.map Int.ofNat) i = peval cs (i + 1) % secp256k1N := by
  induction cs with
  | nil => rfl
  | cons c cs ih =>
    show Scalar.add (Scalar.mul (evalPoly (cs.map Int.ofNat) i) (Scalar.setInt64 (1 + i))) (Int.ofNat c) = _
    rw [ih, peval, Scalar.add, Scalar.mul, Scalar.setInt64, modG_eq, modG_eq, modG_eq]
    rw [← Int.mul_emod, Int.emod_add_emod, Int.add_comm, Int.mul_comm, Int.add_comm 1 i]
    rfl

theorem commit_eq {b : Pt} (hb : IsElt b) (cs : List Nat) : commit b (cs.map Int.ofNat) = .ok (cs.map (timesAdd b)) := by
  induction cs with
  | nil => rfl
  | cons c cs ih =>
    rw [List.map_cons, commit, ih]
    rw [show mul (Int.ofNat c) b = .ok (timesAdd b c) from (C10_mul c b hb).1]
    rfl

theorem zip_map {α β γ δ ε : Type} (h : γ → δ → ε) (f : α → γ) (g : β → δ) (xs : List α) (ys : List β) :
    List.zipWith h (xs.map f) (ys.map g) = List.zipWith (fun x y => h (f x) (g y)) xs ys := by
  induction xs generalizing ys with
  | nil => simp
  | cons x xs ih => cases ys <;> simp [ih]

theorem log_base_nat (k : Nat) : Log (timesAdd base k) (k : Fn) := by
  have := log_timesAdd log_base k
  rwa [mul_one] at this

theorem add_base (a b : Nat) : add (timesAdd base a) (timesAdd base b) = timesAdd base (a + b) := by
  refine ((log_base_nat a).add (log_base_nat b)).unique_left ?_
  have := log_base_nat (a + b)
  push_cast at this
  exact this

theorem isElt_base : IsElt base := (exists_log_iff base).2 ⟨1, log_base⟩

theorem cast_emod (x : Int) : ((x % secp256k1N : Int) : Fn) = (x : Fn) := ZMod.intCast_mod x _

theorem log_pair {P : Pt} {h : Fn} (hP : Log P h) (xs ys : List Nat) :
    List.Forall₂ Log (List.zipWith (fun x y => add (timesAdd base x) (timesAdd P y)) xs ys)
      (List.zipWith (fun (x y : Nat) => (x : Fn) + y * h) xs ys) := by
  induction xs generalizing ys with
  | nil => simp
  | cons x xs ih =>
    cases ys with
    | nil => simp
    | cons y ys => exact .cons ((log_base_nat x).add (log_timesAdd hP y)) (ih ys)

theorem eval_pair (h z : Fn) (xs ys : List Nat) (hl : xs.length = ys.length) :
    (polyOf (List.zipWith (fun (x y : Nat) => (x : Fn) + y * h) xs ys)).eval z =
      (polyOf (xs.map fun k : Nat => (k : Fn))).eval z + (polyOf (ys.map fun k : Nat => (k : Fn))).eval z * h := by
  induction xs generalizing ys with
  | nil =>
    cases ys with
    | nil => simp [polyOf]
    | cons y ys => simp at hl
  | cons x xs ih =>
    cases ys with
    | nil => simp at hl
    | cons y ys =>
      simp only [List.zipWith_cons_cons, List.map_cons, polyOf, Polynomial.eval_add, Polynomial.eval_C, Polynomial.eval_mul, Polynomial.eval_X]
      rw [ih ys (by simpa using hl)]
      ring

/-- The value of a committed polynomial. -/
theorem check_pair {P : Pt} (hP : IsElt P) (xs ys : List Nat) (hl : xs.length = ys.length) (b : Nat) :
    ∃ p q e, mul (peval xs (b + 1) % secp256k1N) base = .ok p ∧ mul (peval ys (b + 1) % secp256k1N) P = .ok q ∧
      evalCommits (List.zipWith (fun x y => add (timesAdd base x) (timesAdd P y)) xs ys) b = .ok e ∧ equal (add p q) e = true := by
  obtain ⟨h, hh⟩ := (exists_log_iff P).1 hP
  obtain ⟨p, p1, p2⟩ := log_base.mul (peval xs (b + 1) % secp256k1N)
  obtain ⟨q, q1, q2⟩ := hh.mul (peval ys (b + 1) % secp256k1N)
  obtain ⟨e, e1, e2⟩ := evalCommits_spec (log_pair hh xs ys) b
  refine ⟨p, q, e, p1, q1, e1, ((p2.add q2).equal_iff e2).2 ?_⟩
  rw [eval_pair h _ xs ys hl, cast_emod, cast_emod, cast_peval, cast_peval, mul_one, xOf]

theorem checkShare_ok (xs : List Nat) (b : Nat) :
    checkShare (xs.map (timesAdd base)) ⟨b, peval xs (b + 1) % secp256k1N⟩ = .ok true := by
  obtain ⟨e, e1, e2⟩ := evalCommits_spec (forall2_log xs) b
  obtain ⟨p, p1, p2⟩ := log_base.mul (peval xs (b + 1) % secp256k1N)
  rw [checkShare, e1, Outcome.bind_ok, p1, Outcome.bind_ok]
  have : equal e p = true := (e2.equal_iff p2).2 (by rw [cast_emod, cast_peval, mul_one, xOf])
  rw [this]
  rfl

/-! Sums of polynomials -/

theorem peval_zip (xs ys : List Nat) (hl : xs.length = ys.length) (z : Int) :
    peval (List.zipWith (· + ·) xs ys) z = peval xs z + peval ys z := by
  induction xs generalizing ys with
  | nil =>
    cases ys with
    | nil => rfl
    | cons y ys => simp at hl
  | cons x xs ih =>
    cases ys with
    | nil => simp at hl
    | cons y ys =>
      rw [List.zipWith_cons_cons, peval, peval, peval, ih ys (by simpa using hl)]
      push_cast
      ring

theorem addPolys_eq (xs ys : List Nat) (hl : xs.length = ys.length) :
    addPolys (xs.map (timesAdd base)) (ys.map (timesAdd base)) = .ok ((List.zipWith (· + ·) xs ys).map (timesAdd base)) := by
  rw [addPolys, if_neg (by simp [hl]), zip_map]
  congr 1
  rw [List.map_zipWith]
  congr 1
  funext x y
  exact add_base x y

theorem total_nil (R : Choice) : total R [] = List.replicate R.T 0 := by
  rw [total]
  simp [List.map_const']

theorem total_length (R : Choice) (P : List Nat) : (total R P).length = R.T := by simp [total]

theorem total_cons (R : Choice) (a : Nat) (P : List Nat) (h : (R.f a).length = R.T) :
    total R (a :: P) = List.zipWith (· + ·) (R.f a) (total R P) := by
  apply List.ext_getElem
  · simp [total, h]
  · intro k h1 h2
    have hk : k < R.T := by simpa [total] using h1
    simp only [total, List.getElem_map, List.getElem_range, List.map_cons, List.sum_cons, List.getElem_zipWith]
    congr 1
    rw [List.getD_eq_getElem?_getD, List.getElem?_eq_getElem (by rw [h]; exact hk), Option.getD_some]

theorem total_perm (R : Choice) {P Q : List Nat} (h : P.Perm Q) : total R P = total R Q := by
  rw [total, total]
  refine List.map_congr_left fun k _ => ?_
  exact (h.map _).sum_eq

theorem total_snoc (R : Choice) (a : Nat) (P : List Nat) (h : (R.f a).length = R.T) :
    total R (P ++ [a]) = List.zipWith (· + ·) (total R P) (R.f a) := by
  rw [total_perm R (List.perm_append_comm (l₁ := P) (l₂ := [a])), List.singleton_append, total_cons R a P h, List.zipWith_comm]
  congr 1
  funext x y
  exact Nat.add_comm y x

theorem total_single (R : Choice) (a : Nat) (h : (R.f a).length = R.T) : total R [a] = R.f a := by
  apply List.ext_getElem
  · simp [total, h]
  · intro k h1 h2
    simp only [total, List.getElem_map, List.getElem_range, List.map_cons, List.sum_cons, List.map_nil, List.sum_nil, Nat.add_zero]
    rw [List.getD_eq_getElem?_getD, List.getElem?_eq_getElem h2, Option.getD_some]

/-! Maps -/

theorem mem_of_get? {K V : Type} [DecidableEq K] {m : GoMap K V} {k : K} {v : V} (h : m.get? k = some v) : (k, v) ∈ m := by
  induction m with
  | nil => cases h
  | cons p m ih =>
    rw [GoMap.get?_cons] at h
    split at h
    · rename_i e; subst e; cases h; exact List.mem_cons_self
    · exact List.mem_cons_of_mem _ (ih h)

theorem get?_mapVal {K V W : Type} [DecidableEq K] (m : GoMap K V) (f : V → W) (k : K) :
    GoMap.get? (m.map fun p => (p.1, f p.2)) k = (m.get? k).map f := by
  induction m with
  | nil => rfl
  | cons p m ih =>
    rw [List.map_cons, GoMap.get?_cons, GoMap.get?_cons, ih]
    split <;> rfl

theorem keys_mapVal {K V W : Type} (m : GoMap K V) (f : V → W) : GoMap.keys (m.map fun p => (p.1, f p.2)) = GoMap.keys m := by
  rw [GoMap.keys, GoMap.keys, List.map_map]
  rfl

theorem forall2_mem {α β : Type} {r : α → β → Prop} {xs : List α} {ys : List β} (h : List.Forall₂ r xs ys) {y : β} (hy : y ∈ ys) : ∃ x ∈ xs, r x y := by
  induction h with
  | nil => cases hy
  | cons h _ ih =>
    rcases List.mem_cons.1 hy with rfl | hy
    · exact ⟨_, List.mem_cons_self, h⟩
    · obtain ⟨x, h1, h2⟩ := ih hy
      exact ⟨x, List.mem_cons_of_mem _ h1, h2⟩

/-! Responses -/

/-- What `cleanVerifiers` leaves and what it adds. -/
theorem clean_spec (l : List Nat) (a : Agg) :
    let a' := l.foldl (fun a v => if (a.resps.get? v).isSome = true then a else { a with resps := a.resps.set v false }) a
    a'.sid = a.sid ∧ a'.T = a.T ∧ a'.deal = a.deal ∧ a'.bad = a.bad ∧ (∀ v b, a.resps.get? v = some b → a'.resps.get? v = some b) ∧
      ∀ v ∈ l, (a'.resps.get? v).isSome = true := by
  induction l generalizing a with
  | nil => exact ⟨rfl, rfl, rfl, rfl, fun _ _ h => h, fun v h => by cases h⟩
  | cons w l ih =>
    dsimp only
    rw [List.foldl_cons]
    split
    · rename_i hw
      obtain ⟨h1, h2, h3, h4, h5, h6⟩ := ih a
      refine ⟨h1, h2, h3, h4, h5, fun v hv => ?_⟩
      rcases List.mem_cons.1 hv with rfl | hv
      · obtain ⟨b, hb⟩ := Option.isSome_iff_exists.1 hw
        rw [h5 _ _ hb]; rfl
      · exact h6 v hv
    · rename_i hw
      obtain ⟨h1, h2, h3, h4, h5, h6⟩ := ih { a with resps := a.resps.set w false }
      refine ⟨h1, h2, h3, h4, fun v b hv => h5 v b ?_, fun v hv => ?_⟩
      · show GoMap.get? (a.resps.set w false) v = _
        rw [GoMap.get?_set, if_neg, hv]
        rintro rfl
        rw [hv] at hw
        exact hw rfl
      · rcases List.mem_cons.1 hv with rfl | hv
        · rw [h5 v false (by show GoMap.get? (a.resps.set v false) v = _; rw [GoMap.get?_set, if_pos rfl])]; rfl
        · exact h6 v hv

theorem enough {P : List Nat} (hP : P.Nodup) {a : Agg} (h : ∀ v ∈ P, a.resps.get? v = some true) :
    P.length ≤ (a.resps.filter fun p => p.2).length := by
  have h1 : (P.map fun v => (v, true)).Nodup := hP.map fun _ _ e => congrArg Prod.fst e
  have h2 : (P.map fun v => (v, true)) ⊆ a.resps.filter fun p => p.2 := by
    intro p hp
    obtain ⟨v, hv, rfl⟩ := List.mem_map.1 hp
    exact List.mem_filter.2 ⟨mem_of_get? (h v hv), rfl⟩
  have := (List.subperm_of_subset h1 h2).length_le
  rwa [List.length_map] at this

theorem add_new {n : Nat} {a : Agg} {v : Nat} (b : Bool) (hv : v < n) (h : a.resps.get? v = none) :
    addResponse n a v b = ({ a with resps := a.resps.set v b }, true) := by
  rw [addResponse, if_neg]
  rw [h]
  rintro (h | h)
  · omega
  · cases h

theorem add_old {n : Nat} {a : Agg} {v : Nat} (b : Bool) {c : Bool} (h : a.resps.get? v = some c) : addResponse n a v b = (a, false) := by
  rw [addResponse, if_pos (.inr (by rw [h]; rfl))]

section Honest
variable {S : Suite} {R : Choice} {P : List Nat} {i : Nat}

/-- The aggregator that `i` has for the deal of `d`, and those whose responses it has. -/
structure AggIs (S : Suite) (R : Choice) (i d : Nat) (heard : Nat → Prop) (a : Agg) : Prop where
  sid : a.sid = session S R d
  T : a.T = R.T
  deal : a.deal = some (dealOf S R d i)
  bad : a.bad = false
  yes : ∀ v, v = d ∨ v = i ∨ heard v → a.resps.get? v = some true
  no : ∀ v, v ≠ d → v ≠ i → ¬ heard v → a.resps.get? v = none

/-- The aggregator of the dealer `i`. -/
structure DealerIs (S : Suite) (R : Choice) (i : Nat) (heard : Nat → Prop) (a : Agg) : Prop where
  sid : a.sid = session S R i
  T : a.T = R.T
  bad : a.bad = false
  yes : ∀ v, v = i ∨ heard v → a.resps.get? v = some true
  no : ∀ v, v ≠ i → ¬ heard v → a.resps.get? v = none

/-- What does not change. -/
def Fixed (S : Suite) (R : Choice) (i : Nat) (k : Gen) : Prop :=
  k.deals = (List.range R.keys.length).map (fun b => dealOf S R i b) ∧ k.secret = (R.f i).map (timesAdd base)

theorem key_get (h : Honest S R P) {a : Nat} (ha : a ∈ P) : R.keys[a]? = some (R.key a) := by
  rw [Choice.key, List.getD_eq_getElem?_getD, List.getElem?_eq_getElem (h.mem a ha), Option.getD_some]

theorem newGen_eq (h : Honest S R P) (hi : i ∈ P) : newGen S (R.member i) = .ok (first S R i) := by
  obtain ⟨h1, h2⟩ := h.polys i hi
  have e : addPolys ((R.f i).map (timesAdd base)) ((R.g i).map (timesAdd (S.deriveH R.keys))) = .ok (commitments S R i) := by
    rw [addPolys, if_neg (by simp [h1, h2]), zip_map]
    rfl
  rw [newGen]
  simp only [Choice.member]
  rw [commit_eq isElt_base, Outcome.bind_ok, commit_eq h.second, Outcome.bind_ok, e, Outcome.bind_ok, h.key i hi, Outcome.bind_ok]
  simp only [evalPoly_eq]
  rfl

theorem verifyDeal_ok (h : Honest S R P) {a : Nat} (ha : a ∈ P) (hi : i ∈ P) : verifyDeal S R.keys (dealOf S R a i) = .ok true := by
  obtain ⟨h1, h2⟩ := h.polys a ha
  have hm := h.mem i hi
  have hl : P.length ≤ R.keys.length := by
    have : P ⊆ List.range R.keys.length := fun x hx => List.mem_range.2 (h.mem x hx)
    have := (List.subperm_of_subset h.once this).length_le
    rwa [List.length_range] at this
  have := h.low
  have := h.high
  obtain ⟨p, q, e, p1, q1, e1, e2⟩ := check_pair h.second (R.f a) (R.g a) (h1.trans h2.symm) i
  rw [verifyDeal, if_neg (by show ¬ (R.T < 2 ∨ R.keys.length < R.T); omega), if_neg (by simp [dealOf]),
    if_neg (by show ¬ ((i : Int) < 0 ∨ (R.keys.length : Int) ≤ i); omega)]
  show (mul (peval (R.f a) (i + 1) % secp256k1N) base >>= fun p => mul (peval (R.g a) (i + 1) % secp256k1N) (S.deriveH R.keys) >>= fun q =>
    evalCommits (commitments S R a) i >>= fun e => pure (equal (add p q) e)) = _
  rw [p1, Outcome.bind_ok, q1, Outcome.bind_ok, commitments, e1, Outcome.bind_ok, e2]
  rfl

/-- Reading an honest deal. -/
theorem processDeal_ok (h : Honest S R P) (hi : i ∈ P) {j : Nat} (hj : j ∈ P) {k : Gen} (hk : k.vers.get? j = none) :
    ∃ a, processDeal S (R.member i) k ((net S R P).deal j i) = ({ k with vers := k.vers.set j (some a) }, .ok (some ((net S R P).resp j i))) ∧
      AggIs S R i j (fun _ => False) a := by
  have hd : S.decrypt (R.long i) (R.key j) R.keys (R.encrypt j i (dealOf S R j i)) = some (dealOf S R j i) := h.encrypt j hj i hi
  have e1 := add_new (n := R.keys.length) (a := ⟨session S R j, R.T, some (dealOf S R j i), [], false⟩) true (h.mem i hi) rfl
  have key : ∃ a, (addResponse R.keys.length (addResponse R.keys.length ⟨session S R j, R.T, some (dealOf S R j i), [], false⟩ i true).1 j true).1 = a ∧
      AggIs S R i j (fun _ => False) a := by
    refine ⟨_, rfl, ?_⟩
    rw [e1]
    by_cases hij : i = j
    · rw [add_old (c := true) true (by show GoMap.get? (GoMap.set [] i true) j = _; rw [GoMap.get?_set, if_pos hij])]
      refine ⟨rfl, rfl, rfl, rfl, ?_, ?_⟩
      · intro v hv
        show GoMap.get? (GoMap.set [] i true) v = _
        rw [GoMap.get?_set, if_pos]
        rcases hv with hv | hv | hv
        exacts [hij.trans hv.symm, hv.symm, hv.elim]
      · intro v _ h2 _
        show GoMap.get? (GoMap.set [] i true) v = _
        rw [GoMap.get?_set, if_neg (fun e => h2 e.symm)]
        rfl
    · rw [add_new true (h.mem j hj) (by show GoMap.get? (GoMap.set [] i true) j = _; rw [GoMap.get?_set, if_neg hij]; rfl)]
      refine ⟨rfl, rfl, rfl, rfl, ?_, ?_⟩
      · intro v hv
        show GoMap.get? (GoMap.set (GoMap.set [] i true) j true) v = _
        rw [GoMap.get?_set, GoMap.get?_set]
        rcases hv with hv | hv | hv
        · rw [if_pos hv.symm]
        · rw [if_neg (fun e => hij (hv.symm.trans e.symm)), if_pos hv.symm]
        · exact hv.elim
      · intro v h1 h2 _
        show GoMap.get? (GoMap.set (GoMap.set [] i true) j true) v = _
        rw [GoMap.get?_set, GoMap.get?_set, if_neg (fun e => h1 e.symm), if_neg (fun e => h2 e.symm)]
        rfl
  obtain ⟨a, ha, hag⟩ := key
  refine ⟨a, ?_, hag⟩
  rw [processDeal]
  show (match R.keys[j]? with
    | none => (k, Outcome.err)
    | some pub => _) = _
  rw [key_get h hj]
  dsimp only
  rw [if_neg (by show ¬ (k.vers.get? j).isSome = true; rw [hk]; simp)]
  show (match S.decrypt (R.long i) (R.key j) R.keys (R.encrypt j i (dealOf S R j i)) with
    | none => _
    | some e => _) = _
  rw [hd]
  dsimp only
  rw [if_neg (by simp [dealOf, Choice.member])]
  show (match verifyDeal S R.keys (dealOf S R j i) with
    | .ok ok => _
    | .err => _
    | .panic => _) = _
  rw [verifyDeal_ok h hj hi]
  dsimp only
  rw [← ha]
  rfl

/-- A repeated deal. -/
theorem processDeal_again (h : Honest S R P) {j : Nat} (hj : j ∈ P) {k : Gen} {a : Option Agg} (hk : k.vers.get? j = some a) :
    processDeal S (R.member i) k ((net S R P).deal j i) = (k, .err) := by
  rw [processDeal]
  show (match R.keys[j]? with
    | none => (k, Outcome.err)
    | some pub => _) = _
  rw [key_get h hj]
  dsimp only
  rw [if_pos (by show (k.vers.get? j).isSome = true; rw [hk]; rfl)]

/-- An honest response is added, if it is the first. -/
theorem verifyResponse_ok (h : Honest S R P) {d v : Nat} (hv : v ∈ P) {a : Agg} (hs : a.sid = session S R d) (hn : a.resps.get? v = none) :
    verifyResponse S R.keys a ⟨session S R d, v, true, R.sign v (S.respHash (session S R d) v true)⟩ =
      ({ a with resps := a.resps.set v true }, true) := by
  rw [verifyResponse, if_neg (by simp [hs])]
  dsimp only
  rw [key_get h hv]
  dsimp only
  rw [if_pos (h.sign v hv _), add_new true (h.mem v hv) hn]

theorem verifyResponse_again (h : Honest S R P) {d v : Nat} (hv : v ∈ P) {a : Agg} {b : Bool} (hs : a.sid = session S R d)
    (hn : a.resps.get? v = some b) :
    verifyResponse S R.keys a ⟨session S R d, v, true, R.sign v (S.respHash (session S R d) v true)⟩ = (a, false) := by
  rw [verifyResponse, if_neg (by simp [hs])]
  dsimp only
  rw [key_get h hv]
  dsimp only
  rw [if_pos (h.sign v hv _), add_old true hn]

theorem AggIs.add {d v : Nat} {heard : Nat → Prop} {a : Agg} (x : AggIs S R i d heard a) :
    AggIs S R i d (fun w => heard w ∨ w = v) { a with resps := a.resps.set v true } := by
  refine ⟨x.sid, x.T, x.deal, x.bad, ?_, ?_⟩
  · intro w hw
    show GoMap.get? (a.resps.set v true) w = _
    rw [GoMap.get?_set]
    split
    · rfl
    · rename_i hne
      refine x.yes w ?_
      rcases hw with hw | hw | hw | hw
      exacts [.inl hw, .inr (.inl hw), .inr (.inr hw), absurd hw.symm hne]
  · intro w h1 h2 h3
    show GoMap.get? (a.resps.set v true) w = _
    rw [GoMap.get?_set, if_neg (fun e => h3 (.inr e.symm))]
    exact x.no w h1 h2 fun y => h3 (.inl y)

theorem DealerIs.add {v : Nat} {heard : Nat → Prop} {a : Agg} (x : DealerIs S R i heard a) :
    DealerIs S R i (fun w => heard w ∨ w = v) { a with resps := a.resps.set v true } := by
  refine ⟨x.sid, x.T, x.bad, ?_, ?_⟩
  · intro w hw
    show GoMap.get? (a.resps.set v true) w = _
    rw [GoMap.get?_set]
    split
    · rfl
    · rename_i hne
      refine x.yes w ?_
      rcases hw with hw | hw | hw
      exacts [.inl hw, .inr hw, absurd hw.symm hne]
  · intro w h1 h3
    show GoMap.get? (a.resps.set v true) w = _
    rw [GoMap.get?_set, if_neg (fun e => h3 (.inr e.symm))]
    exact x.no w h1 fun y => h3 (.inl y)

theorem AggIs.congr {d : Nat} {p q : Nat → Prop} {a : Agg} (x : AggIs S R i d p a) (h : ∀ v, p v ↔ q v) : AggIs S R i d q a := by
  have : p = q := funext fun v => propext (h v)
  rwa [← this]

theorem DealerIs.congr {p q : Nat → Prop} {a : Agg} (x : DealerIs S R i p a) (h : ∀ v, p v ↔ q v) : DealerIs S R i q a := by
  have : p = q := funext fun v => propext (h v)
  rwa [← this]

/-- Certified, with the session of `d` and, if it was kept, its deal for `i`. -/
theorem certified_clean (h : Honest S R P) {a : Agg} (hT : a.T = R.T) (hb : a.bad = false) (hy : ∀ v ∈ P, a.resps.get? v = some true) :
    dealCertified R.keys.length (cleanVerifiers R.keys.length a) = true := by
  obtain ⟨h1, h2, h3, h4, h5, h6⟩ := clean_spec (List.range R.keys.length) a
  have := enough h.once (a := cleanVerifiers R.keys.length a) fun v hv => h5 v true (hy v hv)
  rw [dealCertified, Bool.and_eq_true, Bool.and_eq_true, decide_eq_true_eq, List.all_eq_true]
  refine ⟨⟨?_, h6⟩, ?_⟩
  · have e : (cleanVerifiers R.keys.length a).T = R.T := h2.trans hT
    rw [e]
    exact h.high.trans this
  · have e : (cleanVerifiers R.keys.length a).bad = false := h4.trans hb
    rw [e]; rfl

theorem certified_full (h : Honest S R P) (hf : ∀ v < R.keys.length, v ∈ P) {a : Agg} (hT : a.T = R.T) (hb : a.bad = false)
    (hy : ∀ v ∈ P, a.resps.get? v = some true) : dealCertified R.keys.length a = true := by
  have := enough h.once hy
  rw [dealCertified, Bool.and_eq_true, Bool.and_eq_true, decide_eq_true_eq, List.all_eq_true, hT, hb]
  refine ⟨⟨h.high.trans this, fun v hv => ?_⟩, rfl⟩
  rw [hy v (hf v (List.mem_range.1 hv))]
  rfl

/-- The verifiers when the deals of those in `P` are certified. -/
structure Certain (S : Suite) (R : Choice) (P : List Nat) (i : Nat) (k : Gen) : Prop where
  once : k.vers.keys.Nodup
  yes : ∀ j ∈ P, ∃ a, k.vers.get? j = some (some a) ∧ a.sid = session S R j ∧ a.deal = some (dealOf S R j i) ∧ dealCertified R.keys.length a = true
  no : ∀ j, j ∉ P → k.vers.get? j = none

theorem Certain.qual (h : Honest S R P) (hi : i ∈ P) {k : Gen} (x : Certain S R P i k) : (Rabin.qual (R.member i) k).Perm P := by
  have hp : (R.iter i k.vers.keys).Perm k.vers.keys := h.iter i hi _
  refine (List.perm_ext_iff_of_nodup ((hp.nodup_iff.2 x.once).filter _) h.once).2 fun j => ?_
  rw [List.mem_filter]
  show j ∈ R.iter i k.vers.keys ∧ _ ↔ _
  rw [hp.mem_iff]
  constructor
  · rintro ⟨h1, h2⟩
    by_contra hj
    rw [← GoMap.get?_isSome_iff, x.no j hj] at h1
    cases h1
  · intro hj
    obtain ⟨a, h1, _, _, h2⟩ := x.yes j hj
    rw [← GoMap.get?_isSome_iff, h1]
    exact ⟨rfl, h2⟩

/-- The loop over shares, when the commitments that were told are those of other polynomials. -/
theorem sumShares_eq (h : Honest S R P) {k : Gen} (x : Certain S R P i k) {F : Nat → List Nat} (hF : ∀ j ∈ P, (F j).length = R.T)
    (hc : ∀ j ∈ P, k.coms.get? j = some ((F j).map (timesAdd base))) (q p : List Nat) (hq : ∀ j ∈ q, j ∈ P) :
    sumShares k q (peval (total R p) (i + 1) % secp256k1N, some ((total (R.told F) p).map (timesAdd base))) =
      .ok (peval (total R (p ++ q)) (i + 1) % secp256k1N, some ((total (R.told F) (p ++ q)).map (timesAdd base))) := by
  induction q generalizing p with
  | nil => rw [List.append_nil]; rfl
  | cons j q ih =>
    have hj := hq j List.mem_cons_self
    obtain ⟨a, h1, _, h2, _⟩ := x.yes j hj
    have hl := (h.polys j hj).1
    rw [sumShares, h1, hc j hj]
    dsimp only
    rw [h2]
    dsimp only
    rw [addPolys_eq _ _ ((total_length (R.told F) p).trans (hF j hj).symm), Outcome.bind_ok,
      show List.zipWith (· + ·) (total (R.told F) p) (F j) = _ from (total_snoc (R.told F) j p (hF j hj)).symm]
    have e : Scalar.add (peval (total R p) (i + 1) % secp256k1N) (dealOf S R j i).secShare.V = peval (total R (p ++ [j])) (i + 1) % secp256k1N := by
      show ((peval (total R p) (i + 1) % secp256k1N) + peval (R.f j) (i + 1) % secp256k1N) % secp256k1N = _
      rw [total_snoc R j p hl, peval_zip _ _ ((total_length R p).trans hl.symm), ← Int.add_emod]
    rw [e, ih (p ++ [j]) fun y hy => hq y (List.mem_cons_of_mem _ hy), List.append_assoc]
    rfl

theorem sumShares_all (h : Honest S R P) {k : Gen} (x : Certain S R P i k) {F : Nat → List Nat} (hF : ∀ j ∈ P, (F j).length = R.T)
    (hc : ∀ j ∈ P, k.coms.get? j = some ((F j).map (timesAdd base))) (q : List Nat) (hq : q.Perm P) :
    sumShares k q (Scalar.zero, none) = .ok (peval (total R P) (i + 1) % secp256k1N, some ((total (R.told F) P).map (timesAdd base))) := by
  rw [← total_perm R hq, ← total_perm (R.told F) hq]
  cases q with
  | nil =>
    have := hq.length_eq
    have := h.low
    have := h.high
    simp at *
    omega
  | cons j q =>
    have hj : j ∈ P := hq.mem_iff.1 List.mem_cons_self
    obtain ⟨a, h1, _, h2, _⟩ := x.yes j hj
    have hl := (h.polys j hj).1
    rw [sumShares, h1, hc j hj]
    dsimp only
    rw [h2]
    dsimp only
    have e : Scalar.add Scalar.zero (dealOf S R j i).secShare.V = peval (total R [j]) (i + 1) % secp256k1N := by
      show ((0 % secp256k1N : Int) + peval (R.f j) (i + 1) % secp256k1N) % secp256k1N = _
      rw [total_single R j hl, ← Int.add_emod, Int.zero_add]
    have e2 : (F j).map (timesAdd base) = (total (R.told F) [j]).map (timesAdd base) := by rw [total_single (R.told F) j (hF j hj)]; rfl
    rw [e, e2, sumShares_eq h x hF hc q [j] fun y hy => hq.mem_iff.1 (List.mem_cons_of_mem _ hy)]
    rfl

/-- The commitments told by `j`, when their polynomial has the value at `i + 1` that `i` was dealt. -/
theorem told_ok (h : Honest S R P) (hi : i ∈ P) {k : Gen} (h1 : Certain S R P i k) {j : Nat} (hj : j ∈ P) (F : Nat → List Nat)
    (hF : peval (F j) (i + 1) % secp256k1N = peval (R.f j) (i + 1) % secp256k1N) :
    processSecretCommits S (R.member i) k (commitsOf S R F j) = ({ k with coms := k.coms.set j ((F j).map (timesAdd base)) }, .ok none) := by
  obtain ⟨a, a1, a2, a3, _⟩ := h1.yes j hj
  rw [processSecretCommits]
  show (match R.keys[j]?, k.vers.get? j with
    | some pub, some (some a) => _
    | _, _ => _) = _
  rw [key_get h hj, a1]
  have hc : ¬ ((commitsOf S R F j).index ∉ qual (R.member i) k ∨ (commitsOf S R F j).sessionID ≠ a.sid) := by
    rw [a2, not_or, not_not, not_not]
    exact ⟨(h1.qual h hi).mem_iff.2 hj, rfl⟩
  dsimp only
  rw [if_neg hc]
  dsimp only [commitsOf]
  refine (if_pos (h.sign j hj _)).trans ?_
  rw [a3]
  dsimp only
  rw [show (dealOf S R j i).secShare = ⟨i, peval (F j) (i + 1) % secp256k1N⟩ by rw [hF]; rfl, checkShare_ok]

/-- With commitments of other polynomials. -/
structure Told (S : Suite) (R : Choice) (P : List Nat) (i : Nat) (F : Nat → List Nat) (js : List Nat) (k : Gen) : Prop where
  certain : Certain S R P i k
  coms : ∀ j, j = i ∨ j ∈ js → k.coms.get? j = some ((F j).map (timesAdd base))

theorem Told.step (h : Honest S R P) (hi : i ∈ P) {F : Nat → List Nat} {js : List Nat} {k : Gen} (x : Told S R P i F js k) {j : Nat} (hj : j ∈ P)
    (hF : peval (F j) (i + 1) % secp256k1N = peval (R.f j) (i + 1) % secp256k1N) :
    Told S R P i F (js ++ [j]) (processSecretCommits S (R.member i) k (commitsOf S R F j)).1 ∧
      (processSecretCommits S (R.member i) k (commitsOf S R F j)).2 = .ok none := by
  rw [told_ok h hi x.certain hj F hF]
  refine ⟨⟨⟨x.certain.once, x.certain.yes, x.certain.no⟩, fun l hl => ?_⟩, rfl⟩
  by_cases hlj : l = j
  · subst hlj
    exact (GoMap.get?_set _ _ _ _).trans (if_pos rfl)
  · refine (GoMap.get?_set _ _ _ _).trans ((if_neg fun e => hlj e.symm).trans (x.coms l ?_))
    rcases hl with hl | hl
    · exact .inl hl
    · rcases List.mem_append.1 hl with hl | hl
      · exact .inr hl
      · exact absurd (List.mem_singleton.1 hl) hlj

theorem Told.key (h : Honest S R P) (hi : i ∈ P) {F : Nat → List Nat} {js : List Nat} {k : Gen} (x : Told S R P i F js k)
    (hF : ∀ j ∈ P, (F j).length = R.T) (hall : ∀ j ∈ P, j ≠ i → j ∈ js) :
    finished (R.member i) k = true ∧
      distKeyShare (R.member i) k = .ok ⟨⟨i, peval (total R P) (i + 1) % secp256k1N⟩, (total (R.told F) P).map (timesAdd base)⟩ := by
  have hq := x.certain.qual h hi
  have hc : ∀ j ∈ P, k.coms.get? j = some ((F j).map (timesAdd base)) := by
    intro j hj
    refine x.coms j ?_
    by_cases e : j = i
    · exact .inl e
    · exact .inr (hall j hj e)
  constructor
  · rw [finished, Bool.and_eq_true, decide_eq_true_eq, hq.length_eq, List.all_eq_true]
    refine ⟨h.high, fun j hj => ?_⟩
    rw [hc j (hq.mem_iff.1 hj)]
    rfl
  · rw [distKeyShare, if_pos (by rw [certified, decide_eq_true_eq, hq.length_eq]; exact h.high), sumShares_all h x.certain hF hc _ hq]
    rfl

/-- The states of the generator of `i`. -/
def phases (S : Suite) (R : Choice) (P : List Nat) (i : Nat) : Phases Gen where
  dealing js k := Fixed S R i k ∧ k.coms = [] ∧ k.vers.keys.Nodup ∧ DealerIs S R i (fun _ => False) k.dealer ∧ (∀ j ∈ js, j ∈ P) ∧
    (∀ j, j = i ∨ j ∈ js → ∃ a, k.vers.get? j = some (some a) ∧ AggIs S R i j (fun _ => False) a) ∧
    ∀ j, j ≠ i → j ∉ js → k.vers.get? j = none
  responding ps k := Fixed S R i k ∧ k.coms = [] ∧ k.vers.keys.Nodup ∧ DealerIs S R i (fun v => (i, v) ∈ ps) k.dealer ∧
    (∀ j ∈ P, ∃ a, k.vers.get? j = some (some a) ∧ AggIs S R i j (fun v => (j, v) ∈ ps) a) ∧
    ∀ j, j ∉ P → k.vers.get? j = none
  settled k := Fixed S R i k ∧ k.coms = [] ∧ Certain S R P i k ∧ k.dealer.sid = session S R i ∧ dealCertified R.keys.length k.dealer = true
  committing js k := Told S R P i R.f js k

/-- The deals for others. -/
theorem otherDeals_mem {j : Int} {d : Deal} :
    (j, d) ∈ otherDeals (R.member i) ((List.range R.keys.length).map (fun b => dealOf S R i b)) ↔
      ∃ b : Nat, b < R.keys.length ∧ b ≠ i ∧ j = b ∧ d = (net S R P).deal i b := by
  rw [otherDeals, List.mem_filterMap]
  constructor
  · rintro ⟨b, hb, e⟩
    rw [List.mem_filter, List.mem_range] at hb
    have hb1 : b < R.keys.length := hb.1
    have hb2 : b ≠ i := of_decide_eq_true hb.2
    rw [List.getElem?_map, List.getElem?_range hb1] at e
    cases e
    exact ⟨b, hb1, hb2, rfl, rfl⟩
  · rintro ⟨b, h1, h2, rfl, rfl⟩
    refine ⟨b, List.mem_filter.2 ⟨List.mem_range.2 h1, decide_eq_true h2⟩, ?_⟩
    rw [List.getElem?_map, List.getElem?_range h1]
    rfl

theorem generates (h : Honest S R P) (hi : i ∈ P) {k0 : Gen} (h0 : newGen S (R.member i) = .ok k0) :
    Generates (kyb S (R.member i)) (net S R P) R.keys.length i k0 (phases S R P i) where
  deals := by
    rw [newGen_eq h hi] at h0
    cases h0
    obtain ⟨a, e1, e2⟩ := processDeal_ok h hi hi (k := ⟨[], ⟨session S R i, R.T, none, [], false⟩,
      (List.range R.keys.length).map (fun b => dealOf S R i b), (R.f i).map (timesAdd base), []⟩) rfl
    have key : deals S (R.member i) ⟨[], ⟨session S R i, R.T, none, [], false⟩,
        (List.range R.keys.length).map (fun b => dealOf S R i b), (R.f i).map (timesAdd base), []⟩ =
        (⟨GoMap.set [] i (some a), ⟨session S R i, R.T, none, GoMap.set [] i true, false⟩,
          (List.range R.keys.length).map (fun b => dealOf S R i b), (R.f i).map (timesAdd base), []⟩,
          .ok (otherDeals (R.member i) ((List.range R.keys.length).map (fun b => dealOf S R i b)))) := by
      rw [deals, if_neg (by simp)]
      dsimp only
      rw [List.getElem?_map, show (R.member i).index = i from rfl, List.getElem?_range (h.mem i hi)]
      dsimp only [Option.map_some]
      show (match processDeal S (R.member i) _ ((net S R P).deal i i) with
        | (k, .ok (some ⟨_, some r⟩)) => _
        | (k, _) => _) = _
      rw [e1]
      dsimp only [net]
      rw [if_pos rfl]
      have := add_new (n := R.keys.length) (a := ⟨session S R i, R.T, none, [], false⟩) true (h.mem i hi) rfl
      show ((⟨_, (addResponse R.keys.length _ i true).1, _, _, _⟩ : Gen), _) = _
      rw [this]
    refine ⟨otherDeals (R.member i) ((List.range R.keys.length).map (fun b => dealOf S R i b)), ?_, fun j d => otherDeals_mem, ?_⟩
    · show (deals S (R.member i) (first S R i)).2 = _
      rw [first, key]
    · show (phases S R P i).dealing [] (deals S (R.member i) (first S R i)).1
      rw [first, key]
      refine ⟨⟨rfl, rfl⟩, rfl, ?_, ⟨rfl, rfl, rfl, ?_, ?_⟩, fun j hj => (List.not_mem_nil hj).elim, ?_, ?_⟩
      · exact GoMap.nodup_set (m := []) List.nodup_nil _ _
      · rintro v (rfl | hv)
        · exact (GoMap.get?_set [] v true v).trans (if_pos rfl)
        · exact hv.elim
      · intro v hv _
        exact (GoMap.get?_set [] i true v).trans ((if_neg fun e => hv e.symm).trans rfl)
      · rintro j (rfl | hj)
        · exact ⟨a, (GoMap.get?_set [] j (some a) j).trans (if_pos rfl), e2⟩
        · exact (List.not_mem_nil hj).elim
      · intro j hj _
        exact (GoMap.get?_set [] i (some a) j).trans ((if_neg fun e => hj e.symm).trans rfl)
  deal := by
    rintro js k j ⟨h1, h2, h3, h4, h5, h6, h7⟩ hj hji
    show (phases S R P i).dealing (js ++ [j]) (processDeal S (R.member i) k ((net S R P).deal j i)).1 ∧
      (processDeal S (R.member i) k ((net S R P).deal j i)).2 = _
    by_cases hjs : j ∈ js
    · obtain ⟨a, ha, _⟩ := h6 j (.inr hjs)
      rw [processDeal_again h hj ha, if_pos hjs]
      refine ⟨⟨h1, h2, h3, h4, ?_, ?_, ?_⟩, rfl⟩
      · intro l hl
        rcases List.mem_append.1 hl with hl | hl
        · exact h5 l hl
        · rw [List.mem_singleton.1 hl]; exact hj
      · intro l hl
        refine h6 l ?_
        rcases hl with hl | hl
        · exact .inl hl
        · rcases List.mem_append.1 hl with hl | hl
          · exact .inr hl
          · rw [List.mem_singleton.1 hl]; exact .inr hjs
      · intro l l1 l2
        exact h7 l l1 fun l3 => l2 (List.mem_append_left _ l3)
    · obtain ⟨a, e1, e2⟩ := processDeal_ok h hi hj (h7 j hji hjs)
      rw [e1, if_neg hjs]
      refine ⟨⟨h1, h2, GoMap.nodup_set h3 _ _, h4, ?_, ?_, ?_⟩, rfl⟩
      · intro l hl
        rcases List.mem_append.1 hl with hl | hl
        · exact h5 l hl
        · rw [List.mem_singleton.1 hl]; exact hj
      · intro l hl
        by_cases hlj : l = j
        · subst hlj
          exact ⟨a, (GoMap.get?_set _ _ _ _).trans (if_pos rfl), e2⟩
        · obtain ⟨b, b1, b2⟩ := h6 l (by
            rcases hl with hl | hl
            · exact .inl hl
            · rcases List.mem_append.1 hl with hl | hl
              · exact .inr hl
              · exact absurd (List.mem_singleton.1 hl) hlj)
          exact ⟨b, (GoMap.get?_set _ _ _ _).trans ((if_neg fun e => hlj e.symm).trans b1), b2⟩
      · intro l l1 l2
        refine (GoMap.get?_set _ _ _ _).trans ((if_neg fun e => l2 ?_).trans (h7 l l1 fun l3 => l2 (List.mem_append_left _ l3)))
        rw [← e]
        exact List.mem_append_right _ (List.mem_singleton.2 rfl)
  dealt := by
    rintro js k ⟨h1, h2, h3, h4, h5, h6, h7⟩ hall
    refine ⟨h1, h2, h3, h4.congr fun v => ⟨False.elim, fun hv => (List.not_mem_nil hv).elim⟩, ?_, ?_⟩
    · intro j hj
      obtain ⟨a, a1, a2⟩ := h6 j (by
        by_cases e : j = i
        · exact .inl e
        · exact .inr (hall j hj e))
      exact ⟨a, a1, a2.congr fun v => ⟨False.elim, fun hv => (List.not_mem_nil hv).elim⟩⟩
    · intro j hj
      refine h7 j ?_ fun hjs => hj (h5 j hjs)
      rintro rfl
      exact hj hi
  resp := by
    rintro ps k d v ⟨h1, h2, h3, h4, h5, h6⟩ hd hv hvi hdv
    obtain ⟨a, a1, a2⟩ := h5 d hd
    show (phases S R P i).responding (ps ++ [(d, v)]) (processResponse S (R.member i) k ((net S R P).resp d v)).1 ∧
      (processResponse S (R.member i) k ((net S R P).resp d v)).2 = _
    have hmem : ∀ j w, (j, w) ∈ ps ++ [(d, v)] ↔ (j, w) ∈ ps ∨ (j = d ∧ w = v) := by
      intro j w
      rw [List.mem_append, List.mem_singleton, Prod.mk.injEq]
    by_cases hps : (d, v) ∈ ps
    · have e : processResponse S (R.member i) k ((net S R P).resp d v) = (k, .err) := by
        rw [processResponse]
        dsimp only [net]
        rw [a1]
        dsimp only
        show (match verifyResponse S R.keys a ⟨session S R d, v, true, R.sign v (S.respHash (session S R d) v true)⟩ with
          | (_, false) => _
          | (a, true) => _) = _
        rw [verifyResponse_again h hv a2.sid (a2.yes v (.inr (.inr hps)))]
      have hsame : ∀ j w, (j, w) ∈ ps ↔ (j, w) ∈ ps ++ [(d, v)] := by
        intro j w
        rw [hmem]
        constructor
        · exact .inl
        · rintro (x | ⟨rfl, rfl⟩)
          exacts [x, hps]
      rw [e, if_pos hps]
      refine ⟨⟨h1, h2, h3, h4.congr fun w => hsame i w, ?_, h6⟩, rfl⟩
      intro j hj
      obtain ⟨b, b1, b2⟩ := h5 j hj
      exact ⟨b, b1, b2.congr fun w => hsame j w⟩
    · have hn : a.resps.get? v = none := a2.no v (fun e => hdv e.symm) hvi hps
      have hvers : ∀ j ∈ P, ∃ b, GoMap.get? (k.vers.set d (some { a with resps := a.resps.set v true })) j = some (some b) ∧
          AggIs S R i j (fun w => (j, w) ∈ ps ++ [(d, v)]) b := by
        intro j hj
        by_cases hjd : j = d
        · subst hjd
          refine ⟨_, (GoMap.get?_set _ _ _ _).trans (if_pos rfl), a2.add.congr fun w => ?_⟩
          rw [hmem]
          constructor
          · rintro (x | x)
            exacts [.inl x, .inr ⟨rfl, x⟩]
          · rintro (x | x)
            exacts [.inl x, .inr x.2]
        · obtain ⟨b, b1, b2⟩ := h5 j hj
          refine ⟨b, (GoMap.get?_set _ _ _ _).trans ((if_neg fun e => hjd e.symm).trans b1), b2.congr fun w => ?_⟩
          rw [hmem]
          constructor
          · exact .inl
          · rintro (x | x)
            exacts [x, absurd x.1 hjd]
      have hno : ∀ j, j ∉ P → GoMap.get? (k.vers.set d (some { a with resps := a.resps.set v true })) j = none := by
        intro j hj
        refine (GoMap.get?_set _ _ _ _).trans ((if_neg ?_).trans (h6 j hj))
        rintro rfl
        exact hj hd
      rw [if_neg hps]
      by_cases hdi : d = i
      · have hn2 : k.dealer.resps.get? v = none := h4.no v hvi (by rw [← hdi]; exact hps)
        have e : processResponse S (R.member i) k ((net S R P).resp d v) =
            ({ k with vers := k.vers.set d (some { a with resps := a.resps.set v true }), dealer := { k.dealer with resps := k.dealer.resps.set v true } },
              .ok none) := by
          rw [processResponse]
          dsimp only [net]
          rw [a1]
          dsimp only
          show (match verifyResponse S R.keys a ⟨session S R d, v, true, R.sign v (S.respHash (session S R d) v true)⟩ with
            | (_, false) => _
            | (a, true) => _) = _
          rw [verifyResponse_ok h hv a2.sid hn]
          dsimp only
          refine (if_neg (show ¬ d ≠ (R.member i).index from not_not.2 hdi)).trans ?_
          show (match verifyResponse S R.keys k.dealer ⟨session S R d, v, true, R.sign v (S.respHash (session S R d) v true)⟩ with
            | (_, false) => _
            | (a, true) => _) = _
          rw [verifyResponse_ok h hv (by rw [hdi]; exact h4.sid) hn2]
          dsimp only
          rw [if_pos rfl]
        rw [e]
        refine ⟨⟨h1, h2, GoMap.nodup_set h3 _ _, h4.add.congr fun w => ?_, hvers, hno⟩, rfl⟩
        rw [hmem]
        constructor
        · rintro (x | x)
          exacts [.inl x, .inr ⟨hdi.symm, x⟩]
        · rintro (x | x)
          exacts [.inl x, .inr x.2]
      · have e : processResponse S (R.member i) k ((net S R P).resp d v) =
            ({ k with vers := k.vers.set d (some { a with resps := a.resps.set v true }) }, .ok none) := by
          rw [processResponse]
          dsimp only [net]
          rw [a1]
          dsimp only
          show (match verifyResponse S R.keys a ⟨session S R d, v, true, R.sign v (S.respHash (session S R d) v true)⟩ with
            | (_, false) => _
            | (a, true) => _) = _
          rw [verifyResponse_ok h hv a2.sid hn]
          dsimp only
          exact if_pos (show d ≠ (R.member i).index from hdi)
        rw [e]
        refine ⟨⟨h1, h2, GoMap.nodup_set h3 _ _, h4.congr fun w => ?_, hvers, hno⟩, rfl⟩
        rw [hmem]
        constructor
        · exact .inl
        · rintro (x | x)
          exacts [x, absurd x.1.symm hdi]
  responded := by
    rintro ps k ⟨h1, h2, h3, h4, h5, h6⟩ hall
    show (phases S R P i).settled (setTimeout S (R.member i) k)
    have hdy : ∀ v ∈ P, k.dealer.resps.get? v = some true := by
      intro v hv
      refine h4.yes v ?_
      by_cases e : v = i
      · exact .inl e
      · exact .inr (hall i v hi hv e fun e' => e e'.symm)
    refine ⟨h1, h2, ⟨?_, ?_, ?_⟩, ?_, ?_⟩
    · rw [setTimeout, keys_mapVal]
      exact h3
    · intro j hj
      obtain ⟨a, a1, a2⟩ := h5 j hj
      obtain ⟨c1, _, c2, _⟩ := clean_spec (List.range R.keys.length) a
      refine ⟨cleanVerifiers R.keys.length a, ?_, c1.trans a2.sid, c2.trans a2.deal, certified_clean h a2.T a2.bad fun v hv => ?_⟩
      · show GoMap.get? (k.vers.map _) j = _
        rw [get?_mapVal, a1]
        rfl
      · refine a2.yes v ?_
        by_cases e1 : v = j
        · exact .inl e1
        by_cases e2 : v = i
        · exact .inr (.inl e2)
        · exact .inr (.inr (hall j v hj hv e2 fun e => e1 e.symm))
    · intro j hj
      show GoMap.get? (k.vers.map _) j = _
      rw [get?_mapVal, h6 j hj]
      rfl
    · show (if S.dealerTimeout then cleanVerifiers R.keys.length k.dealer else k.dealer).sid = _
      split
      · exact (clean_spec (List.range R.keys.length) k.dealer).1.trans h4.sid
      · exact h4.sid
    · show dealCertified R.keys.length (if S.dealerTimeout then cleanVerifiers R.keys.length k.dealer else k.dealer) = true
      split
      · exact certified_clean h h4.T h4.bad hdy
      · rename_i hto
        rcases h.timeout with ht | ht
        · exact absurd ht hto
        · exact certified_full h ht h4.T h4.bad hdy
  settled := by
    rintro k ⟨⟨h1, h2⟩, h3, h4, h5, h6⟩
    have hq := h4.qual h hi
    have e : secretCommits S (R.member i) k = ({ k with coms := k.coms.set i k.secret }, .ok ((net S R P).commits i)) := by
      rw [secretCommits, if_pos (by exact h6), h2, h5]
      rfl
    refine ⟨?_, ?_, ?_, ?_⟩
    · show certified (R.member i) k = true
      rw [certified, decide_eq_true_eq, hq.length_eq]
      exact h.high
    · refine ⟨(hq.nodup_iff.2 h.once).map fun _ _ e => Int.ofNat.inj e, fun x => ?_⟩
      show x ∈ (qual (R.member i) k).map Int.ofNat ↔ _
      rw [List.mem_map]
      constructor
      · rintro ⟨b, hb, rfl⟩; exact ⟨b, hq.mem_iff.1 hb, rfl⟩
      · rintro ⟨b, hb, rfl⟩; exact ⟨b, hq.mem_iff.2 hb, rfl⟩
    · show (secretCommits S (R.member i) k).2 = _
      rw [e]
    · show (phases S R P i).committing [] (secretCommits S (R.member i) k).1
      rw [e]
      refine ⟨⟨h4.once, h4.yes, h4.no⟩, ?_⟩
      rintro j (rfl | hj)
      · rw [← h2]
        exact (GoMap.get?_set _ _ _ _).trans (if_pos rfl)
      · exact (List.not_mem_nil hj).elim
  commits := by
    rintro js k j x hj hji
    exact x.step h hi hj rfl
  done := by
    rintro js k y hall
    have hq := y.certain.qual h hi
    refine ⟨(y.key h hi (fun j hj => (h.polys j hj).1) hall).1, ?_, ?_⟩
    · exact (y.key h hi (fun j hj => (h.polys j hj).1) hall).2
    · refine ⟨(hq.nodup_iff.2 h.once).map fun _ _ e => Int.ofNat.inj e, fun x => ?_⟩
      show x ∈ (qual (R.member i) k).map Int.ofNat ↔ _
      rw [List.mem_map]
      constructor
      · rintro ⟨b, hb, rfl⟩; exact ⟨b, hq.mem_iff.1 hb, rfl⟩
      · rintro ⟨b, hb, rfl⟩; exact ⟨b, hq.mem_iff.2 hb, rfl⟩

/-- The generator of `i` after all it was given. -/
theorem after_spec (h : Honest S R P) (hi : i ∈ P) {F : Nat → List Nat} (hF : ∀ j ∈ P, (F j).length = R.T)
    (hv : ∀ j ∈ P, peval (F j) (i + 1) % secp256k1N = peval (R.f j) (i + 1) % secp256k1N) (hFi : F i = R.f i) :
    ∃ k, after S R P i F = .ok k ∧ finished (R.member i) k = true ∧
      distKeyShare (R.member i) k = .ok ⟨⟨i, peval (total R P) (i + 1) % secp256k1N⟩, (total (R.told F) P).map (timesAdd base)⟩ := by
  have h0 := newGen_eq h hi
  have g := generates h hi h0
  obtain ⟨_, _, _, g1⟩ := g.deals
  rw [after, h0, Outcome.bind_ok]
  dsimp only
  have hmem : ∀ j, j ∈ P.filter (· ≠ i) ↔ j ∈ P ∧ j ≠ i := fun j => by rw [List.mem_filter, decide_eq_true_eq]
  have d1 : ∀ (l js : List Nat) (k : Gen), (phases S R P i).dealing js k → (∀ j ∈ l, j ∈ P ∧ j ≠ i) →
      (phases S R P i).dealing (js ++ l) (l.foldl (fun k j => (processDeal S (R.member i) k ((net S R P).deal j i)).1) k) := by
    intro l
    induction l with
    | nil => intro js k hk _; rw [List.append_nil]; exact hk
    | cons j l ih =>
      intro js k hk hl
      obtain ⟨l1, l2⟩ := hl j List.mem_cons_self
      have := ih (js ++ [j]) _ (g.deal js k j hk l1 l2).1 fun x hx => hl x (List.mem_cons_of_mem _ hx)
      rwa [List.append_assoc] at this
  have d2 := g.dealt _ _ (d1 (P.filter (· ≠ i)) [] _ g1 fun j hj => (hmem j).1 hj) fun j hj hji => (hmem j).2 ⟨hj, hji⟩
  have r1 : ∀ (l ps : List (Nat × Nat)) (k : Gen), (phases S R P i).responding ps k → (∀ p ∈ l, p.1 ∈ P ∧ p.2 ∈ P ∧ p.2 ≠ i ∧ p.1 ≠ p.2) →
      (phases S R P i).responding (ps ++ l) (l.foldl (fun k p => (processResponse S (R.member i) k ((net S R P).resp p.1 p.2)).1) k) := by
    intro l
    induction l with
    | nil => intro ps k hk _; rw [List.append_nil]; exact hk
    | cons p l ih =>
      intro ps k hk hl
      obtain ⟨l1, l2, l3, l4⟩ := hl p List.mem_cons_self
      have := ih (ps ++ [p]) _ (g.resp ps k p.1 p.2 hk l1 l2 l3 l4).1 fun x hx => hl x (List.mem_cons_of_mem _ hx)
      rwa [List.append_assoc] at this
  have hpairs : ∀ p : Nat × Nat, p ∈ (P.filter (· ≠ i)).flatMap (fun v => (P.filter (· ≠ v)).map fun d => (d, v)) ↔
      p.1 ∈ P ∧ p.2 ∈ P ∧ p.2 ≠ i ∧ p.1 ≠ p.2 := by
    intro p
    rw [List.mem_flatMap]
    constructor
    · rintro ⟨v, hv, hp⟩
      obtain ⟨d, hd, rfl⟩ := List.mem_map.1 hp
      rw [List.mem_filter, decide_eq_true_eq] at hv hd
      exact ⟨hd.1, hv.1, hv.2, hd.2⟩
    · rintro ⟨h1, h2, h3, h4⟩
      exact ⟨p.2, (hmem _).2 ⟨h2, h3⟩, List.mem_map.2 ⟨p.1, List.mem_filter.2 ⟨h1, decide_eq_true h4⟩, rfl⟩⟩
  have r2 := g.responded _ _ (r1 _ [] _ d2 fun p hp => (hpairs p).1 hp) fun d v a b c e => (hpairs (d, v)).2 ⟨a, b, c, e⟩
  have c0 := (g.settled _ r2).2.2.2
  have c1 : ∀ (l js : List Nat) (k : Gen), Told S R P i F js k → (∀ j ∈ l, j ∈ P) →
      Told S R P i F (js ++ l) (l.foldl (fun k j => (processSecretCommits S (R.member i) k (commitsOf S R F j)).1) k) := by
    intro l
    induction l with
    | nil => intro ps k hk _; rw [List.append_nil]; exact hk
    | cons j l ih =>
      intro js k hk hl
      have hj := hl j List.mem_cons_self
      have := ih (js ++ [j]) _ (hk.step h hi hj (hv j hj)).1 fun x hx => hl x (List.mem_cons_of_mem _ hx)
      rwa [List.append_assoc] at this
  have c2 := c1 (P.filter (· ≠ i)) [] _ ⟨Told.certain c0, by
    rintro j (rfl | hj)
    · rw [hFi]; exact Told.coms c0 j (.inl rfl)
    · cases hj⟩ fun j hj => ((hmem j).1 hj).1
  exact ⟨_, rfl, c2.key h hi hF fun j hj hji => (hmem j).2 ⟨hj, hji⟩⟩

theorem shifted_spec (h : Honest S R P) {j c : Nat} (hi : i ∈ P) {a : Nat} (ha : a ∈ P) : (shifted R j i c a).length = R.T ∧
    peval (shifted R j i c a) (i + 1) % secp256k1N = peval (R.f a) (i + 1) % secp256k1N := by
  have hl := (h.polys a ha).1
  have h2 := h.low
  have hN : i + 1 ≤ secp256k1N := by
    have := h.mem i hi
    have := h.few
    have : 2 ^ 32 ≤ secp256k1N := by decide
    omega
  rw [shifted]
  split
  · rcases hf : R.f a with - | ⟨x, - | ⟨y, l⟩⟩
    · rw [hf] at hl; simp at hl; omega
    · rw [hf] at hl; simp at hl; omega
    · rw [hf] at hl
      refine ⟨hl, ?_⟩
      dsimp only
      rw [peval, peval, peval, peval]
      push_cast [hN]
      rw [show (x : Int) + c * (secp256k1N - (i + 1)) + (i + 1) * (y + c + (i + 1) * peval l (i + 1)) =
        x + (i + 1) * (y + (i + 1) * peval l (i + 1)) + c * secp256k1N by ring, Int.add_mul_emod_self_right]
  · exact ⟨hl, rfl⟩

/-- The public keys differ. -/
theorem shift_head (h : Honest S R P) {j c : Nat} (hi : i ∈ P) (hj : j ∈ P) (hc : c * (i + 1) % secp256k1N ≠ 0) :
    ((total (R.told (shifted R j i c)) P).map (timesAdd base)).headD null ≠ ((total R P).map (timesAdd base)).headD null := by
  have h2 := h.low
  have hN : i + 1 ≤ secp256k1N := by
    have := h.mem i hi
    have := h.few
    have : 2 ^ 32 ≤ secp256k1N := by decide
    omega
  obtain ⟨n, hn⟩ : ∃ n, R.T = n + 1 := ⟨R.T - 1, by omega⟩
  have hd : ∀ F : Nat → List Nat, ((total (R.told F) P).map (timesAdd base)).headD null = timesAdd base (P.map fun a => (F a).getD 0 0).sum := by
    intro F
    show (((List.range R.T).map _).map (timesAdd base)).headD null = _
    rw [hn, List.range_succ_eq_map, List.map_cons, List.map_cons, List.headD_cons]
    rfl
  have hs : (P.map fun a => (shifted R j i c a).getD 0 0).sum = (P.map fun a => (R.f a).getD 0 0).sum + c * (secp256k1N - (i + 1)) := by
    have hstep : ∀ a ∈ P, (shifted R j i c a).getD 0 0 = (R.f a).getD 0 0 + if a = j then c * (secp256k1N - (i + 1)) else 0 := by
      intro a ha
      have hl := (h.polys a ha).1
      rw [shifted]
      split
      · rcases hf : R.f a with - | ⟨x, - | ⟨y, l⟩⟩
        · rw [hf] at hl; simp at hl; omega
        · rw [hf] at hl; simp at hl; omega
        · rfl
      · rfl
    have hsum : ∀ l : List Nat, l.Nodup → (l.map fun a => if a = j then c * (secp256k1N - (i + 1)) else 0).sum =
        if j ∈ l then c * (secp256k1N - (i + 1)) else 0 := by
      intro l
      induction l with
      | nil => intro _; rfl
      | cons a l ih =>
        intro hnd
        rw [List.nodup_cons] at hnd
        rw [List.map_cons, List.sum_cons, ih hnd.2]
        by_cases e : a = j
        · subst e
          rw [if_pos rfl, if_neg hnd.1, if_pos List.mem_cons_self, Nat.add_zero]
        · rw [if_neg e, Nat.zero_add]
          congr 1
          rw [List.mem_cons, eq_iff_iff]
          exact ⟨.inr, fun x => x.resolve_left fun e' => e e'.symm⟩
    rw [List.map_congr_left hstep, List.sum_map_add, hsum P h.once, if_pos hj]
  rw [hd, show total R P = total (R.told R.f) P from rfl, hd, hs]
  intro e
  have e1 := log_base_nat ((P.map fun a => (R.f a).getD 0 0).sum + c * (secp256k1N - (i + 1)))
  rw [e] at e1
  have e2 := Log.unique_right e1 (log_base_nat _)
  rw [Nat.cast_add, add_eq_left, Nat.cast_mul, Nat.cast_sub hN, ZMod.natCast_self, zero_sub, mul_neg, neg_eq_zero, ← Nat.cast_mul,
    ZMod.natCast_eq_zero_iff] at e2
  exact hc (Nat.mod_eq_zero_of_dvd e2)

theorem sendable_times {x : Nat} (hx : x % secp256k1N ≠ 0) : Sendable (timesAdd base x) := by
  have hl := log_base_nat x
  refine ⟨((exists_log_iff _).2 ⟨_, hl⟩).1, hl.onCurve_iff.2 fun e => hx (Nat.mod_eq_zero_of_dvd ((ZMod.natCast_eq_zero_iff _ _).1 e))⟩

end Honest

/-! Whatever a generator is told -/

/-- The share belongs to the polynomial. -/
def Fits (v x : Int) (ls : List Nat) : Prop := (v - peval ls (x + 1)) % secp256k1N = 0

theorem fits_iff {v x : Int} {ls : List Nat} : Fits v x ls ↔ (v : Fn) = (polyOf (ls.map fun k : Nat => (k : Fn))).eval (xOf x) := by
  rw [Fits, ← Int.dvd_iff_emod_eq_zero, ← ZMod.intCast_zmod_eq_zero_iff_dvd, Int.cast_sub, sub_eq_zero, cast_peval, xOf]

theorem fits_of_check {ls : List Nat} {s : Share} (h : checkShare (ls.map (timesAdd base)) s = .ok true) : Fits s.V s.I ls := by
  obtain ⟨e, e1, e2⟩ := evalCommits_spec (forall2_log ls) s.I
  obtain ⟨p, p1, p2⟩ := log_base.mul s.V
  rw [checkShare, e1, Outcome.bind_ok, p1, Outcome.bind_ok] at h
  have := (e2.equal_iff p2).1 (Outcome.ok.inj h)
  rw [mul_one] at this
  exact fits_iff.2 this.symm

/-- What a generator keeps of deals. -/
def Keeps (k k' : Gen) : Prop :=
  ∀ j a d, k.vers.get? j = some (some a) → a.deal = some d → ∃ a', k'.vers.get? j = some (some a') ∧ a'.deal = some d

theorem Keeps.refl (k : Gen) : Keeps k k := fun _ a _ h1 h2 => ⟨a, h1, h2⟩

theorem keeps_set {k k' : Gen} {j : Nat} {x : Option Agg} (e : k'.vers = k.vers.set j x)
    (h : ∀ a d, k.vers.get? j = some (some a) → a.deal = some d → ∃ a', x = some a' ∧ a'.deal = some d) : Keeps k k' := by
  intro l a d h1 h2
  rw [e, GoMap.get?_set]
  split
  · rename_i hl
    subst hl
    obtain ⟨a', rfl, h4⟩ := h a d h1 h2
    exact ⟨a', rfl, h4⟩
  · exact ⟨a, h1, h2⟩

theorem addResponse_deal (n : Nat) (a : Agg) (v : Nat) (b : Bool) : (addResponse n a v b).1.deal = a.deal := by
  rw [addResponse]; split <;> rfl

theorem verifyResponse_deal (S : Suite) (pubs : List Pt) (a : Agg) (r : VssResponse) : (verifyResponse S pubs a r).1.deal = a.deal := by
  rw [verifyResponse]
  split
  · rfl
  · split
    · rfl
    · split
      · exact addResponse_deal _ _ _ _
      · rfl

/-- What holds of a generator from its deals on. -/
structure Inv (m : Member) (fs : List Nat) (k : Gen) : Prop where
  secret : k.secret = fs.map (timesAdd base)
  own : ∃ a d, k.vers.get? m.index = some (some a) ∧ a.deal = some d ∧ d.secShare = ⟨m.index, evalPoly m.f m.index⟩
  index : ∀ j a d, k.vers.get? j = some (some a) → a.deal = some d → d.secShare.I = m.index
  coms : ∀ j cs, k.coms.get? j = some cs → ∃ ls a d, cs = ls.map (timesAdd base) ∧ k.vers.get? j = some (some a) ∧ a.deal = some d ∧
    Fits d.secShare.V m.index ls

theorem Inv.keep {m : Member} {fs : List Nat} {k k' : Gen} (x : Inv m fs k) (hs : k'.secret = k.secret) (hc : k'.coms = k.coms) (hk : Keeps k k')
    (hi : ∀ j a d, k'.vers.get? j = some (some a) → a.deal = some d → d.secShare.I = m.index) : Inv m fs k' := by
  refine ⟨hs.trans x.secret, ?_, hi, ?_⟩
  · obtain ⟨a, d, h1, h2, h3⟩ := x.own
    obtain ⟨a', h4, h5⟩ := hk _ _ _ h1 h2
    exact ⟨a', d, h4, h5, h3⟩
  · intro j cs h
    rw [hc] at h
    obtain ⟨ls, a, d, h1, h2, h3, h4⟩ := x.coms j cs h
    obtain ⟨a', h5, h6⟩ := hk _ _ _ h2 h3
    exact ⟨ls, a', d, h1, h5, h6, h4⟩

/-- `ProcessDeal`: nothing changes, or the deal of a dealer without a verifier is kept. -/
theorem processDeal_cases (S : Suite) (m : Member) (k : Gen) (d : Deal) :
    (processDeal S m k d).1 = k ∨
    (k.vers.get? d.index = none ∧ ((processDeal S m k d).1 = { k with vers := k.vers.set d.index none } ∨
      ∃ e a pub, m.participants[d.index]? = some pub ∧ S.decrypt m.long pub m.participants d.deal = some e ∧ e.secShare.I = m.index ∧ a.deal = some e ∧
        (processDeal S m k d).1 = { k with vers := k.vers.set d.index (some a) })) := by
  rw [processDeal]
  split
  · exact .inl rfl
  · rename_i pub hpub
    split
    · exact .inl rfl
    · rename_i hn
      have hn : k.vers.get? d.index = none := by
        cases hx : k.vers.get? d.index with
        | none => rfl
        | some v => rw [hx] at hn; exact absurd rfl hn
      split
      · exact .inr ⟨hn, .inl rfl⟩
      · rename_i e he
        split
        · exact .inr ⟨hn, .inl rfl⟩
        · rename_i hidx
          split
          · refine .inr ⟨hn, .inr ⟨e, _, pub, hpub, he, not_not.1 hidx, ?_, rfl⟩⟩
            rw [addResponse_deal, addResponse_deal]
          · exact .inl rfl
          · exact .inl rfl

theorem Inv.deal {S : Suite} {m : Member} {fs : List Nat} {k : Gen} (x : Inv m fs k) (d : Deal) : Inv m fs (processDeal S m k d).1 := by
  rcases processDeal_cases S m k d with e | ⟨hn, e | ⟨e, a, _, _, _, hidx, ha, ek⟩⟩
  · rw [e]; exact x
  · rw [e]
    refine x.keep rfl rfl (keeps_set rfl fun a d' h1 _ => by rw [hn] at h1; cases h1) fun j a d' h1 h2 => ?_
    change GoMap.get? (k.vers.set d.index none) j = _ at h1
    rw [GoMap.get?_set] at h1
    split at h1
    · cases h1
    · exact x.index j a d' h1 h2
  · rw [ek]
    refine x.keep rfl rfl (keeps_set rfl fun a d' h1 _ => by rw [hn] at h1; cases h1) fun j b d' h1 h2 => ?_
    change GoMap.get? (k.vers.set d.index (some a)) j = _ at h1
    rw [GoMap.get?_set] at h1
    split at h1
    · cases h1
      rw [ha] at h2
      cases h2
      exact hidx
    · exact x.index j b d' h1 h2

theorem Inv.resp {S : Suite} {m : Member} {fs : List Nat} {k : Gen} (x : Inv m fs k) (r : Response) : Inv m fs (processResponse S m k r).1 := by
  rw [processResponse]
  split
  · rename_i a w hv hr
    have hdeal := verifyResponse_deal S m.participants a w
    rcases hvr : verifyResponse S m.participants a w with ⟨b, _ | _⟩
    · exact x
    · dsimp only
      rw [hvr] at hdeal
      have hkeep : ∀ k' : Gen, k'.secret = k.secret → k'.coms = k.coms → k'.vers = k.vers.set r.index (some b) → Inv m fs k' := by
        intro k' e1 e2 e3
        refine x.keep e1 e2 (keeps_set e3 fun a' d h1 h2 => ?_) fun j a' d h1 h2 => ?_
        · rw [hv] at h1
          cases h1
          exact ⟨b, rfl, hdeal.trans h2⟩
        · rw [e3, GoMap.get?_set] at h1
          split at h1
          · cases h1
            exact x.index _ a d hv (hdeal.symm.trans h2)
          · exact x.index j a' d h1 h2
      split
      · exact hkeep _ rfl rfl rfl
      · split <;> exact hkeep _ rfl rfl rfl
  · exact x

theorem Inv.timeout {S : Suite} {m : Member} {fs : List Nat} {k : Gen} (x : Inv m fs k) : Inv m fs (setTimeout S m k) := by
  refine x.keep rfl rfl (fun j a d h1 h2 => ?_) fun j a d h1 h2 => ?_
  · refine ⟨cleanVerifiers m.participants.length a, ?_, (clean_spec (List.range m.participants.length) a).2.2.1.trans h2⟩
    show GoMap.get? (k.vers.map _) j = _
    rw [get?_mapVal, h1]
    rfl
  · change GoMap.get? (k.vers.map _) j = _ at h1
    rw [get?_mapVal] at h1
    cases hv : k.vers.get? j with
    | none => rw [hv] at h1; cases h1
    | some o =>
      rw [hv] at h1
      cases o with
      | none => cases h1
      | some b =>
        cases h1
        exact x.index j b d hv ((clean_spec (List.range m.participants.length) b).2.2.1.symm.trans h2)

theorem Inv.commit {m : Member} {fs : List Nat} {k : Gen} (x : Inv m fs k) {j : Nat} {ls : List Nat} {a : Agg} {d : VssDeal}
    (h1 : k.vers.get? j = some (some a)) (h2 : a.deal = some d) (h3 : Fits d.secShare.V m.index ls) :
    Inv m fs { k with coms := k.coms.set j (ls.map (timesAdd base)) } := by
  refine ⟨x.secret, x.own, x.index, fun l cs h => ?_⟩
  change GoMap.get? (k.coms.set j (ls.map (timesAdd base))) l = _ at h
  rw [GoMap.get?_set] at h
  split at h
  · rename_i e
    subst e
    cases h
    exact ⟨ls, a, d, rfl, h1, h2, h3⟩
  · exact x.coms l cs h

/-- Commitments that come from a message are elements of the group. -/
theorem decoded_elts {x : CommitsDTO} {c : SecretCommits} (h : dtoToCommits x = .ok c) : ∀ p ∈ c.commitments, IsElt p := by
  obtain ⟨cs, h1, h2⟩ := (Outcome.bind_eq_ok _ _ _).1 h
  cases h2
  have := (Layout.mapO_ok _ _ _).1 h1
  intro p hp
  obtain ⟨b, _, hb⟩ := forall2_mem this hp
  obtain ⟨h1, h2, _⟩ := C08_unmarshal_result b p hb
  exact ⟨h1, .inr h2⟩

theorem Inv.step {S : Suite} {m : Member} {fs : List Nat} (hf : m.f = fs.map Int.ofNat) {k : Gen} (x : Inv m fs k) (c : Spec.Rabin.Call) :
    Inv m fs (c.run S m k) := by
  cases c with
  | deal d => exact x.deal d
  | resp r => exact x.resp r
  | timeout => exact x.timeout
  | own =>
    show Inv m fs (secretCommits S m k).1
    rw [secretCommits]
    split
    · obtain ⟨a, d, h1, h2, h3⟩ := x.own
      have key := x.commit (ls := fs) h1 h2 ?_
      · rw [← x.secret] at key
        exact key
      rw [h3, hf, evalPoly_eq, Fits, Int.emod_sub_emod, Int.sub_self]
      rfl
    · exact x
  | commits y c hy =>
    have hc := decoded_elts hy
    show Inv m fs (processSecretCommits S m k c).1
    rw [processSecretCommits]
    split
    · rename_i pub a h1 h2
      split
      · exact x
      · split
        · split
          · exact x
          · rename_i d hd
            split
            · rename_i hch
              obtain ⟨ls, e⟩ := commits_have_coefficients c.commitments hc
              rw [e] at hch ⊢
              have := fits_of_check hch
              rw [x.index _ _ _ h2 hd] at this
              exact x.commit h2 hd this
            · exact x
            · exact x
            · exact x
        · exact x
    · exact x

theorem Inv.run {S : Suite} {m : Member} {fs : List Nat} (hf : m.f = fs.map Int.ofNat) (cs : List Spec.Rabin.Call) {k : Gen} (x : Inv m fs k) :
    Inv m fs (cs.foldl (Spec.Rabin.Call.run S m) k) := by
  induction cs generalizing k with
  | nil => exact x
  | cons c cs ih => exact ih (x.step hf c)

theorem deals_inv {S : Suite} {m : Member} {fs : List Nat}
    {k : Gen} (hown : ∀ pub d, m.participants[m.index]? = some pub → k.deals[m.index]? = some d →
      S.decrypt m.long pub m.participants (m.encrypt m.index d) = some d)
    (hv : k.vers = []) (hs : k.secret = fs.map (timesAdd base)) (hc : k.coms = []) {own : VssDeal} (hk : k.deals[m.index]? = some own)
    (hsh : own.secShare = ⟨m.index, evalPoly m.f m.index⟩) {ds : List (Int × Deal)} (hd : (deals S m k).2 = .ok ds) : Inv m fs (deals S m k).1 := by
  have hn : ∀ j, k.vers.get? j = none := fun j => by rw [hv]; rfl
  rw [deals, if_neg (by rw [hn]; simp), hk] at hd ⊢
  dsimp only at hd ⊢
  have hcase := processDeal_cases S m k ⟨m.index, m.encrypt m.index own⟩
  have hresp : ∀ k' r, processDeal S m k ⟨m.index, m.encrypt m.index own⟩ = (k', .ok (some r)) →
      ∃ e, k'.vers.get? m.index = some e ∧ e.isSome = true := by
    intro k' r hp
    rw [processDeal] at hp
    split at hp
    · cases hp
    · rw [if_neg (by rw [hn]; simp)] at hp
      split at hp
      · cases hp
      · split at hp
        · cases hp
        · split at hp
          · injection hp with e1 e2
            rw [← e1]
            exact ⟨_, (GoMap.get?_set _ _ _ _).trans (if_pos rfl), rfl⟩
          · cases hp
          · cases hp
  rcases hp : processDeal S m k ⟨m.index, m.encrypt m.index own⟩ with ⟨k', o⟩
  rw [hp] at hd hcase
  dsimp only at hcase
  split at hd
  · rename_i k' j r heq
    injection heq with e1 e2
    subst e1 e2
    split at hd
    · rename_i hr
      rw [if_pos hr]
      obtain ⟨e, he1, he2⟩ := hresp _ _ hp
      rcases hcase with e | ⟨_, e | ⟨e, a, pub, h1, h2, h3, h4, h5⟩⟩
      · rw [e, hn] at he1; cases he1
      · rw [e] at he1
        rw [show GoMap.get? (k.vers.set m.index none) m.index = some none from (GoMap.get?_set _ _ _ _).trans (if_pos rfl)] at he1
        cases he1
        cases he2
      · rw [h5]
        rw [hown pub own h1 hk] at h2
        cases h2
        have hg : ∀ j, GoMap.get? (k.vers.set m.index (some a)) j = if m.index = j then some (some a) else none := by
          intro j
          rw [GoMap.get?_set, hn]
        refine ⟨hs, ⟨a, own, (hg _).trans (if_pos rfl), h4, hsh⟩, fun j b d g1 g2 => ?_, fun j cs g => ?_⟩
        · change GoMap.get? (k.vers.set m.index (some a)) j = _ at g1
          rw [hg] at g1
          split at g1
          · cases g1
            rw [h4] at g2
            cases g2
            exact h3
          · cases g1
        · change k.coms.get? j = _ at g
          rw [hc] at g
          cases g
    · cases hd
  · cases hd

theorem Inv.first {S : Suite} {m : Member} {fs : List Nat} (hf : m.f = fs.map Int.ofNat) {k0 : Gen}
    (hown : ∀ pub d, m.participants[m.index]? = some pub → k0.deals[m.index]? = some d →
      S.decrypt m.long pub m.participants (m.encrypt m.index d) = some d)
    (h0 : newGen S m = .ok k0) {ds : List (Int × Deal)} (hd : (deals S m k0).2 = .ok ds) : Inv m fs (deals S m k0).1 := by
  rw [newGen, hf, commit_eq isElt_base, Outcome.bind_ok] at h0
  obtain ⟨G, h1, h0⟩ := (Outcome.bind_eq_ok _ _ _).1 h0
  obtain ⟨C, h2, h0⟩ := (Outcome.bind_eq_ok _ _ _).1 h0
  obtain ⟨pub, h3, h0⟩ := (Outcome.bind_eq_ok _ _ _).1 h0
  have e := (Outcome.ok.inj h0).symm
  have hvers : k0.vers = [] := by rw [e]
  cases hk : k0.deals[m.index]? with
  | none =>
    rw [deals, if_neg (by rw [hvers]; simp [GoMap.get?]), hk] at hd
    cases hd
  | some own =>
    refine deals_inv hown hvers (by rw [e]) (by rw [e]) hk ?_ hd
    rw [e] at hk
    dsimp only at hk
    rw [List.getElem?_map, Option.map_eq_some_iff] at hk
    obtain ⟨b, hb, rfl⟩ := hk
    rw [List.getElem?_eq_some_iff] at hb
    obtain ⟨_, hb⟩ := hb
    rw [List.getElem_range] at hb
    rw [← hb, hf]

/-- The loop over shares. -/
theorem Inv.sum {m : Member} {fs : List Nat} {k : Gen} (x : Inv m fs k) (q : List Nat) :
    ∀ (sh : Int) (pub : Option (List Pt)) (r : Int × Option (List Pt)),
      (pub = none → sh % secp256k1N = 0) → (∀ p, pub = some p → ∃ ls : List Nat, p = ls.map (timesAdd base) ∧ Fits sh m.index ls) →
      sumShares k q (sh, pub) = .ok r → ∀ p, r.2 = some p → ∃ ls : List Nat, p = ls.map (timesAdd base) ∧ Fits r.1 m.index ls := by
  induction q with
  | nil =>
    intro sh pub r _ h2 e
    cases e
    exact h2
  | cons j q ih =>
    intro sh pub r h1 h2 e
    rw [sumShares] at e
    split at e
    · rename_i a cs ha hcs
      split at e
      · cases e
      · rename_i d hd
        obtain ⟨ls, a', d', l1, l2, l3, l4⟩ := x.coms j cs hcs
        rw [ha] at l2
        cases l2
        rw [hd] at l3
        cases l3
        dsimp only at e
        split at e
        · refine ih _ _ r (fun h => by cases h) (fun p hp => ?_) e
          cases hp
          refine ⟨ls, l1, ?_⟩
          have := h1 rfl
          rw [Fits] at l4 ⊢
          rw [Scalar.add, modG_eq, Int.emod_sub_emod, Int.add_sub_assoc, Int.add_emod, this, l4]
          rfl
        · rename_i p
          obtain ⟨ms, m1, m2⟩ := h2 p rfl
          obtain ⟨p', e1, e2⟩ := (Outcome.bind_eq_ok _ _ _).1 e
          rw [m1, l1, addPolys] at e1
          split at e1
          · cases e1
          · rename_i hl
            have hl : ms.length = ls.length := by simpa using hl
            refine ih _ _ r (fun h => by cases h) (fun p hp => ?_) e2
            cases hp
            have := addPolys_eq ms ls hl
            rw [addPolys, if_neg (by simp [hl])] at this
            refine ⟨_, (Outcome.ok.inj e1).symm.trans (Outcome.ok.inj this), ?_⟩
            rw [Fits] at l4 m2 ⊢
            rw [peval_zip ms ls hl, Scalar.add, modG_eq, Int.emod_sub_emod,
              show sh + d.secShare.V - (peval ms (m.index + 1) + peval ls (m.index + 1)) =
                (sh - peval ms (m.index + 1)) + (d.secShare.V - peval ls (m.index + 1)) by ring, Int.add_emod, m2, l4]
            rfl
    · cases e

end Verif.Rabin
