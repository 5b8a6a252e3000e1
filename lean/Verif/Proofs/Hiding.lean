import Verif.Spec.Hiding
import Verif.Proofs.Rabin

/-! Deals hide the secret of the dealer. -/
namespace Verif.Hiding
open Verif.Rabin Verif.Point Verif.Props Verif.Dkg Verif.Dto Verif.Dss Verif.Spec.Rabin Verif.Spec.Hiding Polynomial

/-! A polynomial with any value at zero that vanishes at few points -/

theorem vanishing (B : List Nat) (hb : ∀ b ∈ B, ((b : Fn) + 1) ≠ 0) (δ : Fn) :
    ∃ p : Fn[X], p.natDegree ≤ B.length ∧ p.eval 0 = δ ∧ ∀ b ∈ B, p.eval ((b : Fn) + 1) = 0 := by
  induction B with
  | nil => exact ⟨C δ, by simp, by simp, by simp⟩
  | cons b B ih =>
    obtain ⟨p, h1, h2, h3⟩ := ih fun x hx => hb x (List.mem_cons_of_mem _ hx)
    have hb0 := hb b List.mem_cons_self
    refine ⟨p * (1 - C (((b : Fn) + 1)⁻¹) * X), ?_, ?_, ?_⟩
    · refine natDegree_mul_le.trans ?_
      have : (1 - C (((b : Fn) + 1)⁻¹) * X).natDegree ≤ 1 := by
        refine (natDegree_sub_le _ _).trans (max_le (by simp) ?_)
        exact (natDegree_C_mul_le _ _).trans natDegree_X_le
      rw [List.length_cons]
      omega
    · rw [eval_mul, h2]; simp
    · intro x hx
      rw [eval_mul]
      rcases List.mem_cons.1 hx with rfl | hx
      · have : eval ((x : Fn) + 1) (1 - C (((x : Fn) + 1)⁻¹) * X) = 0 := by
          simp [inv_mul_cancel₀ hb0]
        rw [this, mul_zero]
      · rw [h3 x hx, zero_mul]

theorem coeff_polyOf (cs : List Fn) (k : Nat) : (polyOf cs).coeff k = cs.getD k 0 := by
  induction cs generalizing k with
  | nil => simp [polyOf]
  | cons c cs ih =>
    rw [polyOf, coeff_add]
    cases k with
    | zero => simp
    | succ k => rw [coeff_X_mul, ih, coeff_C_succ]; simp

theorem polyOf_coeffs {p : Fn[X]} {T : Nat} (h : p.natDegree < T) : polyOf ((List.range T).map p.coeff) = p := by
  ext k
  rw [coeff_polyOf]
  by_cases hk : k < T
  · simp [List.getD_eq_getElem?_getD, hk]
  · rw [coeff_eq_zero_of_natDegree_lt (by omega)]
    simp [List.getD_eq_getElem?_getD, hk]

theorem polyOf_zip (as bs : List Fn) (h : as.length = bs.length) : polyOf (List.zipWith (· + ·) as bs) = polyOf as + polyOf bs := by
  induction as generalizing bs with
  | nil => cases bs with
    | nil => simp [polyOf]
    | cons _ _ => cases h
  | cons a as ih => cases bs with
    | nil => cases h
    | cons b bs =>
      rw [List.zipWith_cons_cons, polyOf, polyOf, polyOf, ih bs (by simpa using h), C_add]
      ring

theorem polyOf_scale (c : Fn) (as : List Fn) : polyOf (as.map (c * ·)) = C c * polyOf as := by
  induction as with
  | nil => simp [polyOf]
  | cons a as ih => rw [List.map_cons, polyOf, polyOf, ih, C_mul]; ring

/-- The coefficients with others added to them. -/
def plus (xs : List Nat) (ds : List Fn) : List Nat := List.zipWith (fun (x : Nat) (d : Fn) => ((x : Fn) + d).val) xs ds

theorem plus_cast (xs : List Nat) (ds : List Fn) :
    (plus xs ds).map (fun k : Nat => (k : Fn)) = List.zipWith (· + ·) (xs.map fun k : Nat => (k : Fn)) ds := by
  induction xs generalizing ds with
  | nil => simp [plus]
  | cons x xs ih => cases ds with
    | nil => simp [plus]
    | cons d ds =>
      have := ih ds
      rw [plus] at this ⊢
      simp only [List.zipWith_cons_cons, List.map_cons, this, ZMod.natCast_val, ZMod.cast_id', id]

theorem plus_length {xs : List Nat} {ds : List Fn} (h : ds.length = xs.length) : (plus xs ds).length = xs.length := by
  simp [plus, h]

theorem peval_plus {xs : List Nat} {ds : List Fn} (h : ds.length = xs.length) (b : Nat) (h0 : (polyOf ds).eval ((b : Fn) + 1) = 0) :
    peval (plus xs ds) (b + 1) % secp256k1N = peval xs (b + 1) % secp256k1N := by
  refine (ZMod.intCast_eq_intCast_iff' _ _ secp256k1N).1 ?_
  rw [cast_peval, cast_peval, plus_cast, polyOf_zip _ _ (by simp [h]), eval_add]
  push_cast
  rw [h0, add_zero]

theorem pairs_eq {h : Fn} (h0 : h ≠ 0) (xs ys : List Nat) (ds : List Fn) (hx : ds.length = xs.length) (hy : ds.length = ys.length) :
    List.zipWith (fun (x y : Nat) => (x : Fn) + y * h) (plus xs ds) (plus ys (ds.map (-h⁻¹ * ·))) =
      List.zipWith (fun (x y : Nat) => (x : Fn) + y * h) xs ys := by
  induction xs generalizing ys ds with
  | nil => simp [plus]
  | cons x xs ih =>
    obtain _ | ⟨d, ds⟩ := ds
    · cases hx
    obtain _ | ⟨y, ys⟩ := ys
    · cases hy
    have := ih ys ds (by simpa using hx) (by simpa using hy)
    rw [plus, plus] at this ⊢
    simp only [List.zipWith_cons_cons, List.map_cons, this, ZMod.natCast_val, ZMod.cast_id', id]
    congr 1
    field_simp
    ring

theorem logs_eq {as bs : List Pt} {xs : List Fn} (ha : List.Forall₂ Log as xs) (hb : List.Forall₂ Log bs xs) : as = bs := by
  induction ha generalizing bs with
  | nil => cases hb; rfl
  | cons h _ ih => cases hb with
    | cons h' hb => rw [h.unique_left h', ih hb]

/-- Other coefficients with any secret, the same commitments, and the same values at few points. -/
theorem others {H : Pt} (hH : IsElt H) (hn : H ≠ null) {T : Nat} (xs ys : List Nat) (hx : xs.length = T) (hy : ys.length = T) {B : List Nat}
    (hB : B.length < T) (hb : ∀ b ∈ B, ((b : Fn) + 1) ≠ 0) (s : Nat) :
    ∃ xs' ys' : List Nat, xs'.length = T ∧ ys'.length = T ∧ xs'.headD 0 % secp256k1N = s % secp256k1N ∧
      List.zipWith (fun x y => add (timesAdd base x) (timesAdd H y)) xs' ys' = List.zipWith (fun x y => add (timesAdd base x) (timesAdd H y)) xs ys ∧
      ∀ b ∈ B, peval xs' (b + 1) % secp256k1N = peval xs (b + 1) % secp256k1N ∧ peval ys' (b + 1) % secp256k1N = peval ys (b + 1) % secp256k1N := by
  obtain ⟨h, hh⟩ := (exists_log_iff H).1 hH
  have h0 : h ≠ 0 := by
    rintro rfl
    exact hn (hh.unique_left log_null)
  obtain ⟨p, p1, p2, p3⟩ := vanishing B hb ((s : Fn) - (xs.headD 0 : Nat))
  have hd : p.natDegree < T := by omega
  have hp := polyOf_coeffs hd
  have e1 : ((List.range T).map p.coeff).length = xs.length := by simp [hx]
  have e2 : (((List.range T).map p.coeff).map (-h⁻¹ * ·)).length = ys.length := by simp [hy]
  refine ⟨plus xs ((List.range T).map p.coeff), plus ys (((List.range T).map p.coeff).map (-h⁻¹ * ·)), ?_, ?_, ?_, ?_, ?_⟩
  · rw [plus_length e1, hx]
  · rw [plus_length e2, hy]
  · refine (ZMod.natCast_eq_natCast_iff' _ _ _).1 ?_
    obtain ⟨n, rfl⟩ : ∃ n, T = n + 1 := ⟨T - 1, by omega⟩
    obtain _ | ⟨x, xs⟩ := xs
    · cases hx
    rw [List.range_succ_eq_map, List.map_cons, plus, List.zipWith_cons_cons, List.headD_cons, ZMod.natCast_val, ZMod.cast_id', id,
      coeff_zero_eq_eval_zero, p2, List.headD_cons]
    ring
  · refine logs_eq (log_pair hh _ _) ?_
    rw [pairs_eq h0 xs ys _ (by simp [hx]) (by simp [hy])]
    exact log_pair hh _ _
  · intro b hbB
    refine ⟨peval_plus e1 b (by rw [hp, p3 b hbB]), peval_plus e2 b ?_⟩
    rw [polyOf_scale, hp, eval_mul, p3 b hbB, mul_zero]

/-! Generators that differ only in what is not seen -/

variable {S : Suite} {m : Member}

/-- Without the deal. -/
def strip (a : Agg) : Agg := { a with deal := none }

/-- Without the deals. -/
def stripV (v : GoMap Nat (Option Agg)) : GoMap Nat (Option Agg) := v.map fun p => (p.1, p.2.map strip)

theorem stripV_set (v : GoMap Nat (Option Agg)) (j : Nat) (a : Option Agg) : stripV (v.set j a) = (stripV v).set j (a.map strip) := by
  rw [stripV, GoMap.set, GoMap.set, List.map_cons, stripV, List.filter_map]
  rfl

theorem stripV_get (v : GoMap Nat (Option Agg)) (j : Nat) : (stripV v).get? j = (v.get? j).map (Option.map strip) := get?_mapVal v _ j

theorem addResponse_strip (n : Nat) (a : Agg) (v : Nat) (ok : Bool) :
    addResponse n (strip a) v ok = (strip (addResponse n a v ok).1, (addResponse n a v ok).2) := by
  rw [addResponse, addResponse]
  show (if n ≤ v ∨ (a.resps.get? v).isSome = true then _ else _) = _
  split <;> rfl

theorem verifyResponse_strip (pubs : List Pt) (a : Agg) (r : VssResponse) :
    verifyResponse S pubs (strip a) r = (strip (verifyResponse S pubs a r).1, (verifyResponse S pubs a r).2) := by
  rw [verifyResponse, verifyResponse]
  show (if r.sessionID ≠ a.sid then _ else _) = _
  split
  · rfl
  · split
    · rfl
    · split
      · exact addResponse_strip _ _ _ _
      · rfl

theorem clean_strip (l : List Nat) (a : Agg) :
    l.foldl (fun a v => if (a.resps.get? v).isSome = true then a else { a with resps := a.resps.set v false }) (strip a) =
      strip (l.foldl (fun a v => if (a.resps.get? v).isSome = true then a else { a with resps := a.resps.set v false }) a) := by
  induction l generalizing a with
  | nil => rfl
  | cons v l ih =>
    rw [List.foldl_cons, List.foldl_cons, ← ih]
    congr 1
    show (if (a.resps.get? v).isSome = true then _ else _) = _
    split <;> rfl

/-- The same but for deals and coefficients. -/
structure Alike (k k' : Gen) : Prop where
  vers : stripV k.vers = stripV k'.vers
  dealer : k.dealer = k'.dealer

variable {f g f' g' : List Nat} {k k' : Gen}

theorem Alike.isSome (h : Alike k k') (j : Nat) : (k.vers.get? j).isSome = (k'.vers.get? j).isSome := by
  have := congrArg (fun v => (GoMap.get? v j).isSome) h.vers
  simpa only [stripV_get, Option.isSome_map] using this

theorem Alike.get (h : Alike k k') (j : Nat) : (k.vers.get? j).map (Option.map strip) = (k'.vers.get? j).map (Option.map strip) := by
  rw [← stripV_get, ← stripV_get, h.vers]

theorem Alike.set (h : Alike k k') (j : Nat) {a a' : Option Agg} (ha : a.map strip = a'.map strip) :
    Alike { k with vers := k.vers.set j a } { k' with vers := k'.vers.set j a' } :=
  ⟨by show stripV (k.vers.set j a) = stripV (k'.vers.set j a'); rw [stripV_set, stripV_set, h.vers, ha], h.dealer⟩

theorem w_index : (with_ m f g).index = m.index := rfl
theorem w_long : (with_ m f g).long = m.long := rfl
theorem w_participants : (with_ m f g).participants = m.participants := rfl
theorem w_sign : (with_ m f g).sign = m.sign := rfl

theorem Alike.deal (h : Alike k k') (d : Deal) :
    Alike (processDeal S (with_ m f g) k d).1 (processDeal S (with_ m f' g') k' d).1 ∧
      (processDeal S (with_ m f g) k d).2 = (processDeal S (with_ m f' g') k' d).2 := by
  rw [Rabin.processDeal, Rabin.processDeal]
  simp only [w_index, w_long, w_participants, w_sign]
  cases m.participants[d.index]? with
  | none => exact ⟨h, rfl⟩
  | some pub =>
    dsimp only
    rw [h.isSome d.index]
    split
    · exact ⟨h, rfl⟩
    · cases S.decrypt m.long pub m.participants d.deal with
      | none => exact ⟨h.set _ rfl, rfl⟩
      | some e =>
        dsimp only
        by_cases hi : e.secShare.I = m.index
        · simp only [hi, ne_eq, not_true, if_false]
          cases verifyDeal S m.participants e with
          | ok ok => exact ⟨h.set _ rfl, rfl⟩
          | err => exact ⟨h, rfl⟩
          | panic => exact ⟨h, rfl⟩
        · simp only [hi, ne_eq, not_false_eq_true, if_true]
          exact ⟨h.set _ rfl, trivial⟩

theorem Alike.resp (h : Alike k k') (r : Response) :
    Alike (processResponse S (with_ m f g) k r).1 (processResponse S (with_ m f' g') k' r).1 ∧
      (processResponse S (with_ m f g) k r).2 = (processResponse S (with_ m f' g') k' r).2 := by
  have hg := h.get r.index
  rw [Rabin.processResponse, Rabin.processResponse]
  simp only [w_index, w_participants]
  generalize k.vers.get? r.index = x at hg ⊢
  generalize k'.vers.get? r.index = x' at hg ⊢
  cases r.response with
  | none =>
    obtain _ | _ | a := x <;> obtain _ | _ | a' := x' <;> exact ⟨h, rfl⟩
  | some w =>
    obtain _ | _ | a := x <;> obtain _ | _ | a' := x'
    any_goals exact ⟨h, rfl⟩
    any_goals (exfalso; simp at hg; done)
    have ha : strip a = strip a' := by simpa using hg
    dsimp only
    have e1 := verifyResponse_strip (S := S) m.participants a w
    have e2 := verifyResponse_strip (S := S) m.participants a' w
    rw [ha, e2] at e1
    generalize verifyResponse S m.participants a w = x at e1 ⊢
    generalize verifyResponse S m.participants a' w = x' at e1 ⊢
    obtain ⟨b, c⟩ := x
    obtain ⟨b', c'⟩ := x'
    obtain ⟨hb, hc⟩ := Prod.mk.inj e1
    dsimp only at hb hc
    subst hc
    cases c' with
    | false => exact ⟨h, rfl⟩
    | true =>
      have h2 := h.set r.index (a := some b) (a' := some b') (by rw [Option.map_some, Option.map_some, hb])
      dsimp only
      by_cases hi : r.index = m.index
      · simp only [hi, ne_eq, not_true, if_false, h.dealer]
        rw [hi] at h2
        obtain ⟨y, _ | _⟩ := verifyResponse S m.participants k'.dealer w
        · exact ⟨⟨h2.vers, rfl⟩, rfl⟩
        · exact ⟨⟨h2.vers, rfl⟩, rfl⟩
      · simp only [hi, ne_eq, not_false_eq_true, if_true]
        exact ⟨h2, trivial⟩

theorem Alike.timeout (h : Alike k k') : Alike (setTimeout S (with_ m f g) k) (setTimeout S (with_ m f' g') k') := by
  have e : ∀ v : GoMap Nat (Option Agg), stripV (v.map fun p => (p.1, p.2.map (cleanVerifiers m.participants.length))) =
      (stripV v).map fun p => (p.1, p.2.map (cleanVerifiers m.participants.length)) := by
    intro v
    rw [stripV, stripV, List.map_map, List.map_map]
    refine List.map_congr_left fun p _ => ?_
    show (p.1, (p.2.map (cleanVerifiers m.participants.length)).map strip) = (p.1, (p.2.map strip).map (cleanVerifiers m.participants.length))
    rw [Option.map_map, Option.map_map]
    congr 2
    funext a
    exact (clean_strip (List.range m.participants.length) a).symm
  refine ⟨?_, ?_⟩
  · show stripV (k.vers.map fun p => (p.1, p.2.map (cleanVerifiers m.participants.length))) =
      stripV (k'.vers.map fun p => (p.1, p.2.map (cleanVerifiers m.participants.length)))
    rw [e, e, h.vers]
  · show (if S.dealerTimeout then cleanVerifiers m.participants.length k.dealer else k.dealer) =
      (if S.dealerTimeout then cleanVerifiers m.participants.length k'.dealer else k'.dealer)
    rw [h.dealer]

theorem Alike.told (h : Alike k k') (as : List Ask) :
    Alike (told S (with_ m f g) k as).1 (told S (with_ m f' g') k' as).1 ∧ (told S (with_ m f g) k as).2 = (told S (with_ m f' g') k' as).2 := by
  induction as generalizing k k' with
  | nil => exact ⟨h, rfl⟩
  | cons a as ih =>
    cases a with
    | deal d =>
      obtain ⟨h1, h2⟩ := h.deal (S := S) (m := m) (f := f) (g := g) (f' := f') (g' := g') d
      obtain ⟨h3, h4⟩ := ih h1
      exact ⟨h3, congrArg₂ List.cons (congrArg Answer.deal h2) h4⟩
    | resp r =>
      obtain ⟨h1, h2⟩ := h.resp (S := S) (m := m) (f := f) (g := g) (f' := f') (g' := g') r
      obtain ⟨h3, h4⟩ := ih h1
      exact ⟨h3, congrArg₂ List.cons (congrArg Answer.resp h2) h4⟩
    | timeout =>
      obtain ⟨h3, h4⟩ := ih (h.timeout (S := S) (m := m) (f := f) (g := g) (f' := f') (g' := g'))
      exact ⟨h3, congrArg (List.cons Answer.nothing) h4⟩

theorem Alike.qual (h : Alike k k') : qual (with_ m f g) k = qual (with_ m f' g') k' := by
  have hk : k.vers.keys = k'.vers.keys := by
    rw [← keys_mapVal k.vers (Option.map strip), ← keys_mapVal k'.vers (Option.map strip)]
    exact congrArg GoMap.keys h.vers
  rw [Rabin.qual, Rabin.qual, hk]
  show (m.iter k'.vers.keys).filter _ = (m.iter k'.vers.keys).filter _
  refine List.filter_congr fun j _ => ?_
  have hg := h.get j
  generalize k.vers.get? j = x at hg ⊢
  generalize k'.vers.get? j = x' at hg ⊢
  obtain _ | _ | a := x <;> obtain _ | _ | a' := x'
  any_goals rfl
  any_goals (exfalso; simp at hg; done)
  have ha : strip a = strip a' := by simpa using hg
  show dealCertified m.participants.length (strip a) = dealCertified m.participants.length (strip a')
  rw [ha]

/-! The beginning -/

/-- The commitments. -/
def coms (S : Suite) (m : Member) (f g : List Nat) : List Pt :=
  List.zipWith (fun x y => add (timesAdd base x) (timesAdd (S.deriveH m.participants) y)) f g

/-- The deal for `b`. -/
def dealFor (S : Suite) (m : Member) (pub : Pt) (f g : List Nat) (b : Nat) : VssDeal :=
  ⟨S.sid pub m.participants (coms S m f g) m.T, ⟨b, peval f (b + 1) % secp256k1N⟩, ⟨b, peval g (b + 1) % secp256k1N⟩, m.T, coms S m f g⟩

/-- The generator. -/
def start (S : Suite) (m : Member) (pub : Pt) (f g : List Nat) : Gen :=
  ⟨[], ⟨S.sid pub m.participants (coms S m f g) m.T, m.T, none, [], false⟩,
    (List.range m.participants.length).map (fun b => dealFor S m pub f g b), f.map (timesAdd base), []⟩

theorem newGen_start (hH : IsElt (S.deriveH m.participants)) (hl : f.length = g.length) {pub : Pt} (hp : mul m.long base = .ok pub) :
    newGen S (with_ m f g) = .ok (start S m pub f g) := by
  have e : addPolys (f.map (timesAdd base)) (g.map (timesAdd (S.deriveH m.participants))) = .ok (coms S m f g) := by
    rw [addPolys, if_neg (by simp [hl]), zip_map]
    rfl
  rw [newGen]
  show (commit base (f.map Int.ofNat)).bind (fun F => (commit (S.deriveH m.participants) (g.map Int.ofNat)).bind fun G => (addPolys F G).bind fun C =>
    (mul m.long base).bind fun pub => _) = _
  rw [commit_eq isElt_base, commit_eq hH]
  show (addPolys _ _).bind _ = _
  rw [e, hp]
  show Outcome.ok _ = Outcome.ok _
  congr 1
  rw [start]
  congr 1
  refine List.map_congr_left fun b _ => ?_
  show (⟨_, ⟨b, evalPoly (f.map Int.ofNat) b⟩, ⟨b, evalPoly (g.map Int.ofNat) b⟩, m.T, _⟩ : VssDeal) = _
  rw [evalPoly_eq, evalPoly_eq]
  rfl

theorem verifyDeal_own (hH : IsElt (S.deriveH m.participants)) (hl : f.length = g.length) (h2 : 2 ≤ m.T) (hT : m.T ≤ m.participants.length)
    (hi : m.index < m.participants.length) (pub : Pt) : verifyDeal S m.participants (dealFor S m pub f g m.index) = .ok true := by
  obtain ⟨p, q, e, p1, q1, e1, he⟩ := check_pair hH f g hl m.index
  rw [verifyDeal, if_neg, if_neg, if_neg]
  · show (mul (peval f (m.index + 1) % secp256k1N) base).bind (fun p => (mul (peval g (m.index + 1) % secp256k1N) (S.deriveH m.participants)).bind fun q =>
      (evalCommits (coms S m f g) m.index).bind fun e => Outcome.ok (equal (add p q) e)) = _
    rw [p1]
    show (mul (peval g (m.index + 1) % secp256k1N) (S.deriveH m.participants)).bind _ = _
    rw [q1]
    show (evalCommits (coms S m f g) m.index).bind _ = _
    rw [coms, e1]
    show Outcome.ok _ = _
    rw [he]
  · show ¬ ((m.index : Int) < 0 ∨ (m.participants.length : Int) ≤ (m.index : Int))
    omega
  · show ¬ ((m.index : Int) ≠ m.index)
    simp
  · show ¬ (m.T < 2 ∨ m.participants.length < m.T)
    omega

/-- The aggregator for the own deal. -/
def ownAgg (m : Member) (d : VssDeal) : Agg :=
  (addResponse m.participants.length (addResponse m.participants.length ⟨d.sessionID, d.T, some d, [], false⟩ m.index true).1 m.index true).1

theorem deals_start (hH : IsElt (S.deriveH m.participants)) (hl : f.length = g.length) (h2 : 2 ≤ m.T) (hT : m.T ≤ m.participants.length)
    (hi : m.index < m.participants.length) {pub pk : Pt} (hpk : m.participants[m.index]? = some pk)
    (hown : S.decrypt m.long pk m.participants (m.encrypt m.index (dealFor S m pub f g m.index)) = some (dealFor S m pub f g m.index)) :
    deals S (with_ m f g) (start S m pub f g) =
      ({ start S m pub f g with
          vers := [(m.index, some (ownAgg m (dealFor S m pub f g m.index)))]
          dealer := (addResponse m.participants.length (start S m pub f g).dealer m.index true).1 },
        .ok (otherDeals (with_ m f g) (start S m pub f g).deals)) := by
  have e : processDeal S (with_ m f g) (start S m pub f g) ⟨m.index, m.encrypt m.index (dealFor S m pub f g m.index)⟩ =
      ({ start S m pub f g with vers := [(m.index, some (ownAgg m (dealFor S m pub f g m.index)))] },
        .ok (some ⟨m.index, some ⟨S.sid pk m.participants (coms S m f g) m.T, m.index, true,
          m.sign (S.respHash (S.sid pk m.participants (coms S m f g) m.T) m.index true)⟩⟩)) := by
    rw [Rabin.processDeal]
    show (match m.participants[m.index]? with | none => _ | some pub => _) = _
    rw [hpk]
    dsimp only
    refine (if_neg (by exact Bool.false_ne_true)).trans ?_
    show (match S.decrypt m.long pk m.participants (m.encrypt m.index (dealFor S m pub f g m.index)) with | none => _ | some e => _) = _
    rw [hown]
    dsimp only
    refine (if_neg (fun h => h rfl)).trans ?_
    show (match verifyDeal S m.participants (dealFor S m pub f g m.index) with | .ok ok => _ | .err => _ | .panic => _) = _
    rw [verifyDeal_own hH hl h2 hT hi]
    rfl
  rw [Rabin.deals]
  refine (if_neg (by exact Bool.false_ne_true)).trans ?_
  have hd : (start S m pub f g).deals[m.index]? = some (dealFor S m pub f g m.index) := by
    show ((List.range m.participants.length).map (fun b => dealFor S m pub f g b))[m.index]? = _
    simp [hi]
  show (match (start S m pub f g).deals[m.index]? with | none => _ | some own => _) = _
  rw [hd]
  show (match processDeal S (with_ m f g) (start S m pub f g) ⟨m.index, m.encrypt m.index (dealFor S m pub f g m.index)⟩ with
    | (k, .ok (some ⟨_, some r⟩)) => _ | (k, _) => _) = _
  rw [e]
  rfl

theorem deals_alike {pub : Pt} (hc : coms S m f g = coms S m f' g') :
    Alike { start S m pub f g with
          vers := [(m.index, some (ownAgg m (dealFor S m pub f g m.index)))]
          dealer := (addResponse m.participants.length (start S m pub f g).dealer m.index true).1 }
      { start S m pub f' g' with
          vers := [(m.index, some (ownAgg m (dealFor S m pub f' g' m.index)))]
          dealer := (addResponse m.participants.length (start S m pub f' g').dealer m.index true).1 } := by
  refine ⟨?_, ?_⟩
  · show [(m.index, some (strip (ownAgg m (dealFor S m pub f g m.index))))] = [(m.index, some (strip (ownAgg m (dealFor S m pub f' g' m.index))))]
    have e : ∀ d, strip (ownAgg m d) =
        (addResponse m.participants.length (addResponse m.participants.length ⟨d.sessionID, d.T, none, [], false⟩ m.index true).1 m.index true).1 := by
      intro d
      have h1 : ∀ a, (addResponse m.participants.length (strip a) m.index true).1 = strip (addResponse m.participants.length a m.index true).1 :=
        fun a => congrArg Prod.fst (addResponse_strip m.participants.length a m.index true)
      have h2 : strip ⟨d.sessionID, d.T, some d, [], false⟩ = ⟨d.sessionID, d.T, none, [], false⟩ := rfl
      rw [ownAgg, ← h1, ← h1, h2]
    rw [e, e]
    show [(m.index, some (addResponse m.participants.length (addResponse m.participants.length ⟨S.sid pub m.participants (coms S m f g) m.T, m.T, none, [], false⟩
      m.index true).1 m.index true).1)] = _
    rw [hc]
    rfl
  · show (addResponse m.participants.length ⟨S.sid pub m.participants (coms S m f g) m.T, m.T, none, [], false⟩ m.index true).1 = _
    rw [hc]
    rfl

/-- The generator after its deals. -/
def dealt (S : Suite) (m : Member) (pub : Pt) (f g : List Nat) : Gen :=
  { start S m pub f g with
    vers := [(m.index, some (ownAgg m (dealFor S m pub f g m.index)))]
    dealer := (addResponse m.participants.length (start S m pub f g).dealer m.index true).1 }

theorem view_start (hH : IsElt (S.deriveH m.participants)) (hl : f.length = g.length) (h2 : 2 ≤ m.T) (hT : m.T ≤ m.participants.length)
    (hi : m.index < m.participants.length) {pub pk : Pt} (hp : mul m.long base = .ok pub) (hpk : m.participants[m.index]? = some pk)
    (hown : S.decrypt m.long pk m.participants (m.encrypt m.index (dealFor S m pub f g m.index)) = some (dealFor S m pub f g m.index))
    (B : List Nat) (as : List Ask) :
    view S (with_ m f g) B as = .ok ⟨(otherDeals (with_ m f g) (start S m pub f g).deals).filter (fun p => p.1 ∈ B.map Int.ofNat),
      (told S (with_ m f g) (dealt S m pub f g) as).2, Rabin.qual (with_ m f g) (told S (with_ m f g) (dealt S m pub f g) as).1,
      dealCertified m.participants.length (told S (with_ m f g) (dealt S m pub f g) as).1.dealer⟩ := by
  rw [view, newGen_start hH hl hp, Outcome.bind_ok, deals_start hH hl h2 hT hi hpk hown]
  rfl

theorem otherDeals_alike {pub : Pt} (hc : coms S m f g = coms S m f' g') {B : List Nat}
    (he : ∀ b ∈ B, peval f (b + 1) % secp256k1N = peval f' (b + 1) % secp256k1N ∧ peval g (b + 1) % secp256k1N = peval g' (b + 1) % secp256k1N) :
    (otherDeals (with_ m f g) (start S m pub f g).deals).filter (fun p => p.1 ∈ B.map Int.ofNat) =
      (otherDeals (with_ m f' g') (start S m pub f' g').deals).filter (fun p => p.1 ∈ B.map Int.ofNat) := by
  have e : ∀ f g : List Nat, otherDeals (with_ m f g) (start S m pub f g).deals =
      ((List.range m.participants.length).filter (· ≠ m.index)).map fun (b : Nat) => ((b : Int), (⟨m.index, m.encrypt b (dealFor S m pub f g b)⟩ : Deal)) := by
    intro f g
    rw [otherDeals]
    show List.filterMap _ ((List.range m.participants.length).filter (· ≠ m.index)) = _
    rw [← List.filterMap_eq_map]
    refine List.filterMap_congr fun b hb => ?_
    have hb : b < m.participants.length := List.mem_range.1 (List.mem_filter.1 hb).1
    show (((List.range m.participants.length).map (fun b => dealFor S m pub f g b))[b]?).map _ = _
    simp only [List.getElem?_map, List.getElem?_range hb, Option.map_some, Function.comp]
    rfl
  rw [e, e, List.filter_map, List.filter_map]
  refine List.map_congr_left fun b hb => ?_
  have hb : (b : Int) ∈ B.map Int.ofNat := by simpa using (List.mem_filter.1 hb).2
  obtain ⟨x, hx, hxb⟩ := List.mem_map.1 hb
  obtain rfl : x = b := Int.ofNat.inj hxb
  obtain ⟨h1, h2⟩ := he x hx
  rw [dealFor, dealFor, h1, h2, hc]

/-! What fixes the secret -/

theorem newGen_parts {k : Gen} (h : newGen S (with_ m f g) = .ok k) :
    (∀ b d, k.deals[b]? = some d → b < m.participants.length ∧ d.secShare = ⟨b, peval f (b + 1) % secp256k1N⟩) ∧ k.secret = f.map (timesAdd base) := by
  rw [newGen] at h
  obtain ⟨F, e1, h⟩ := (Outcome.bind_eq_ok _ _ _).1 h
  obtain ⟨G, e2, h⟩ := (Outcome.bind_eq_ok _ _ _).1 h
  obtain ⟨C, e3, h⟩ := (Outcome.bind_eq_ok _ _ _).1 h
  obtain ⟨pub, e4, h⟩ := (Outcome.bind_eq_ok _ _ _).1 h
  cases h
  have e5 := commit_eq isElt_base f
  have e6 : F = f.map (timesAdd base) := by
    have : commit base (f.map Int.ofNat) = .ok F := e1
    rw [e5] at this
    cases this
    rfl
  refine ⟨fun b d hd => ?_, e6⟩
  have hd : (((List.range m.participants.length).map fun (i : Nat) =>
    (⟨S.sid pub m.participants C m.T, ⟨i, evalPoly (f.map Int.ofNat) i⟩, ⟨i, evalPoly (g.map Int.ofNat) i⟩, m.T, C⟩ : VssDeal))[b]?) = some d := hd
  rw [List.getElem?_map, Option.map_eq_some_iff] at hd
  obtain ⟨i, hi, rfl⟩ := hd
  obtain ⟨hl, rfl⟩ := List.getElem?_eq_some_iff.1 hi
  rw [List.length_range] at hl
  rw [List.getElem_range]
  refine ⟨hl, ?_⟩
  rw [evalPoly_eq]

theorem head_coeff (xs : List Nat) : ((xs.headD 0 : Nat) : Fn) = (polyOf (xs.map fun k : Nat => (k : Fn))).coeff 0 := by
  rw [coeff_polyOf]
  cases xs <;> simp

theorem fixed_head {k k' : Gen} (hf : f.length = m.T) (hf' : f'.length = m.T) (few : m.participants.length < secp256k1N)
    (hk : newGen S (with_ m f g) = .ok k) (hk' : newGen S (with_ m f' g') = .ok k') {B : List Nat} (hn : B.Nodup) (hB : m.T ≤ B.length)
    (hs : ∀ b ∈ B, ∃ d d', k.deals[b]? = some d ∧ k'.deals[b]? = some d' ∧ d.secShare = d'.secShare) :
    f.headD 0 % secp256k1N = f'.headD 0 % secp256k1N := by
  rcases Nat.eq_zero_or_pos m.T with h0 | h0
  · rw [List.length_eq_zero_iff.1 (hf.trans h0), List.length_eq_zero_iff.1 (hf'.trans h0)]
  refine (ZMod.natCast_eq_natCast_iff' _ _ _).1 ?_
  rw [head_coeff, head_coeff]
  congr 1
  have hlt : ∀ b ∈ B, b < m.participants.length := by
    intro b hb
    obtain ⟨d, d', h1, _⟩ := hs b hb
    exact ((newGen_parts hk).1 b d h1).1
  have hinj : Set.InjOn (fun b : Nat => (b : Fn) + 1) (B.toFinset : Set Nat) := by
    intro x hx y hy e
    have hx := hlt x (List.mem_toFinset.1 hx)
    have hy := hlt y (List.mem_toFinset.1 hy)
    have e2 : (x : Fn) = y := add_right_cancel e
    have := (ZMod.natCast_eq_natCast_iff' x y secp256k1N).1 e2
    rwa [Nat.mod_eq_of_lt (by omega), Nat.mod_eq_of_lt (by omega)] at this
  have hcard : (B.toFinset.image fun b : Nat => (b : Fn) + 1).card = B.length := by
    rw [Finset.card_image_of_injOn hinj, List.toFinset_card_of_nodup hn]
  refine eq_of_degrees_lt_of_eval_finset_eq (B.toFinset.image fun b : Nat => (b : Fn) + 1) ?_ ?_ ?_
  · rw [hcard]
    exact polyOf_degree_lt _ _ (by simp [hf, hB]) (by omega)
  · rw [hcard]
    exact polyOf_degree_lt _ _ (by simp [hf', hB]) (by omega)
  · intro x hx
    obtain ⟨b, hb, rfl⟩ := Finset.mem_image.1 hx
    obtain ⟨d, d', h1, h2, h3⟩ := hs b (List.mem_toFinset.1 hb)
    rw [((newGen_parts hk).1 b d h1).2, ((newGen_parts hk').1 b d' h2).2] at h3
    have e := (ZMod.intCast_eq_intCast_iff' _ _ secp256k1N).2 (Share.mk.inj h3).2
    rw [cast_peval, cast_peval] at e
    push_cast at e
    exact e

theorem published_head {k k' : Gen} (hk : newGen S (with_ m f g) = .ok k) (hk' : newGen S (with_ m f' g') = .ok k')
    (hs : k.secret = k'.secret) : f.headD 0 % secp256k1N = f'.headD 0 % secp256k1N := by
  rw [(newGen_parts hk).2, (newGen_parts hk').2] at hs
  obtain _ | ⟨x, xs⟩ := f
  · cases f' with
    | nil => rfl
    | cons y ys => cases hs
  · obtain _ | ⟨y, ys⟩ := f'
    · cases hs
    · refine (ZMod.natCast_eq_natCast_iff' _ _ _).1 ?_
      have e := (List.cons.inj hs).1
      exact (log_base_nat x).unique_right (e ▸ log_base_nat y)

end Verif.Hiding
