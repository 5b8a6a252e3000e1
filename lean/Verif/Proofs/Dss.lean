import Verif.Proofs.Recover
import Verif.Proofs.Schnorr

/-! The threshold signature in exponents. -/
namespace Verif.Dss
open Verif.Point Polynomial

/-- The polynomial with the given coefficients, lowest first. -/
noncomputable def polyOf : List Fn → Fn[X]
  | [] => 0
  | c :: cs => C c + X * polyOf cs

theorem polyOf_degree (cs : List Fn) : (polyOf cs).degree < ((cs.length : ℕ) : WithBot ℕ) ∨ cs = [] := by
  induction cs with
  | nil => exact .inr rfl
  | cons c cs ih =>
    left
    rw [polyOf, List.length_cons]
    refine lt_of_le_of_lt (degree_add_le _ _) (max_lt ?_ ?_)
    · refine lt_of_le_of_lt degree_C_le ?_
      exact_mod_cast Nat.succ_pos _
    · rcases ih with ih | rfl
      · rw [degree_mul, degree_X, Nat.cast_succ, add_comm]
        exact WithBot.add_lt_add_right (by simp) ih
      · simp [polyOf]

theorem polyOf_degree_lt (cs : List Fn) (t : ℕ) (h : cs.length ≤ t) (h0 : 0 < t) :
    (polyOf cs).degree < ((t : ℕ) : WithBot ℕ) := by
  rcases polyOf_degree cs with h1 | rfl
  · exact lt_of_lt_of_le h1 (by exact_mod_cast h)
  · rw [polyOf, degree_zero]; exact WithBot.bot_lt_coe _

theorem evalCommits_spec {cs : List Pt} {xs : List Fn} (h : List.Forall₂ Log cs xs) (i : Int) :
    ∃ r, evalCommits cs i = .ok r ∧ Log r ((polyOf xs).eval (xOf i)) := by
  induction h with
  | nil => exact ⟨null, rfl, by rw [polyOf, eval_zero]; exact log_null⟩
  | @cons c x cs xs hc _ ih =>
    obtain ⟨r, h1, h2⟩ := ih
    obtain ⟨r2, h3, h4⟩ := h2.mul (Scalar.setInt64 (1 + i))
    refine ⟨add r2 c, ?_, ?_⟩
    · have e : evalCommits (c :: cs) i = (do
        let v ← evalCommits cs i
        let v ← mul (Scalar.setInt64 (1 + i)) v
        return add v c) := rfl
      rw [e, h1, Outcome.bind_ok, h3, Outcome.bind_ok]; rfl
    · have e : ((Scalar.setInt64 (1 + i) : Int) : Fn) = xOf i := by
        rw [add_comm]; exact cast_abscissa i
      rw [e] at h4
      have := h4.add hc
      rw [polyOf, eval_add, eval_C, eval_mul, eval_X, add_comm]
      exact this

variable (H : List UInt8 → List UInt8) (SH : Share → List UInt8)

/-- The commitments of a state are to coefficients `l :: ls` and `r :: rs`, and the key is not the identity. -/
structure LogSetup (d : DSS) (l r : Fn) (ls rs : List Fn) : Prop where
  long : List.Forall₂ Log d.long.commits (l :: ls)
  random : List.Forall₂ Log d.random.commits (r :: rs)
  key : l ≠ 0

/-- The challenge of a session. -/
noncomputable def sessionChal (d : DSS) (l r : Fn) : Int := Schnorr.chalOf H (ofLog l) (Schnorr.addrOf H (ofLog r)) d.msg

variable {H} {SH} {d : DSS} {l r : Fn} {ls rs : List Fn}

theorem LogSetup.hashSig (hd : LogSetup d l r ls rs) : hashSig H d = .ok (sessionChal H d l r) := by
  obtain ⟨a, as, h1, h2, h3⟩ := List.forall₂_cons_right_iff.1 hd.long
  obtain ⟨b, bs, h4, h5, h6⟩ := List.forall₂_cons_right_iff.1 hd.random
  rw [Dss.hashSig, h6, h3]
  simp only [List.head?_cons, Outcome.ofOption_some, Outcome.orPanic_ok, Outcome.bind_ok]
  rw [Schnorr.ethereumAddress_eq, Outcome.bind_ok, Schnorr.challengeHash_eq H (h1.onCurve_iff.2 hd.key)]
  rw [h1.unique_left (log_ofLog l), h4.unique_left (log_ofLog r)]
  rfl

/-- The polynomial of the partial signatures. -/
noncomputable def sigPoly (e : Fn) (l r : Fn) (ls rs : List Fn) : Fn[X] :=
  polyOf (r :: rs) - C e * polyOf (l :: ls)

theorem sigPoly_eval (e l r : Fn) (ls rs : List Fn) (x : Fn) : (sigPoly e l r ls rs).eval x =
    (polyOf (r :: rs)).eval x - e * (polyOf (l :: ls)).eval x := by
  rw [sigPoly, eval_sub, eval_mul, eval_C]

theorem sigPoly_zero (e l r : Fn) (ls rs : List Fn) : (sigPoly e l r ls rs).eval 0 = r - e * l := by
  rw [sigPoly_eval, polyOf, polyOf, eval_add, eval_add, eval_C, eval_C, eval_mul, eval_mul, eval_X]; ring

theorem sigPoly_degree (e l r : Fn) (ls rs : List Fn) (t : ℕ) (h1 : (l :: ls).length ≤ t) (h2 : (r :: rs).length ≤ t) :
    (sigPoly e l r ls rs).degree < ((t : ℕ) : WithBot ℕ) := by
  have h0 : 0 < t := lt_of_lt_of_le (by simp) h1
  rw [sigPoly]
  refine lt_of_le_of_lt (degree_sub_le _ _) (max_lt (polyOf_degree_lt _ _ h2 h0) ?_)
  refine lt_of_le_of_lt ?_ (polyOf_degree_lt _ _ h1 h0)
  rw [degree_mul]
  calc (C e).degree + (polyOf (l :: ls)).degree ≤ 0 + (polyOf (l :: ls)).degree := by
        gcongr; exact degree_C_le
    _ = _ := zero_add _

theorem findPub_ok (list : List Pt) (i : Int) (p : Pt) :
    findPub list i = .ok p ↔ 0 ≤ i ∧ list[i.toNat]? = some p := by
  rw [findPub]
  by_cases h1 : (list.length : Int) ≤ i
  · rw [if_pos h1]
    constructor
    · intro h; cases h
    · rintro ⟨_, h⟩
      rw [List.getElem?_eq_none (by omega)] at h; cases h
  rw [if_neg h1]
  by_cases h2 : i < 0
  · rw [if_pos h2]
    constructor
    · intro h; cases h
    · rintro ⟨h, _⟩; omega
  rw [if_neg h2]
  have h3 : i.toNat < list.length := by omega
  rw [List.getElem?_eq_getElem h3, Outcome.ofOption_some, Outcome.orPanic_ok, Outcome.ok.injEq, Option.some.injEq]
  exact ⟨fun h => ⟨by omega, h⟩, fun h => h.2⟩

theorem check_ok (hd : LogSetup d l r ls rs) (ps : PartialSig) :
    checkPartialSig H SH d ps = .ok () ↔
      (∃ pub, (0 ≤ ps.part.I ∧ d.participants[ps.part.I.toNat]? = some pub) ∧ ps.sessionID = d.sessionID ∧
        Schnorr.verifyPtr H (.pt pub) (psHash H SH ps.part ps.sessionID) ps.signature = .ok ()) ∧
      ps.part.I ∈ d.H2 ∧ ps.part.I ∉ d.partialsIdx ∧
      (ps.part.V : Fn) = (sigPoly (sessionChal H d l r) l r ls rs).eval (xOf ps.part.I) := by
  obtain ⟨r1, h1, h2⟩ := evalCommits_spec hd.random ps.part.I
  obtain ⟨r2, h3, h4⟩ := evalCommits_spec hd.long ps.part.I
  obtain ⟨r3, h5, h6⟩ := h4.mul (sessionChal H d l r)
  obtain ⟨r4, h7, h8⟩ := log_mulBase ps.part.V
  have h9 := h2.sub h6
  rw [checkPartialSig, Outcome.bind_eq_ok]
  simp only [Outcome.bind_eq_ok, Outcome.require_eq_ok, hd.hashSig, h1, h3, h5, h7, findPub_ok, beq_iff_eq,
    Outcome.ok.injEq, exists_eq_left', h8.equal_iff h9, sigPoly_eval]
  constructor
  · rintro ⟨pub, h10, _, h11, _, h12, _, h13, _, h14, h15⟩
    refine ⟨⟨pub, h10, h11, h12⟩, ?_, ?_, h15⟩
    · rw [List.any_eq_true] at h13
      obtain ⟨x, hx, hxe⟩ := h13
      rw [beq_iff_eq] at hxe
      exact hxe ▸ hx
    · intro hc
      rw [List.contains_iff_mem.2 hc] at h14; cases h14
  · rintro ⟨⟨pub, h10, h11, h12⟩, h13, h14, h15⟩
    refine ⟨pub, h10, (), h11, (), h12, (), ?_, (), ?_, h15⟩
    · rw [List.any_eq_true]; exact ⟨_, h13, by rw [beq_iff_eq]⟩
    · cases hc : d.partialsIdx.contains ps.part.I
      · rfl
      · exact absurd (List.contains_iff_mem.1 hc) h14

theorem ownShare_eq (hd : LogSetup d l r ls rs) : ownShare H d =
    .ok ⟨d.index, Scalar.sub d.random.share.V (Scalar.mul (sessionChal H d l r) d.long.share.V)⟩ := by
  rw [ownShare, hd.hashSig]; rfl

end Verif.Dss
