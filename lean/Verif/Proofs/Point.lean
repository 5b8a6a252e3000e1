import Verif.Model.Point
import Verif.Proofs.Field
import Verif.Proofs.Scalar
import Verif.Spec.Curve

/-! Helper lemmas: the point model refines Mathlib's group of the curve. -/
namespace Verif.Point
open Verif.Field

theorem fieldPrime_eq : fieldPrime = q := by decide +kernel

theorem onCurve_iff (x y : Int) : OnCurve x y ↔ (y : Fq) ^ 2 = (x : Fq) ^ 3 + 7 := by
  rw [OnCurve, fieldPrime_eq, q_eq]
  have h : ((y : Fq) ^ 2 = (x : Fq) ^ 3 + 7) ↔ (((y * y - (x * x * x + 7) : Int)) : Fq) = 0 := by
    push_cast
    rw [sub_eq_zero]
    constructor <;> intro h <;> linear_combination h
  rw [h, ZMod.intCast_zmod_eq_zero_iff_dvd]
  exact ⟨Int.dvd_of_emod_eq_zero, Int.emod_eq_zero_of_dvd⟩

/-- `a` has reduced coordinates which are those of the group element `P`. -/
def Denotes (a : Pt) (P : SecpPoint) : Prop :=
  ((0 ≤ a.X ∧ a.X < q) ∧ (0 ≤ a.Y ∧ a.Y < q)) ∧ coords P = ((a.X : Fq), (a.Y : Fq))

theorem groupElt_iff (a : Pt) : GroupElt a.X a.Y ↔ ∃ P, Denotes a P := by
  rw [GroupElt, Reduced, fieldPrime_eq]
  constructor
  · rintro ⟨hr, h | h⟩
    · exact ⟨0, hr, by rw [h.1, h.2]; simp⟩
    · exact ⟨mkPoint a.X a.Y ((onCurve_iff _ _).1 h), hr, rfl⟩
  · rintro ⟨P, hr, h⟩
    refine ⟨hr, ?_⟩
    by_cases hP : P = 0
    · left
      rw [hP, coords_zero, Prod.mk.injEq] at h
      have hx : ((a.X : Int) : Fq) = ((0 : Int) : Fq) := by rw [← h.1]; simp
      have hy : ((a.Y : Int) : Fq) = ((0 : Int) : Fq) := by rw [← h.2]; simp
      exact ⟨(cast_inj_of_range hr.1 ⟨le_refl 0, q_pos⟩).1 hx, (cast_inj_of_range hr.2 ⟨le_refl 0, q_pos⟩).1 hy⟩
    · right
      have := coords_spec P hP
      rw [h] at this
      exact (onCurve_iff _ _).2 this

theorem Denotes.unique_left {a b : Pt} {P : SecpPoint} (ha : Denotes a P) (hb : Denotes b P) : a = b := by
  have := ha.2.symm.trans hb.2
  rw [Prod.mk.injEq] at this
  cases a; cases b
  rw [Pt.mk.injEq]
  exact ⟨(cast_inj_of_range ha.1.1 hb.1.1).1 this.1, (cast_inj_of_range ha.1.2 hb.1.2).1 this.2⟩

theorem Denotes.unique_right {a : Pt} {P Q : SecpPoint} (hP : Denotes a P) (hQ : Denotes a Q) : P = Q :=
  coords_injective (hP.2.trans hQ.2.symm)

theorem Denotes.eq_iff {a b : Pt} {P Q : SecpPoint} (ha : Denotes a P) (hb : Denotes b Q) :
    a = b ↔ P = Q := by
  constructor
  · rintro rfl; exact ha.unique_right hb
  · rintro rfl; exact ha.unique_left hb

/-- The model value of a group element. -/
def ofPoint (P : SecpPoint) : Pt := ⟨((coords P).1.val : Nat), ((coords P).2.val : Nat)⟩

theorem denotes_ofPoint (P : SecpPoint) : Denotes (ofPoint P) P := by
  have h1 := ZMod.val_lt (coords P).1
  have h2 := ZMod.val_lt (coords P).2
  refine ⟨⟨⟨Int.natCast_nonneg _, ?_⟩, ⟨Int.natCast_nonneg _, ?_⟩⟩, ?_⟩
  · rw [q_eq]; exact Int.ofNat_lt.2 h1
  · rw [q_eq]; exact Int.ofNat_lt.2 h2
  · simp [ofPoint]

theorem denotes_null : Denotes null 0 := by
  have : null = ⟨0, 0⟩ := by decide +kernel
  rw [this]
  exact ⟨⟨⟨le_refl _, q_pos⟩, ⟨le_refl _, q_pos⟩⟩, by simp⟩

theorem denotes_base : Denotes base secpG := by
  have : base = ⟨((secpGx : Nat) : Int), ((secpGy : Nat) : Int)⟩ := by decide +kernel
  rw [this]
  refine ⟨?_, by simp [secpG]⟩
  dsimp only
  decide +kernel

theorem denotes_setInt {r : Int × Int} {P : SecpPoint} (h : coords P = ((r.1 : Fq), (r.2 : Fq))) :
    Denotes ⟨setInt r.1, setInt r.2⟩ P := by
  refine ⟨⟨modQ_range _, modQ_range _⟩, ?_⟩
  simp only [setInt, cast_modQ]
  exact h

theorem cast_mod_p (x : Int) : ((x % Btcec.p : Int) : Fq) = (x : Fq) := ZMod.intCast_mod x _

theorem cast_inv (x : Int) : ((Btcec.inv x : Int) : Fq) = (x : Fq)⁻¹ := by
  rw [Btcec.inv, cast_exp _ _ (by decide +kernel)]
  by_cases h : (x : Fq) = 0
  · rw [h, inv_zero, zero_pow (by decide +kernel)]
  · have h2 : (x : Fq) ^ (secp256k1P - 2) * (x : Fq) = 1 := by
      rw [← pow_succ]
      have : secp256k1P - 2 + 1 = secp256k1P - 1 := by decide +kernel
      rw [this]; exact ZMod.pow_card_sub_one_eq_one h
    exact eq_inv_of_mul_eq_one_left h2

theorem mod_p_eq_iff (x y : Int) : x % Btcec.p = y % Btcec.p ↔ (x : Fq) = (y : Fq) := by
  rw [ZMod.intCast_eq_intCast_iff']; rfl

/-- btcec addition on integer coordinates of group elements. The integers need not be reduced, except that the
test for the identity is on the integers. -/
theorem btcec_add {a b : Int × Int} {P Q : SecpPoint}
    (ha : coords P = ((a.1 : Fq), (a.2 : Fq))) (hb : coords Q = ((b.1 : Fq), (b.2 : Fq)))
    (ha0 : P = 0 → a = (0, 0)) (hb0 : Q = 0 → b = (0, 0)) :
    coords (P + Q) = (((Btcec.add a b).1 : Fq), ((Btcec.add a b).2 : Fq)) := by
  by_cases hP : P = 0
  · rw [ha0 hP, hP, zero_add, hb]; simp [Btcec.add]
  by_cases hQ : Q = 0
  · rw [hb0 hQ, hQ, add_zero, ha]
    have : a ≠ (0, 0) := by
      rintro rfl
      apply hP; rw [← coords_eq_zero_iff, ha]; simp
    rw [Btcec.add, if_neg this, if_pos rfl]
  have hPc : coords P ≠ (0, 0) := fun e => hP ((coords_eq_zero_iff P).1 e)
  have hQc : coords Q ≠ (0, 0) := fun e => hQ ((coords_eq_zero_iff Q).1 e)
  have na : a ≠ (0, 0) := by
    rintro rfl
    apply hPc; rw [ha]; simp
  have nb : b ≠ (0, 0) := by
    rintro rfl
    apply hQc; rw [hb]; simp
  have sP := coords_spec P hP
  have sQ := coords_spec Q hQ
  rw [coords_add, affAdd, if_neg hPc, if_neg hQc, Btcec.add, if_neg na, if_neg nb]
  rw [ha] at sP ⊢
  rw [hb] at sQ ⊢
  dsimp only at sP sQ ⊢
  by_cases hx : (a.1 : Fq) = (b.1 : Fq)
  · rw [if_pos hx, if_pos ((mod_p_eq_iff _ _).2 hx)]
    have hsq : ((a.2 : Fq) - b.2) * ((a.2 : Fq) + b.2) = 0 := by
      have h2 := sQ
      rw [← hx] at h2
      linear_combination sP - h2
    by_cases hy : (a.2 : Fq) + (b.2 : Fq) = 0
    · rw [if_pos hy, if_neg]
      · simp
      · rintro ⟨h1, h2⟩
        rw [mod_p_eq_iff] at h1
        apply h2
        have h3 : (2 : Fq) * (a.2 : Fq) = 0 := by rw [← h1] at hy; linear_combination hy
        have h4 : (a.2 : Fq) = ((0 : Int) : Fq) := by
          rw [Int.cast_zero]; exact (mul_eq_zero.1 h3).resolve_left two_ne_zero_Fq
        rw [(mod_p_eq_iff _ _).2 h4]; rfl
    · have hyy : (a.2 : Fq) = (b.2 : Fq) := by
        rcases mul_eq_zero.1 hsq with h | h
        · exact sub_eq_zero.1 h
        · exact absurd h hy
      rw [if_neg hy, if_pos]
      · simp only [cast_mod_p, Int.cast_sub, Int.cast_mul, Int.cast_pow, cast_inv, Int.cast_ofNat,
          div_eq_mul_inv]
      · refine ⟨(mod_p_eq_iff _ _).2 hyy, ?_⟩
        intro h0
        have h0' : (a.2 : Fq) = ((0 : Int) : Fq) := (mod_p_eq_iff _ _).1 (by rw [h0]; rfl)
        rw [Int.cast_zero] at h0'
        apply hy
        rw [← hyy, h0', add_zero]
  · rw [if_neg hx, if_neg (fun e => hx ((mod_p_eq_iff _ _).1 e))]
    simp only [cast_mod_p, Int.cast_sub, Int.cast_mul, Int.cast_pow, cast_inv, div_eq_mul_inv]

/-- Integer coordinates (not necessarily reduced) of a group element, with the identity as exactly (0,0). -/
def IntCoords (a : Int × Int) (P : SecpPoint) : Prop :=
  coords P = ((a.1 : Fq), (a.2 : Fq)) ∧ (P = 0 → a = (0, 0))

theorem Denotes.intCoords {a : Pt} {P : SecpPoint} (h : Denotes a P) : IntCoords (a.X, a.Y) P := by
  refine ⟨h.2, ?_⟩
  rintro rfl
  have := h.unique_left denotes_null
  rw [this]; decide +kernel

theorem intCoords_zero : IntCoords (0, 0) 0 := ⟨by simp, fun _ => rfl⟩

theorem emod_p_range (x : Int) : 0 ≤ x % Btcec.p ∧ x % Btcec.p < Btcec.p :=
  ⟨Int.emod_nonneg _ (by decide +kernel), Int.emod_lt_of_pos _ (by decide +kernel)⟩

/-- The sum is (0,0) exactly when it denotes the identity. -/
theorem intCoords_add {a b : Int × Int} {P Q : SecpPoint} (ha : IntCoords a P) (hb : IntCoords b Q) :
    IntCoords (Btcec.add a b) (P + Q) := by
  refine ⟨btcec_add ha.1 hb.1 ha.2 hb.2, ?_⟩
  intro h0
  have hc := btcec_add ha.1 hb.1 ha.2 hb.2
  rw [h0, coords_zero, Prod.mk.injEq] at hc
  by_cases na : a = (0, 0)
  · have hP : P = 0 := by rw [← coords_eq_zero_iff, ha.1, na]; simp
    rw [hP, zero_add] at h0
    rw [Btcec.add, if_pos na]; exact hb.2 h0
  by_cases nb : b = (0, 0)
  · have hQ : Q = 0 := by rw [← coords_eq_zero_iff, hb.1, nb]; simp
    rw [hQ, add_zero] at h0
    rw [Btcec.add, if_neg na, if_pos nb]; exact ha.2 h0
  have hr : (0 ≤ (Btcec.add a b).1 ∧ (Btcec.add a b).1 < q) ∧ (0 ≤ (Btcec.add a b).2 ∧ (Btcec.add a b).2 < q) := by
    rw [Btcec.add, if_neg na, if_neg nb]
    split
    · split
      · exact ⟨emod_p_range _, emod_p_range _⟩
      · exact ⟨⟨le_refl _, q_pos⟩, ⟨le_refl _, q_pos⟩⟩
    · exact ⟨emod_p_range _, emod_p_range _⟩
  have h1 : (((Btcec.add a b).1 : Int) : Fq) = ((0 : Int) : Fq) := by rw [← hc.1]; simp
  have h2 : (((Btcec.add a b).2 : Int) : Fq) = ((0 : Int) : Fq) := by rw [← hc.2]; simp
  exact Prod.ext ((cast_inj_of_range hr.1 ⟨le_refl 0, q_pos⟩).1 h1)
    ((cast_inj_of_range hr.2 ⟨le_refl 0, q_pos⟩).1 h2)

theorem denotes_add {a b : Pt} {P Q : SecpPoint} (ha : Denotes a P) (hb : Denotes b Q) :
    Denotes (add a b) (P + Q) :=
  denotes_setInt (intCoords_add ha.intCoords hb.intCoords).1

theorem denotes_neg {a : Pt} {P : SecpPoint} (ha : Denotes a P) : Denotes (neg a) (-P) := by
  refine ⟨⟨?_, modQ_range _⟩, ?_⟩
  · exact modQ_range _
  · rw [coords_neg, ha.2]
    simp [neg, Field.neg, Field.clone, Field.set, cast_modQ]

theorem denotes_sub {a b : Pt} {P Q : SecpPoint} (ha : Denotes a P) (hb : Denotes b Q) :
    Denotes (sub a b) (P - Q) := by
  rw [sub_eq_add_neg]
  have hn := denotes_neg hb
  have h2 : neg b = ⟨b.X, Field.neg b.Y⟩ := by
    rw [neg, Field.clone, Field.set, modQ_idem, modQ_of_range hb.1.1.1 hb.1.1.2]
  rw [h2] at hn
  exact denotes_setInt (intCoords_add ha.intCoords hn.intCoords).1

theorem multBits_spec {base : Int × Int} {B : SecpPoint} (hB : IntCoords base B) (b : Nat) :
    ∀ (i : Nat) (acc : Int × Int) (A : SecpPoint), IntCoords acc A →
      IntCoords (Btcec.multBits base b i acc) ((2 ^ i) • A + (b % 2 ^ i) • B)
  | 0, acc, A, h => by
    have : (2 ^ 0) • A + (b % 2 ^ 0) • B = A := by simp [Nat.mod_one]
    rw [this]; exact h
  | i + 1, acc, A, h => by
    have h2 := intCoords_add h h
    have e : b % 2 ^ (i + 1) = (b >>> i) % 2 * 2 ^ i + b % 2 ^ i := by
      rw [Nat.shiftRight_eq_div_pow, Nat.mod_pow_succ]; ring
    rw [Btcec.multBits]
    rcases Nat.mod_two_eq_zero_or_one (b >>> i) with h0 | h1
    · rw [if_neg (by omega)]
      have := multBits_spec hB b i _ _ h2
      convert this using 1
      rw [e, h0, Nat.zero_mul, Nat.zero_add, pow_succ, mul_smul, two_smul]
    · rw [if_pos h1]
      have := multBits_spec hB b i _ _ (intCoords_add h2 hB)
      convert this using 1
      rw [e, h1, Nat.one_mul, pow_succ, mul_smul, two_smul, add_smul, nsmul_add (A + A) B (2 ^ i), add_assoc]

theorem scalarMult_spec {base : Int × Int} {B : SecpPoint} (hB : IntCoords base B) (k : List UInt8) :
    IntCoords (Btcec.scalarMult base k) (beNat k • B) := by
  have gen : ∀ (k : List UInt8) (acc : Int × Int) (A : SecpPoint), IntCoords acc A →
      IntCoords (k.foldl (fun acc b => Btcec.multBits base b.toNat 8 acc) acc)
        ((256 ^ k.length) • A + beNat k • B) := by
    intro k
    induction k with
    | nil => intro acc A h; simpa using h
    | cons b k ih =>
      intro acc A h
      rw [List.foldl_cons]
      have h1 := multBits_spec hB b.toNat 8 acc A h
      have h2 := ih _ _ h1
      convert h2 using 1
      have hb := b.toNat_lt
      have : b.toNat % 2 ^ 8 = b.toNat := Nat.mod_eq_of_lt (by omega)
      rw [this, beNat_cons, List.length_cons, nsmul_add, ← mul_smul, ← mul_smul, add_smul, pow_succ, add_assoc,
        mul_comm b.toNat, show (2 : Nat) ^ 8 = 256 from rfl]
  have := gen k (0, 0) 0 intCoords_zero
  simpa [Btcec.scalarMult] using this

theorem toNat_modG (s : Int) : ((Scalar.modG s).toNat : Int) = Scalar.modG s :=
  Int.toNat_of_nonneg (Scalar.modG_range s).1

theorem mul_spec {a : Pt} {P : SecpPoint} (ha : Denotes a P) (s : Int) :
    ∃ r, mul s a = .ok r ∧ Denotes r ((Scalar.modG s).toNat • P) := by
  obtain ⟨bs, h1, _, h3⟩ := Scalar.marshalBinary_spec s
  rw [mul, h1]
  refine ⟨_, rfl, ?_⟩
  have : beNat bs = (Scalar.modG s).toNat := by have := toNat_modG s; omega
  rw [← this]
  exact denotes_setInt (scalarMult_spec ha.intCoords bs).1

theorem mulBase_eq (s : Int) : mulBase s = mul s base := by
  have : (base.X, base.Y) = (Btcec.gx, Btcec.gy) := by decide +kernel
  rw [mulBase, mul, this]; rfl

theorem mulBase_spec (s : Int) : ∃ r, mulBase s = .ok r ∧ Denotes r ((Scalar.modG s).toNat • secpG) := by
  rw [mulBase_eq]; exact mul_spec denotes_base s

theorem equal_iff (a b : Pt) : equal a b = true ↔ (a.X : Fq) = b.X ∧ (a.Y : Fq) = b.Y := by
  rw [equal, Bool.and_eq_true, Field.equal_iff, Field.equal_iff]

theorem validPt_iff (P : Pt) : validPt P = true ↔ (P.Y : Fq) ^ 2 = (P.X : Fq) ^ 3 + 7 := by
  rw [validPt]
  cases hs : maybeSqrt (rightHandSide P.X) with
  | none =>
    constructor
    · intro h; cases h
    · intro h
      have : (maybeSqrt (rightHandSide P.X)).isSome = true := by
        rw [maybeSqrt_isSome_iff, cast_rightHandSide]; exact ⟨P.Y, h⟩
      rw [hs] at this; cases this
  | some y =>
    have hy := (maybeSqrt_some hs).1
    rw [cast_rightHandSide] at hy
    rw [Option.any_some, Bool.or_eq_true, Field.equal_iff, Field.equal_iff, Field.neg, cast_modQ, Int.cast_neg,
      ← hy]
    exact (sq_eq_sq_iff_eq_or_eq_neg).symm

theorem validPublicKey_pt (P : Pt) : validPublicKey (.pt P) = true ↔ (P.Y : Fq) ^ 2 = (P.X : Fq) ^ 3 + 7 :=
  validPt_iff P

theorem marshalBinary_ok_iff (P : Pt) (bs : List UInt8) : marshalBinary P = .ok bs ↔
    (P.Y : Fq) ^ 2 = (P.X : Fq) ^ 3 + 7 ∧ ∃ xb, Field.bytes P.X = .ok xb ∧
      bs = xb ++ [if isEven P.Y then 0 else 1] := by
  have hv := validPt_iff P
  rw [validPt] at hv
  rw [marshalBinary]
  cases hs : maybeSqrt (rightHandSide P.X) with
  | none =>
    rw [hs] at hv
    constructor
    · intro h; cases h
    · intro h; exact absurd (hv.2 h.1) (by simp)
  | some r =>
    rw [hs, Option.any_some] at hv
    rw [Outcome.ofOption_some, Outcome.bind_ok]
    by_cases hc : (Field.equal P.Y r || Field.equal P.Y (Field.neg r)) = true
    · have hc' : ¬ ((!Field.equal P.Y r && !Field.equal P.Y (Field.neg r)) = true) := by
        rw [← Bool.not_or, hc]; simp
      rw [if_neg hc']
      obtain ⟨xb, h1, _, _⟩ := Field.bytes_spec P.X
      rw [h1]
      constructor
      · intro h; cases h; exact ⟨hv.1 hc, xb, rfl, rfl⟩
      · rintro ⟨_, xb', h2, rfl⟩; cases h2; rfl
    · have hc' : ((!Field.equal P.Y r && !Field.equal P.Y (Field.neg r)) = true) := by
        rw [← Bool.not_or]; simpa using hc
      rw [if_pos hc']
      constructor
      · intro h; cases h
      · intro h; exact absurd (hv.2 h.1) hc

/-- Off the curve `MarshalBinary` returns an error (never panics). -/
theorem marshalBinary_err_iff (P : Pt) : marshalBinary P = .err ↔ ¬ ((P.Y : Fq) ^ 2 = (P.X : Fq) ^ 3 + 7) := by
  obtain ⟨xb, h1, _, _⟩ := Field.bytes_spec P.X
  constructor
  · intro h hc
    have := (marshalBinary_ok_iff P (xb ++ [if isEven P.Y then 0 else 1])).2 ⟨hc, xb, h1, rfl⟩
    rw [h] at this; cases this
  · intro hc
    cases hm : marshalBinary P with
    | err => rfl
    | ok bs => exact absurd ((marshalBinary_ok_iff P bs).1 hm).1 hc
    | panic =>
      exfalso
      rw [marshalBinary, h1] at hm
      cases hs : maybeSqrt (rightHandSide P.X) with
      | none => rw [hs] at hm; cases hm
      | some r =>
        rw [hs, Outcome.ofOption_some, Outcome.bind_ok] at hm
        by_cases hc : (!Field.equal P.Y r && !Field.equal P.Y (Field.neg r)) = true
        · rw [if_pos hc] at hm; cases hm
        · rw [if_neg hc] at hm; cases hm

/-- There is no point with y = 0. -/
theorem y_ne_zero {x y : Fq} (h : y ^ 2 = x ^ 3 + 7) : y ≠ 0 := by
  rintro rfl
  have h2 : mkPoint x 0 h + mkPoint x 0 h = 0 := by
    rw [← coords_eq_zero_iff, coords_add]
    have : (x, (0 : Fq)) ≠ (0, 0) := by
      intro e; simp only [Prod.mk.injEq, and_true] at e
      subst e; exact not_onCurve_zero h
    rw [coords_mkPoint, affAdd, if_neg this, if_neg this, if_pos rfl]
    simp
  have := no_two_torsion _ h2
  have h3 := (coords_eq_zero_iff _).2 this
  rw [coords_mkPoint, Prod.mk.injEq] at h3
  obtain ⟨rfl, _⟩ := h3
  exact not_onCurve_zero h

theorem isEven_neg {y : Int} (hr : 0 ≤ y ∧ y < q) (h0 : (y : Fq) ≠ 0) : isEven (Field.neg y) = !isEven y := by
  have hn := modQ_range (-y)
  have e1 := isEven_iff hr
  have e2 := isEven_iff hn
  rw [cast_modQ, Int.cast_neg] at e2
  have e3 := neg_val_parity _ h0
  have hneg : Field.neg y = modQ (-y) := rfl
  rw [hneg]
  cases ha : isEven y <;> cases hb : isEven (modQ (-y)) <;> simp only [Bool.not_true, Bool.not_false, Bool.false_eq_true, Bool.true_eq_false]
  · exfalso
    rw [ha] at e1; rw [hb] at e2; simp at e1 e2; omega
  · exfalso
    rw [ha] at e1; rw [hb] at e2; simp at e1 e2; omega

/-- Full description of successful decoding. -/
theorem unmarshalBinary_ok {buf : List UInt8} {P : Pt} (h : unmarshalBinary buf = .ok P) :
    ∃ xb b, buf = xb ++ [b] ∧ xb.length = 32 ∧ (b = 0 ∨ b = 1) ∧ P.X = Field.setBytes xb ∧
      (P.Y : Fq) ^ 2 = (P.X : Fq) ^ 3 + 7 ∧ (0 ≤ P.Y ∧ P.Y < q) ∧ (isEven P.Y = true ↔ b = 0) := by
  rw [unmarshalBinary] at h
  by_cases hl : buf.length = 33
  swap
  · rw [if_pos hl] at h; cases h
  rw [if_neg (fun e => e hl)] at h
  have hbuf : buf = buf.take 32 ++ [buf.getD 32 0] := by
    conv_lhs => rw [← List.take_append_drop 32 buf]
    congr 1
    have hd : List.drop (32 + 1) buf = [] := List.drop_eq_nil_of_le (by omega)
    rw [List.drop_eq_getElem_cons (by omega : 32 < buf.length), hd, List.getD_eq_getElem?_getD,
      List.getElem?_eq_getElem (by omega), Option.getD_some]
  set b := buf.getD 32 0 with hb
  by_cases hs : b = 0 ∨ b = 1
  swap
  · rw [if_pos hs] at h; cases h
  rw [if_neg (fun e => e hs)] at h
  dsimp only at h
  cases hq : maybeSqrt (rightHandSide (Field.setBytes (buf.take 32))) with
  | none => rw [hq] at h; cases h
  | some y =>
    rw [hq, Outcome.ofOption_some, Outcome.bind_ok] at h
    obtain ⟨hy, hyr⟩ := maybeSqrt_some hq
    rw [cast_rightHandSide] at hy
    have hset : Field.set y = y := modQ_of_range hyr.1 hyr.2
    rw [hset] at h
    refine ⟨_, b, hbuf, by simp [hl], hs, ?_⟩
    by_cases hc : (b = 0 ∧ !isEven y) ∨ (b = 1 ∧ isEven y)
    · rw [if_pos hc] at h
      cases h
      refine ⟨rfl, ?_, modQ_range _, ?_⟩
      · dsimp only; rw [Field.neg, cast_modQ, Int.cast_neg, neg_sq]; exact hy
      · dsimp only
        rw [isEven_neg hyr (y_ne_zero hy)]
        rcases hc with ⟨c1, c2⟩ | ⟨c1, c2⟩
        · simp [c1, c2]
        · simp [c1, c2]
    · rw [if_neg hc] at h
      cases h
      refine ⟨rfl, hy, hyr, ?_⟩
      dsimp only
      rcases hs with c1 | c1
      · simp only [c1, iff_true]
        by_contra hne
        exact hc (Or.inl ⟨c1, by simpa using hne⟩)
      · rw [c1]
        constructor
        · intro hne; exact absurd (Or.inr ⟨c1, hne⟩) hc
        · intro e; exact absurd e (by decide)

/-- Decoding succeeds on every well-formed encoding, and fails with an error on the rest. -/
theorem unmarshalBinary_complete (xb : List UInt8) (b : UInt8) (hl : xb.length = 32) (hb : b = 0 ∨ b = 1)
    (hx : ∃ y : Fq, y ^ 2 = ((beNat xb : Nat) : Fq) ^ 3 + 7) : ∃ P, unmarshalBinary (xb ++ [b]) = .ok P := by
  have h1 : (xb ++ [b]).length = 33 := by simp [hl]
  have h2 : (xb ++ [b]).getD 32 0 = b := by
    rw [List.getD_eq_getElem?_getD, List.getElem?_eq_getElem (by omega), Option.getD_some, List.getElem_append_right (by omega)]; simp [hl]
  have h3 : (xb ++ [b]).take 32 = xb := by rw [← hl, List.take_left]
  rw [unmarshalBinary, if_neg (fun e => e h1), h2, if_neg (fun e => e hb), h3]
  dsimp only
  have : (maybeSqrt (rightHandSide (Field.setBytes xb))).isSome = true := by
    rw [maybeSqrt_isSome_iff, cast_rightHandSide, Field.setBytes, cast_modQ, BigInt.setBytes_eq, Int.cast_natCast]
    exact hx
  obtain ⟨y, hy⟩ := Option.isSome_iff_exists.1 this
  rw [hy, Outcome.ofOption_some, Outcome.bind_ok]
  by_cases hc : (b = 0 ∧ (!isEven y) = true) ∨ (b = 1 ∧ isEven y = true)
  · rw [if_pos hc]; exact ⟨_, rfl⟩
  · rw [if_neg hc]; exact ⟨_, rfl⟩

theorem unmarshalBinary_ne_panic (buf : List UInt8) : unmarshalBinary buf ≠ .panic := by
  rw [unmarshalBinary]
  by_cases hl : buf.length = 33
  swap
  · rw [if_pos hl]; simp
  rw [if_neg (fun e => e hl)]
  by_cases hs : buf.getD 32 0 = 0 ∨ buf.getD 32 0 = 1
  swap
  · rw [if_pos hs]; simp
  rw [if_neg (fun e => e hs)]
  dsimp only
  cases hq : maybeSqrt (rightHandSide (Field.setBytes (buf.take 32))) with
  | none => rw [Outcome.ofOption_none, Outcome.bind_err]; simp
  | some y =>
    rw [Outcome.ofOption_some, Outcome.bind_ok]
    by_cases hc : (buf.getD 32 0 = 0 ∧ (!isEven y) = true) ∨ (buf.getD 32 0 = 1 ∧ isEven y = true)
    · rw [if_pos hc]; simp
    · rw [if_neg hc]; simp

/-- Round trip of the compressed encoding for reduced curve points. -/
theorem unmarshal_marshal {P : Pt} (hx : 0 ≤ P.X ∧ P.X < q) (hy : 0 ≤ P.Y ∧ P.Y < q)
    (hc : (P.Y : Fq) ^ 2 = (P.X : Fq) ^ 3 + 7) :
    ∃ bs, marshalBinary P = .ok bs ∧ bs.length = 33 ∧ unmarshalBinary bs = .ok P := by
  obtain ⟨xb, h1, h2, h3⟩ := Field.bytes_spec P.X
  rw [modQ_of_range hx.1 hx.2] at h3
  set b : UInt8 := if isEven P.Y then 0 else 1 with hb
  have hb01 : b = 0 ∨ b = 1 := by rw [hb]; split <;> simp
  have hm : marshalBinary P = .ok (xb ++ [b]) := (marshalBinary_ok_iff P _).2 ⟨hc, xb, h1, rfl⟩
  refine ⟨xb ++ [b], hm, by simp [h2], ?_⟩
  have hcast : ((beNat xb : Nat) : Fq) = (P.X : Fq) := by rw [← h3, Int.cast_natCast]
  obtain ⟨P', hP'⟩ := unmarshalBinary_complete xb b h2 hb01 ⟨P.Y, by rw [hcast]; exact hc⟩
  rw [hP']
  obtain ⟨xb', b', e, hl', _, hX, hcv, hyr, hev⟩ := unmarshalBinary_ok hP'
  have he := List.append_inj e (by rw [h2, hl'])
  obtain ⟨rfl, e2⟩ := he
  have hbb : b = b' := by simpa using e2
  have hXX : P'.X = P.X := by
    rw [hX, Field.setBytes, BigInt.setBytes_eq, h3, modQ_of_range hx.1 hx.2]
  have hYY : P'.Y = P.Y := by
    rw [← cast_inj_of_range hyr hy]
    apply sqrt_parity_unique
    · rw [hcv, hc, hXX]
    · have e1 := isEven_iff hyr
      have e2 := isEven_iff hy
      have e3 : isEven P.Y = true ↔ b = 0 := by rw [hb]; split <;> simp_all
      rw [← hbb, ← e3] at hev
      have := e1.symm.trans (hev.trans e2)
      omega
  congr 1
  cases P; cases P'; simp_all

end Verif.Point
