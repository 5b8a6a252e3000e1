import Verif.Lib.Primes
import Mathlib.AlgebraicGeometry.EllipticCurve.Affine.Point
import Mathlib.Tactic.LinearCombination
import Mathlib.Tactic.FieldSimp

/-!
The curve secp256k1 `y² = x³ + 7` over the field with `secp256k1P` elements, as a Mathlib Weierstrass
curve, together with the affine coordinate representation used by btcec, in which `(0, 0)` stands for
the identity (/repo/ch/core/services/signatures/secp256k1/point.go:26-28).
-/
namespace Verif
open WeierstrassCurve

/-- The base field of secp256k1. -/
abbrev Fq := ZMod secp256k1P

theorem natCast_Fq_eq_iff (a b : Nat) : ((a : Fq) = (b : Fq)) ↔ a % secp256k1P = b % secp256k1P :=
  ZMod.natCast_eq_natCast_iff' a b _

theorem natCast_Fq_ne {a b : Nat} (h : (a % secp256k1P == b % secp256k1P) = false) :
    (a : Fq) ≠ (b : Fq) := by
  intro e
  rw [natCast_Fq_eq_iff] at e
  simp [e] at h

theorem two_ne_zero_Fq : (2 : Fq) ≠ 0 := by
  exact_mod_cast natCast_Fq_ne (a := 2) (b := 0) (by decide +kernel)
theorem three_ne_zero_Fq : (3 : Fq) ≠ 0 := by
  exact_mod_cast natCast_Fq_ne (a := 3) (b := 0) (by decide +kernel)
theorem seven_ne_zero_Fq : (7 : Fq) ≠ 0 := by
  exact_mod_cast natCast_Fq_ne (a := 7) (b := 0) (by decide +kernel)

/-- secp256k1 as a Weierstrass curve: `y² = x³ + 7`. -/
def secpCurve : WeierstrassCurve.Affine Fq := ⟨0, 0, 0, 0, 7⟩

theorem secp_Δ_ne_zero : secpCurve.Δ ≠ 0 := by
  have h : secpCurve.Δ = -(2 ^ 4 * 3 ^ 3 * 7 ^ 2) := by
    simp only [WeierstrassCurve.Δ, WeierstrassCurve.b₂, WeierstrassCurve.b₄, WeierstrassCurve.b₆,
      WeierstrassCurve.b₈, secpCurve]
    ring
  rw [h, neg_ne_zero]
  exact mul_ne_zero (mul_ne_zero (pow_ne_zero _ two_ne_zero_Fq) (pow_ne_zero _ three_ne_zero_Fq))
    (pow_ne_zero _ seven_ne_zero_Fq)

theorem secp_equation_iff (x y : Fq) : secpCurve.Equation x y ↔ y ^ 2 = x ^ 3 + 7 := by
  rw [WeierstrassCurve.Affine.equation_iff]; simp [secpCurve]

theorem secp_nonsingular_iff (x y : Fq) : secpCurve.Nonsingular x y ↔ y ^ 2 = x ^ 3 + 7 := by
  rw [← WeierstrassCurve.Affine.equation_iff_nonsingular_of_Δ_ne_zero secp_Δ_ne_zero,
    secp_equation_iff]

@[simp] theorem secp_negY (x y : Fq) : secpCurve.negY x y = -y := by
  simp [WeierstrassCurve.Affine.negY, secpCurve]

/-- The group of points of secp256k1 (identity included), with Mathlib's group law. -/
abbrev SecpPoint := secpCurve.Point

/-- The point with the given coordinates. -/
def mkPoint (x y : Fq) (h : y ^ 2 = x ^ 3 + 7) : SecpPoint :=
  .some x y ((secp_nonsingular_iff x y).2 h)

/-- btcec's affine coordinates of a point: the identity is `(0, 0)`. -/
def coords : SecpPoint → Fq × Fq
  | .zero => (0, 0)
  | .some x y _ => (x, y)

@[simp] theorem coords_zero : coords 0 = (0, 0) := rfl
@[simp] theorem coords_mkPoint (x y h) : coords (mkPoint x y h) = (x, y) := rfl

theorem not_onCurve_zero : ¬ ((0 : Fq) ^ 2 = 0 ^ 3 + 7) := by
  intro h; apply seven_ne_zero_Fq; simpa using h.symm

theorem point_cases (P : SecpPoint) : P = 0 ∨ ∃ x y h, P = mkPoint x y h := by
  cases P with
  | zero => left; rfl
  | some x y h => right; exact ⟨x, y, (secp_nonsingular_iff x y).1 h, rfl⟩

theorem coords_spec (P : SecpPoint) (hP : P ≠ 0) :
    (coords P).2 ^ 2 = (coords P).1 ^ 3 + 7 := by
  rcases point_cases P with rfl | ⟨x, y, h, rfl⟩
  · exact absurd rfl hP
  · exact h

theorem coords_eq_zero_iff (P : SecpPoint) : coords P = (0, 0) ↔ P = 0 := by
  constructor
  · intro h
    by_contra hP
    have := coords_spec P hP
    rw [h] at this
    exact not_onCurve_zero this
  · rintro rfl; rfl

theorem coords_injective : Function.Injective coords := by
  intro P Q h
  rcases point_cases P with rfl | ⟨x, y, hx, rfl⟩
  · exact ((coords_eq_zero_iff Q).1 h.symm).symm
  · rcases point_cases Q with rfl | ⟨x', y', hx', rfl⟩
    · exact (coords_eq_zero_iff _).1 h
    · simp only [coords_mkPoint, Prod.mk.injEq] at h
      obtain ⟨rfl, rfl⟩ := h; rfl

/-- A coordinate pair which represents a group element. -/
def ValidCoords (c : Fq × Fq) : Prop := c = (0, 0) ∨ c.2 ^ 2 = c.1 ^ 3 + 7

theorem validCoords_iff (c : Fq × Fq) : ValidCoords c ↔ ∃ P, coords P = c := by
  constructor
  · rintro (rfl | h)
    · exact ⟨0, rfl⟩
    · exact ⟨mkPoint c.1 c.2 h, rfl⟩
  · rintro ⟨P, rfl⟩
    by_cases hP : P = 0
    · left; rw [hP]; rfl
    · right; exact coords_spec P hP

/-- Chord-and-tangent addition on btcec's affine coordinates (`(0,0)` is the identity). -/
def affAdd (a b : Fq × Fq) : Fq × Fq :=
  if a = (0, 0) then b
  else if b = (0, 0) then a
  else if a.1 = b.1 then
    if a.2 + b.2 = 0 then (0, 0)
    else
      let l := 3 * a.1 ^ 2 / (2 * a.2)
      let x := l ^ 2 - a.1 - b.1
      (x, l * (a.1 - x) - a.2)
  else
    let l := (b.2 - a.2) / (b.1 - a.1)
    let x := l ^ 2 - a.1 - b.1
    (x, l * (a.1 - x) - a.2)

theorem coords_add (P Q : SecpPoint) : coords (P + Q) = affAdd (coords P) (coords Q) := by
  rcases point_cases P with rfl | ⟨x, y, h, rfl⟩
  · simp [affAdd]
  rcases point_cases Q with rfl | ⟨x', y', h', rfl⟩
  · simp [affAdd]

  have n1 : (x, y) ≠ ((0, 0) : Fq × Fq) := by
    intro e; simp only [Prod.mk.injEq] at e; obtain ⟨rfl, rfl⟩ := e; exact not_onCurve_zero h
  have n2 : (x', y') ≠ ((0, 0) : Fq × Fq) := by
    intro e; simp only [Prod.mk.injEq] at e; obtain ⟨rfl, rfl⟩ := e; exact not_onCurve_zero h'
  change _ = affAdd (x, y) (x', y')
  rw [affAdd, if_neg n1, if_neg n2]
  dsimp only
  by_cases hx : x = x'
  · subst hx
    rw [if_pos rfl]
    by_cases hy : y + y' = 0
    · rw [if_pos hy]
      have hy' : y = secpCurve.negY x y' := by rw [secp_negY]; linear_combination hy
      have := WeierstrassCurve.Affine.Point.add_of_Y_eq (W := secpCurve)
        (h₁ := (secp_nonsingular_iff x y).2 h) (h₂ := (secp_nonsingular_iff x y').2 h') rfl hy'
      simp only [mkPoint]; rw [this]; rfl
    · rw [if_neg hy]
      have hy' : y ≠ secpCurve.negY x y' := by
        rw [secp_negY]; intro e; apply hy; rw [e]; ring
      have := WeierstrassCurve.Affine.Point.add_of_Y_ne (W := secpCurve)
        (h₁ := (secp_nonsingular_iff x y).2 h) (h₂ := (secp_nonsingular_iff x y').2 h') hy'
      have hyy : y = y' := by
        have e : (y - y') * (y + y') = 0 := by linear_combination h - h'
        rcases mul_eq_zero.1 e with e | e
        · linear_combination e
        · exact absurd e hy
      simp only [mkPoint]; rw [this]
      simp only [coords, WeierstrassCurve.Affine.slope_of_Y_ne rfl hy',
        WeierstrassCurve.Affine.addX, WeierstrassCurve.Affine.addY,
        WeierstrassCurve.Affine.negAddY, secp_negY, Prod.mk.injEq]
      simp only [secpCurve]
      subst hyy
      have h2 : y - -y = 2 * y := by ring
      simp only [zero_mul, mul_zero, add_zero, sub_zero, h2]
      exact ⟨trivial, by ring⟩
  · rw [if_neg hx]
    have := WeierstrassCurve.Affine.Point.add_of_X_ne (W := secpCurve)
        (h₁ := (secp_nonsingular_iff x y).2 h) (h₂ := (secp_nonsingular_iff x' y').2 h') hx
    simp only [mkPoint]; rw [this]
    have e : (y - y') / (x - x') = (y' - y) / (x' - x) := by
      rw [← neg_sub y' y, ← neg_sub x' x, neg_div_neg_eq]
    simp only [coords, WeierstrassCurve.Affine.slope_of_X_ne hx, WeierstrassCurve.Affine.addX,
      WeierstrassCurve.Affine.addY, WeierstrassCurve.Affine.negAddY, secp_negY, Prod.mk.injEq]
    simp only [secpCurve, zero_mul, add_zero, sub_zero, e]
    exact ⟨trivial, by ring⟩

theorem coords_neg (P : SecpPoint) : coords (-P) = ((coords P).1, -(coords P).2) := by
  rcases point_cases P with rfl | ⟨x, y, h, rfl⟩
  · simp
  · simp only [mkPoint, WeierstrassCurve.Affine.Point.neg_some]
    simp only [coords, secp_negY]

end Verif
