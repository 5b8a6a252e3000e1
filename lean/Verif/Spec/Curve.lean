/-!
Specification of secp256k1 points in integer coordinates, independent of the code model and of Mathlib.
-/
namespace Verif

/-- The field characteristic 2^256 - 2^32 - 977. -/
def fieldPrime : Int := 2 ^ 256 - 2 ^ 32 - 977

/-- The affine curve equation y² = x³ + 7 modulo the field characteristic. -/
def OnCurve (x y : Int) : Prop := (y * y - (x * x * x + 7)) % fieldPrime = 0

/-- Reduced coordinates. -/
def Reduced (x y : Int) : Prop := (0 ≤ x ∧ x < fieldPrime) ∧ (0 ≤ y ∧ y < fieldPrime)

/-- Reduced coordinates of a group element: on the curve, or (0, 0) for the identity. -/
def GroupElt (x y : Int) : Prop := Reduced x y ∧ ((x = 0 ∧ y = 0) ∨ OnCurve x y)

end Verif
