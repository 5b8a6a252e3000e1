import Verif.Lib.Primes

/-!
Specification of the scalar ring and the base field: residues, and what it means for an integer to be the
canonical representative of a residue.
-/
namespace Verif

/-- `r` is the canonical representative in `[0, m)` of the residue `z`. -/
def Represents (m : Nat) (r : Int) (z : ZMod m) : Prop := 0 ≤ r ∧ r < m ∧ (r : ZMod m) = z

/-- The ring of exponents of the group. -/
abbrev Fn := ZMod secp256k1N

end Verif
