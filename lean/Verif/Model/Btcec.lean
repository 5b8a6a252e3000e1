import Verif.Model.BigInt
import Verif.Lib.Primes

/-!
The part of `github.com/btcsuite/btcd/btcec` the code relies on (external library; trusted contract, see
DESIGN.md): affine secp256k1 arithmetic on integer coordinates, `(0, 0)` being the identity
(/repo/ch/core/services/signatures/secp256k1/point.go:26-28). The real library computes in Jacobian coordinates
and splits scalars by an endomorphism; here chord-and-tangent and double-and-add are used. On coordinates which
are neither on the curve nor `(0, 0)` the real library and this model may differ; no theorem relies on those.
-/
namespace Verif.Btcec

/-- Field characteristic as an integer. -/
def p : Int := secp256k1P

/-- `S256().Gx`. -/
def gx : Int := 0x79BE667EF9DCBBAC55A06295CE870B07029BFCDB2DCE28D959F2815B16F81798
/-- `S256().Gy`. -/
def gy : Int := 0x483ADA7726A3C4655DA4FBFC0E1108A8FD17B448A68554199C47D08FFB10D4B8

/-- Field inverse by Fermat (`fieldVal.Inverse`). -/
def inv (x : Int) : Int := BigInt.exp x (secp256k1P - 2) secp256k1P

/-- `KoblitzCurve.Add(x1, y1, x2, y2)`. -/
def add (a b : Int × Int) : Int × Int :=
  if a = (0, 0) then b
  else if b = (0, 0) then a
  else if a.1 % p = b.1 % p then
    if a.2 % p = b.2 % p ∧ a.2 % p ≠ 0 then
      let l := 3 * a.1 ^ 2 * inv (2 * a.2) % p
      let x := (l ^ 2 - a.1 - b.1) % p
      (x, (l * (a.1 - x) - a.2) % p)
    else (0, 0)
  else
    let l := (b.2 - a.2) * inv (b.1 - a.1) % p
    let x := (l ^ 2 - a.1 - b.1) % p
    (x, (l * (a.1 - x) - a.2) % p)

/-- Process the low `i` bits of `b`, most significant first: double, and add the base if the bit is set. -/
def multBits (base : Int × Int) (b : Nat) : Nat → Int × Int → Int × Int
  | 0, acc => acc
  | i + 1, acc =>
    let acc2 := add acc acc
    multBits base b i (if (b >>> i) % 2 = 1 then add acc2 base else acc2)

/-- `KoblitzCurve.ScalarMult(Bx, By, k)`, `k` big-endian. -/
def scalarMult (base : Int × Int) (k : List UInt8) : Int × Int :=
  k.foldl (fun acc b => multBits base b.toNat 8 acc) (0, 0)

/-- `KoblitzCurve.ScalarBaseMult(k)`. -/
def scalarBaseMult (k : List UInt8) : Int × Int := scalarMult (gx, gy) k

end Verif.Btcec
