import Verif.Lib.PowMod
import Verif.Spec.Bytes
import Mathlib.Data.Int.GCD

/-!
The part of Go's `math/big` the code relies on (external library; trusted contract, see DESIGN.md).
A `*big.Int` is an exact integer; non-nil pointers are modelled by `Int`.
-/
namespace Verif.BigInt

/-- Digits of `n` base 256, most significant first; `fuel ≥ n` suffices. -/
def bytesAux : (fuel n : Nat) → List UInt8
  | 0, _ => []
  | f + 1, n => if n = 0 then [] else bytesAux f (n / 256) ++ [UInt8.ofNat (n % 256)]

/-- `(*big.Int).Bytes`: minimal big-endian encoding of the absolute value (empty for 0). -/
def bytes (x : Int) : List UInt8 := bytesAux x.natAbs x.natAbs

/-- `(*big.Int).SetBytes`: the big-endian unsigned value, by repeated shift and or. -/
def setBytes (bs : List UInt8) : Int := (bs.foldl (fun acc b => acc * 256 + b.toNat) 0 : Nat)

/-- `(*big.Int).Mod(x, m)`, `m > 0`: Euclidean modulus. -/
def mod (x m : Int) : Int := x % m

/-- `(*big.Int).Exp(x, e, m)` with `e ≥ 0`, `m > 0`: `x^e mod m` by square and multiply. -/
@[irreducible] def exp (x : Int) (e : Nat) (m : Nat) : Int := (powMod (x % m).toNat e m : Nat)

/-- `(*big.Int).ModInverse(g, n)`: the inverse in `[0, n)`, `nil` if `g` and `n` are not coprime. -/
def modInverse (g n : Int) : Option Int :=
  if Int.gcd g n = 1 then some ((Int.gcdA (g % n) n) % n) else none

/-- Strict order by sign and magnitude, as `math/big` compares. -/
def lt : Int → Int → Bool
  | .ofNat a, .ofNat b => Nat.blt a b
  | .ofNat _, .negSucc _ => false
  | .negSucc _, .ofNat _ => true
  | .negSucc a, .negSucc b => Nat.blt b a

/-- `(*big.Int).Cmp`: -1, 0 or 1. -/
def cmp (x y : Int) : Int := if lt x y then -1 else if lt y x then 1 else 0

end Verif.BigInt
