import Verif.Spec.Bytes
import Verif.Lib.Primes

/-!
Specification of the Ethereum Schnorr scheme in terms of integers and byte strings, independent of the code model.
-/
namespace Verif.Spec

/-- The `len`-byte big-endian string of `v mod 256^len`. -/
def toBE : (len v : Nat) → List UInt8
  | 0, _ => []
  | len + 1, v => toBE len (v / 256) ++ [UInt8.ofNat (v % 256)]

/-- Number of bytes of the shortest big-endian string of `v`. -/
def byteLen (v : Nat) : Nat := if v = 0 then 0 else Nat.log2 v / 8 + 1

/-- The 33 byte compressed form of the point with reduced coordinates `x`, `y`. -/
def compressed (x y : Int) : List UInt8 := toBE 32 x.toNat ++ [if y % 2 = 0 then 0 else 1]

/-- The Ethereum address: the last 20 of the 32 bytes of the hash of `x ‖ y`. -/
def address (H : List UInt8 → List UInt8) (x y : Int) : List UInt8 :=
  (H (toBE 32 x.toNat ++ toBE 32 y.toNat)).drop 12

/-- The bytes hashed for the challenge. -/
def challengeBytes (x y : Int) (addr : List UInt8) (m : Nat) : List UInt8 :=
  compressed x y ++ toBE (byteLen m) m ++ addr

/-- The challenge in `[0, n)`. -/
def challenge (H : List UInt8 → List UInt8) (x y : Int) (addr : List UInt8) (m : Nat) : Nat :=
  beNat (H (challengeBytes x y addr m)) % secp256k1N

end Verif.Spec
