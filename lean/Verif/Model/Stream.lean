import Verif.Model.BigInt

/-!
Random streams, and the part of kyber's `util/random` the code relies on (external; trusted contract).
-/
namespace Verif

/-- A `cipher.Stream`: a state and an `XORKeyStream` call which overwrites `dst` given `src` (same length).
Nothing is assumed about the bytes. -/
structure CStream where
  /-- internal state -/
  State : Type
  /-- `XORKeyStream(dst, src)` with `len(dst) = len(src)`: new state and new contents of `dst`. -/
  xor : State → List UInt8 → State × List UInt8
  /-- `dst` keeps its length. -/
  xor_length : ∀ s src, (xor s src).2.length = src.length

namespace CStream
variable (R : CStream)

/-- kyber `random.Int(mod, rand)` for a 256-bit modulus: draw 32 bytes until the value is in `(0, mod)`.
`fuel` bounds the attempts; `none` means that the call has not returned yet. -/
def int (m : Int) : Nat → R.State → Option (R.State × Int)
  | 0, _ => none
  | f + 1, s =>
    let (s', b) := R.xor s (List.replicate 32 0)
    let i := BigInt.setBytes b
    if 0 < i ∧ i < m then some (s', i) else int m f s'

end CStream
end Verif
