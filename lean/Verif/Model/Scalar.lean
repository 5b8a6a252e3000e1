import Verif.Lib.Primes
import Verif.Model.Basic
import Verif.Model.BigInt

/-!
Model of /repo/ch/core/services/signatures/secp256k1/scalar.go.

A `*secp256k1Scalar` is a pointer to a `big.Int`. The functions below give the new value of the receiver as
a function of the operand values; `Verif.ScalarHeap` models the pointers. Operands of another dynamic type
than `*secp256k1Scalar` (type assertion panic in `ToInt`, scalar.go:49) are not modelled.
-/
namespace Verif.Scalar

/-- `GroupOrder` (scalar.go:27). -/
def GroupOrder : Int := secp256k1N

/-- `newScalar` (scalar.go:43-45). -/
def newScalar (v : Int) : Int := BigInt.mod v GroupOrder

/-- `modG` (scalar.go:53-57). -/
def modG (s : Int) : Int := BigInt.mod s GroupOrder

/-- `Equal` (scalar.go:67-70). -/
def equal (s s' : Int) : Bool := BigInt.mod (s - s') GroupOrder == 0

/-- `Set` (scalar.go:73-75). -/
def set (s' : Int) : Int := BigInt.mod s' GroupOrder

/-- `Clone` (scalar.go:78-80). -/
def clone (s : Int) : Int := BigInt.mod s GroupOrder

/-- `SetInt64` (scalar.go:83-85); `v` ranges over all integers, a superset of int64. -/
def setInt64 (v : Int) : Int := modG v

/-- `Zero` (scalar.go:88-90). -/
def zero : Int := setInt64 0

/-- `One` (scalar.go:111-113). -/
def one : Int := setInt64 1

/-- `Add` (scalar.go:93-96). -/
def add (a b : Int) : Int := modG (a + b)

/-- `Sub` (scalar.go:99-102). -/
def sub (a b : Int) : Int := modG (a - b)

/-- `Neg` (scalar.go:105-108). -/
def neg (a : Int) : Int := modG (-a)

/-- `Mul` (scalar.go:116-120). -/
def mul (a b : Int) : Int := modG (a * b)

/-- `Div` (scalar.go:123-130): panics on 0; for a nonzero multiple of the order `ModInverse` returns nil
and the multiplication dereferences it. -/
def div (a b : Int) : Outcome Int :=
  if b = 0 then .panic
  else match BigInt.modInverse b GroupOrder with
    | none => .panic
    | some i => .ok (modG (a * i))

/-- `Inv` (scalar.go:133-139): panics on 0; for a nonzero multiple of the order `ModInverse` leaves the
receiver's old value `s`. -/
def inv (s a : Int) : Outcome Int :=
  if a = 0 then .panic
  else match BigInt.modInverse a GroupOrder with
    | none => .ok s
    | some i => .ok i

/-- `MarshalSize` (scalar.go:160). -/
def marshalSize : Nat := 32

/-- `MarshalBinary` (scalar.go:149-157). `make` panics on a negative length. (The receiver is also reduced
in place; its value after the call is `modG s`.) -/
def marshalBinary (s : Int) : Outcome (List UInt8) :=
  let b := BigInt.bytes (modG s)
  if marshalSize < b.length then .panic
  else
    let rv := List.replicate (marshalSize - b.length) (0 : UInt8) ++ b
    if rv.length ≠ marshalSize then .err else .ok rv

/-- `UnmarshalBinary` (scalar.go:169-175). -/
def unmarshalBinary (buf : List UInt8) : Outcome Int :=
  if buf.length ≠ marshalSize then .err
  else .ok (BigInt.mod (BigInt.setBytes buf) GroupOrder)

/-- `SetBytes` (scalar.go:200-202). -/
def setBytes (a : List UInt8) : Int := modG (BigInt.setBytes a)

/-- `IntToScalar` (scalar.go:218-220). -/
def intToScalar (i : Int) : Int := modG i

/-- `RepresentsScalar` (scalar.go:227-229). -/
def representsScalar (i : Int) : Bool := i < GroupOrder

end Verif.Scalar
