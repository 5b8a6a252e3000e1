import Verif.Model.Scalar
import Mathlib.Logic.Function.Basic

/-!
Model of the pointer behaviour of /repo/ch/core/services/signatures/secp256k1/scalar.go: scalars live in a heap
of `big.Int`s, the methods read operands through pointers which may alias the receiver, and write in place.
`math/big` guarantees that a call reads its operands before writing the receiver (trusted contract).
-/
namespace Verif.ScalarHeap
open Verif.Scalar

/-- Addresses of scalars. -/
abbrev Ptr := Nat
/-- Contents of the backing integers. -/
abbrev Heap := Ptr → Int

/-- A method call on scalars; the first pointer is the receiver. -/
inductive Call where
  | set (s a : Ptr)
  | setInt64 (s : Ptr) (v : Int)
  | setBytes (s : Ptr) (b : List UInt8)
  | add (s a b : Ptr)
  | sub (s a b : Ptr)
  | neg (s a : Ptr)
  | mul (s a b : Ptr)
  | div (s a b : Ptr)
  | inv (s a : Ptr)
  | marshal (s : Ptr)
  | unmarshal (s : Ptr) (b : List UInt8)

/-- `s.int().Op(...)`: store in the receiver. -/
def store (h : Heap) (s : Ptr) (v : Int) : Heap := Function.update h s v

/-- `modG` in place (scalar.go:53-57). -/
def modGAt (h : Heap) (s : Ptr) : Heap := store h s (BigInt.mod (h s) GroupOrder)

/-- One call, `none` is a panic. Line references are to scalar.go. -/
def exec (h : Heap) : Call → Option Heap
  | .set s a => some (store h s (BigInt.mod (h a) GroupOrder))              -- 73-75
  | .setInt64 s v => some (modGAt (store h s v) s)                          -- 83-85
  | .setBytes s b => some (modGAt (store h s (BigInt.setBytes b)) s)        -- 200-202
  | .add s a b => some (modGAt (store h s (h a + h b)) s)                   -- 93-96
  | .sub s a b => some (modGAt (store h s (h a - h b)) s)                   -- 99-102
  | .neg s a => some (modGAt (store h s (-(h a))) s)                        -- 105-108
  | .mul s a b => some (modGAt (store h s (h a * h b)) s)                   -- 116-120
  | .div s a b =>                                                           -- 123-130
    if h b = 0 then none
    else match BigInt.modInverse (h b) GroupOrder with
      | none => none
      | some i => some (modGAt (store h s (h a * i)) s)
  | .inv s a =>                                                             -- 133-139
    if h a = 0 then none
    else match BigInt.modInverse (h a) GroupOrder with
      | none => some h
      | some i => some (store h s i)
  | .marshal s => some (modGAt h s)                                         -- 149-157
  | .unmarshal s b =>                                                       -- 169-175
    if b.length ≠ marshalSize then some h
    else
      let h1 := store h s (BigInt.setBytes b)
      some (store h1 s (BigInt.mod (h1 s) GroupOrder))

/-- A sequence of calls; stops at the first panic. -/
def run : Heap → List Call → Option Heap
  | h, [] => some h
  | h, c :: cs => match exec h c with
    | none => none
    | some h' => run h' cs

end Verif.ScalarHeap
