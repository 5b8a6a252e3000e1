import Verif.Model.Point

/-!
Model of the methods that write scalars and points to an `io.Writer` and read them from an `io.Reader`
(/repo/ch/core/services/signatures/secp256k1/point.go:265-284, scalar.go:177-196), of the `New` of the suite (suite.go:58-73) and of the
conversions at the end of scalar.go and point.go.
-/
namespace Verif.Encoding
open Verif.Point

/-- An `io.Reader` (external): what its calls give from now on. Each entry is a piece of data and whether an error comes with the end of
it; a call with a shorter buffer gets the beginning of the piece. After the last entry every call gives an error. -/
abbrev Reader := List (List UInt8 × Bool)

/-- `io.ReadFull(r, buf)` for a buffer of `n > 0` bytes (external): calls `Read` until the buffer is full or there is an error; an error
that comes with the last byte needed is dropped. Returns what was read and whether that is all, and the reader as it is left. -/
def readFull (n : Nat) : Reader → (List UInt8 × Bool) × Reader
  | [] => (([], false), [])
  | (b, e) :: r =>
    if n < b.length then ((b.take n, true), (b.drop n, e) :: r)
    else if n = b.length then ((b, true), r)
    else if e then ((b, false), r)
    else let x := readFull (n - b.length) r; ((b ++ x.1.1, x.1.2), x.2)

/-- The result of `UnmarshalFrom`: the number it returns, the new value or an error, and the reader. -/
structure ReadResult (α : Type) where
  n : Nat
  value : Outcome α
  rest : Reader

/-- `UnmarshalFrom` of a point (point.go:277-284). -/
def pointFrom (r : Reader) : ReadResult Pt :=
  let x := readFull 33 r
  if x.1.2 then ⟨33, unmarshalBinary x.1.1, x.2⟩ else ⟨0, .err, x.2⟩

/-- `UnmarshalFrom` of a scalar (scalar.go:189-196). -/
def scalarFrom (r : Reader) : ReadResult Int :=
  let x := readFull Scalar.marshalSize r
  if x.1.2 then ⟨Scalar.marshalSize, Scalar.unmarshalBinary x.1.1, x.2⟩ else ⟨x.1.1.length, .err, x.2⟩

/-- An `io.Writer` (external): what it has taken, and how many bytes more it takes, if there is a limit. -/
structure Writer where
  data : List UInt8
  room : Option Nat

/-- `Write` (external): takes what fits, returns how much, and an error if that is not all. -/
def write (w : Writer) (buf : List UInt8) : Writer × Nat × Bool :=
  match w.room with
  | none => (⟨w.data ++ buf, none⟩, buf.length, true)
  | some k => (⟨w.data ++ buf.take k, some (k - buf.length)⟩, min k buf.length, decide (buf.length ≤ k))

/-- `MarshalTo` of a point (point.go:267-273): the writer, the number of bytes written, and whether there is no error. -/
def pointTo (w : Writer) (P : Pt) : Outcome (Writer × Nat × Bool) :=
  match marshalBinary P with
  | .ok buf => .ok (write w buf)
  | .err => .ok (w, 0, false)
  | .panic => .panic

/-- `MarshalTo` of a scalar (scalar.go:179-185). -/
def scalarTo (w : Writer) (s : Int) : Outcome (Writer × Nat × Bool) :=
  match Scalar.marshalBinary s with
  | .ok buf => .ok (write w buf)
  | .err => .ok (w, 0, false)
  | .panic => .panic

/-- Go types, as far as needed: the interfaces `kyber.Scalar` and `kyber.Point`, the types of this package that implement them, others. -/
inductive GoType where
  | scalar
  | point
  | secp256k1Scalar
  | secp256k1Point
  | other (name : String)
  deriving DecidableEq

/-- A value of an interface type: nil, or a value with its dynamic type. -/
abbrev Iface := Option GoType

/-- `reflect.TypeOf` (external): the dynamic type, and nil for a nil interface value. -/
def typeOf (i : Iface) : Option GoType := i

/-- `aScalar`, `tScalar`, `aPoint`, `tPoint` (suite.go:58-61); variables of an interface type without a value are nil. -/
def aScalar : Iface := none
def tScalar : Option GoType := typeOf aScalar
def aPoint : Iface := none
def tPoint : Option GoType := typeOf aPoint

/-- What `New` gives: a scalar, a point, or nil. -/
inductive New where
  | scalar (s : Int)
  | point (P : Pt)
  | nil
  deriving DecidableEq

/-- `New` (suite.go:65-73, curve.go:36, 42-44). -/
def new (t : Option GoType) : New :=
  if t = tScalar then .scalar (Scalar.newScalar 0)
  else if t = tPoint then .point newPoint
  else .nil

end Verif.Encoding
