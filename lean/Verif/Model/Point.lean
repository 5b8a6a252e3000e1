import Verif.Model.Field
import Verif.Model.Scalar
import Verif.Model.Btcec
import Verif.Model.Stream

/-!
Model of /repo/ch/core/services/signatures/secp256k1/point.go. A non-nil `*secp256k1Point` with non-nil
coordinates is the pair of the values of its coordinates. Receivers are only written, so each method is given by
the new receiver value. In-place reduction of coordinates (`modQ` inside `Bytes`, `Clone`) does not change the
residue and is not tracked; the package API only builds reduced coordinates.
-/
namespace Verif.Point
open Verif.Field

/-- `secp256k1Point` (point.go:29-32). -/
structure Pt where
  X : Int
  Y : Int
  deriving DecidableEq, Repr

/-- The value of a `kyber.Point` interface: nil (typed or not), a point of this package, or another type. -/
inductive KPoint where
  | nil
  | foreign
  | pt (p : Pt)
  deriving DecidableEq, Repr

/-- `newPoint` (point.go:34-36). -/
def newPoint : Pt := ⟨0, 0⟩

/-- `Equal` (point.go:44-47). -/
def equal (a b : Pt) : Bool := Field.equal a.X b.X && Field.equal a.Y b.Y

/-- `Null` (point.go:50-54). -/
def null : Pt := ⟨fromInt 0, fromInt 0⟩

/-- `Base` (point.go:57-61). -/
def base : Pt := ⟨setInt Btcec.gx, setInt Btcec.gy⟩

/-- `Set` (point.go:83-87). -/
def set (a : Pt) : Pt := ⟨Field.set a.X, Field.set a.Y⟩

/-- `Clone` (point.go:90-92). -/
def clone (a : Pt) : Pt := ⟨Field.clone a.X, Field.clone a.Y⟩

/-- `EmbedLen` (point.go:95-99). -/
def embedLen : Nat := (255 - 8 - 8) / 8

/-- `Add` (point.go:149-156). -/
def add (a b : Pt) : Pt :=
  let r := Btcec.add (a.X, a.Y) (b.X, b.Y)
  ⟨setInt r.1, setInt r.2⟩

/-- `Sub` (point.go:159-167). -/
def sub (a b : Pt) : Pt :=
  let r := Btcec.add (a.X, a.Y) (b.X, Field.neg b.Y)
  ⟨setInt r.1, setInt r.2⟩

/-- `Neg` (point.go:170-174). -/
def neg (a : Pt) : Pt := ⟨Field.clone a.X, Field.neg a.Y⟩

/-- `Mul(s, a)` with `a` non-nil (point.go:178-194). -/
def mul (s : Int) (a : Pt) : Outcome Pt := do
  let bs ← (Scalar.marshalBinary s).orPanic
  let r := Btcec.scalarMult (a.X, a.Y) bs
  return ⟨setInt r.1, setInt r.2⟩

/-- `Mul(s, nil)` (point.go:178-194). -/
def mulBase (s : Int) : Outcome Pt := do
  let bs ← (Scalar.marshalBinary s).orPanic
  let r := Btcec.scalarBaseMult bs
  return ⟨setInt r.1, setInt r.2⟩

/-- `MarshalBinary` (point.go:199-222). -/
def marshalBinary (P : Pt) : Outcome (List UInt8) := do
  let r ← Outcome.ofOption (maybeSqrt (rightHandSide P.X))
  let minus := Field.neg r
  if !Field.equal P.Y r && !Field.equal P.Y minus then .err
  else do
    let xb ← Field.bytes P.X
    return xb ++ [if isEven P.Y then 0 else 1]

/-- `UnmarshalBinary` (point.go:234-263): the new receiver value, or an error (on the third error the receiver's
`X` has been overwritten; callers discard the receiver). -/
def unmarshalBinary (buf : List UInt8) : Outcome Pt :=
  if buf.length ≠ 33 then .err
  else
    let sign := buf.getD 32 0
    if ¬ (sign = 0 ∨ sign = 1) then .err
    else do
      let x := Field.setBytes (buf.take 32)
      let y ← Outcome.ofOption (maybeSqrt (rightHandSide x))
      let y0 := Field.set y
      if (sign = 0 ∧ !isEven y) ∨ (sign = 1 ∧ isEven y) then .ok ⟨x, Field.neg y0⟩
      else .ok ⟨x, y0⟩

/-- `ValidPublicKey` after the type tests (point.go:325-326). `maybeY.Neg(maybeY)` is evaluated only when the
first comparison fails. -/
def validPt (P : Pt) : Bool :=
  (maybeSqrt (rightHandSide P.X)).any fun y => Field.equal P.Y y || Field.equal P.Y (Field.neg y)

/-- `ValidPublicKey` (point.go:317-327). -/
def validPublicKey : KPoint → Bool
  | .nil => false
  | .foreign => false
  | .pt P => validPt P

/-- `LongMarshal` (point.go:341-345). -/
def longMarshal (P : Pt) : Outcome (List UInt8) := do
  let x ← Field.bytes P.X
  let y ← Field.bytes P.Y
  return x ++ y

/-- `LongUnmarshal` (point.go:349-362). -/
def longUnmarshal (m : List UInt8) : Outcome Pt :=
  if m.length ≠ 64 then .err
  else
    let p : Pt := ⟨setInt (BigInt.setBytes (m.take 32)), setInt (BigInt.setBytes (m.drop 32))⟩
    if !validPublicKey (.pt p) then .err else .ok p

/-- `SetCoordinates` (point.go:371-379). -/
def setCoordinates (x y : Int) : Outcome Pt :=
  let rv : Pt := ⟨setInt x, setInt y⟩
  if !validPublicKey (.pt rv) then .panic else .ok rv

/-- `ScalarToPublicPoint` (point.go:365-368). -/
def scalarToPublicPoint (s : Int) : Outcome Pt := mulBase s

/-- `copy(rv[:], src)` into a zeroed array of `n` bytes. -/
def copyInto (n : Nat) (src : List UInt8) : List UInt8 :=
  src.take n ++ List.replicate (n - src.length) 0

/-- `EthereumAddress` (point.go:287-298) for the hash function `H`. -/
def ethereumAddress (H : List UInt8 → List UInt8) (P : Pt) : Outcome (List UInt8) := do
  let m ← longMarshal P
  return copyInto 20 ((H m).drop 12)

section Random
variable (R : CStream)

/-- `Embed`'s loop (point.go:120-133): `n` attempts are left; `x` is the 32-byte buffer, `start` the first byte
to randomise. Exhausting the attempts panics (point.go:135). -/
def embedLoop (start : Nat) : Nat → R.State → List UInt8 → R.State × Outcome Pt
  | 0, s, _ => (s, .panic)
  | n + 1, s, x =>
    let (s', r) := R.xor s (x.drop start)
    let x' := x.take start ++ r
    let xo := Field.setBytes x'
    (maybeSqrt (rightHandSide xo)).elim (embedLoop start n s' x') fun y => (s', .ok ⟨xo, y⟩)

/-- `Embed` (point.go:104-136). For nil data the buffer and start are the same as for empty data. -/
def embed (data : List UInt8) (s : R.State) : R.State × Outcome Pt :=
  if embedLen < data.length then (s, .panic)
  else
    let x := UInt8.ofNat data.length :: data ++ List.replicate (31 - data.length) 0
    embedLoop R (1 + data.length) 10000 s x

/-- `Data` (point.go:139-146). -/
def data (P : Pt) : Outcome (List UInt8) := do
  let b ← Field.bytes P.X
  let n := (b.getD 0 0).toNat
  if embedLen < n then .err else .ok ((b.drop 1).take n)

/-- `fieldElt.Pick` (field.go:100-102). -/
def fieldPick (fuel : Nat) (s : R.State) : Option (R.State × Int) :=
  (R.int q fuel s).map fun r => (r.1, setInt r.2)

/-- `Pick` (point.go:64-80); `none` if it has not returned within the fuel. -/
def pick : Nat → R.State → Option (R.State × Pt)
  | 0, _ => none
  | f + 1, s =>
    (fieldPick R (f + 1) s).bind fun (s1, v) =>
      let X := Field.set v
      (maybeSqrt (rightHandSide X)).elim (pick f s1) fun r =>
        let y := Field.set r
        let (s2, b) := R.xor s1 [0]
        if (b.getD 0 0) &&& 1 = 0 then some (s2, ⟨X, Field.neg y⟩) else some (s2, ⟨X, y⟩)

/-- `secp256k1Scalar.Pick` (scalar.go:143-145). -/
def scalarPick (fuel : Nat) (s : R.State) : Option (R.State × Int) :=
  (R.int Scalar.GroupOrder fuel s).map fun r => (r.1, Scalar.set r.2)

/-- `Generate` (point.go:331-338): loops until the public key is valid. The key pair starts with a nil public
key, so the body runs at least once. -/
def generate : Nat → R.State → Option (Outcome (R.State × Int × Pt))
  | 0, _ => none
  | f + 1, s =>
    (scalarPick R (f + 1) s).bind fun (s1, k) =>
      match mulBase k with
      | .ok P => if validPublicKey (.pt P) then some (.ok (s1, k, P)) else generate f s1
      | .err => some .err
      | .panic => some .panic

end Random
end Verif.Point
