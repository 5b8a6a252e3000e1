import Verif.Model.Point

/-!
Model of /repo/ch/core/services/signatures/secp256k1/public_key.go. A `PublicKey` is a 33-byte array, here a list of
that length. Go strings are byte lists. The hash is a parameter `H`.
-/
namespace Verif.PublicKey
open Verif.Point

/-- `CompressedPublicKeyLength` (public_key.go:21). -/
def compressedLength : Nat := 33

/-- The value of a hex digit, as `encoding/hex` reads it (external). -/
def fromHexChar (c : UInt8) : Option UInt8 :=
  if 48 ≤ c ∧ c ≤ 57 then some (c - 48)
  else if 97 ≤ c ∧ c ≤ 102 then some (c - 97 + 10)
  else if 65 ≤ c ∧ c ≤ 70 then some (c - 65 + 10)
  else none

/-- `hex.DecodeString` (external): pairs of digits. -/
def hexDecodeString : List UInt8 → Option (List UInt8)
  | [] => some []
  | [_] => none
  | a :: b :: rest => do
    let x ← fromHexChar a
    let y ← fromHexChar b
    let r ← hexDecodeString rest
    return (x <<< 4 ||| y) :: r

/-- The digit of a nibble, `"0123456789abcdef"[d]` (external). -/
def hexChar (d : UInt8) : UInt8 := if d < 10 then 48 + d else 97 + (d - 10)

/-- `hexutil.Encode` (external): "0x" and lower case digits. -/
def hexutilEncode (b : List UInt8) : List UInt8 :=
  48 :: 120 :: b.flatMap fun (v : UInt8) => [hexChar (v >>> 4), hexChar (v &&& 15)]

/-- `hexutil.Decode` (external): needs the prefix 0x or 0X. -/
def hexutilDecode : List UInt8 → Outcome (List UInt8)
  | 48 :: x :: rest => if x = 120 ∨ x = 88 then Outcome.ofOption (hexDecodeString rest) else .err
  | _ => .err

/-- `Point` (public_key.go:37-40). -/
def point (k : List UInt8) : Outcome Pt := unmarshalBinary k

/-- `NewPublicKeyFromBytes` (public_key.go:52-62). -/
def newPublicKeyFromBytes (raw : List UInt8) : Outcome (List UInt8) :=
  if raw.length ≠ compressedLength then .err else .ok raw

/-- `NewPublicKeyFromHex` (public_key.go:43-49). -/
def newPublicKeyFromHex (hex : List UInt8) : Outcome (List UInt8) := do
  let raw ← hexutilDecode hex
  newPublicKeyFromBytes raw

/-- `SetFromHex` (public_key.go:66-73): the new value of the receiver `k`, and whether there was no error. -/
def setFromHex (k hex : List UInt8) : List UInt8 × Bool :=
  match newPublicKeyFromHex hex with
  | .ok nk => (nk, true)
  | _ => (k, false)

/-- `String` (public_key.go:76-78). -/
def string (k : List UInt8) : List UInt8 := hexutilEncode k

/-- `StringUncompressed` (public_key.go:81-87). -/
def stringUncompressed (k : List UInt8) : Outcome (List UInt8) := do
  let p ← point k
  let m ← longMarshal p
  return hexutilEncode m

/-- `common.BytesToHash`, `common.BytesToAddress` (external): right-aligned in `n` bytes. -/
def rightAlign (n : Nat) (b : List UInt8) : List UInt8 :=
  if n < b.length then b.drop (b.length - n) else List.replicate (n - b.length) 0 ++ b

/-- `Hash` (public_key.go:91-97), with `utils.MustHash` (core/utils/utils.go:21-27). -/
def hash (H : List UInt8 → List UInt8) (k : List UInt8) : Outcome (List UInt8) := do
  let p ← point k
  let m ← longMarshal p
  return rightAlign 32 (H m)

/-- `MustHash` (public_key.go:100-106). -/
def mustHash (H : List UInt8 → List UInt8) (k : List UInt8) : Outcome (List UInt8) := (hash H k).orPanic

/-- `Address` (public_key.go:109-115). -/
def address (H : List UInt8 → List UInt8) (k : List UInt8) : List UInt8 :=
  match hash H k with
  | .ok h => rightAlign 20 (h.drop 12)
  | _ => List.replicate 20 0

/-- `IsZero` (public_key.go:118-120). -/
def isZero (k : List UInt8) : Bool := k == List.replicate compressedLength 0

/-- `MarshalText` (public_key.go:123-125). -/
def marshalText (k : List UInt8) : List UInt8 := string k

/-- `UnmarshalText` (public_key.go:128-133). -/
def unmarshalText (k text : List UInt8) : List UInt8 × Bool := setFromHex k text

/-- A database value: a string or something else. -/
inductive DbValue where
  | str (s : List UInt8)
  | other
  deriving DecidableEq, Repr

/-- `Value` (public_key.go:136-138). -/
def value (k : List UInt8) : DbValue := .str (string k)

/-- `Scan` (public_key.go:141-150). -/
def scan (k : List UInt8) : DbValue → List UInt8 × Bool
  | .str raw => setFromHex k raw
  | .other => (k, false)

end Verif.PublicKey
