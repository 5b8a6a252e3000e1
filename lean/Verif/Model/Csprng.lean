import Verif.Model.Basic
import Verif.Model.Stream

/-!
Model of /repo/csprng/csprng/csprng.go. `keys i` is the AES-CTR key stream of the key drawn by the `i`-th renewal (from 0)
(`crypto/rand`, `crypto/aes`, `crypto/cipher`: external, arbitrary; a failing system generator is not modelled).
`fill` works under the lock, so a history of concurrent callers is a sequence of calls.
-/
namespace Verif.Csprng

/-- `mebi` (csprng.go:15). -/
def mebi : Nat := 1048576

/-- `csprng` (csprng.go:10-14): `rem`, and for `st` the number of renewals so far and the position in the stream of the
last one. -/
structure St where
  rem : Nat
  renewals : Nat
  pos : Nat
  deriving DecidableEq, Repr

/-- `rng` (csprng.go:48). -/
def init : St := ⟨0, 0, 0⟩

/-- `renew` (csprng.go:16-28). -/
def renew (c : St) : St := ⟨mebi, c.renewals + 1, 0⟩

variable (keys : Nat → Nat → UInt8)

/-- `st.XORKeyStream(d, d)` (csprng.go:40) with the stream of the last renewal. -/
def xorKey (c : St) (d : List UInt8) : List UInt8 :=
  d.mapIdx fun i b => b ^^^ keys (c.renewals - 1) (c.pos + i)

/-- The loop of `fill` (csprng.go:34-45); `fuel` exceeds the number of bytes. -/
def loop : Nat → St → List UInt8 → St × List UInt8
  | 0, c, d => (c, d)
  | f + 1, c, d =>
    if d.length = 0 then (c, d)
    else
      let c := if c.rem = 0 then renew c else c
      let n := min d.length c.rem
      let out := xorKey keys c (d.take n)
      let r := loop f ⟨c.rem - n, c.renewals, c.pos + n⟩ (d.drop n)
      (r.1, out ++ r.2)

/-- `fill` (csprng.go:30-46): the new state and contents of `dst`. -/
def fill (c : St) (dst : List UInt8) : St × List UInt8 :=
  loop keys (dst.length + 1) c (dst.map fun _ => 0)

/-- `XORKeyStream` (csprng.go:59-65): new state and new contents of `dst`. -/
def xorKeyStream (c : St) (dst src : List UInt8) : Outcome (St × List UInt8) :=
  let ls := src.length
  let ld := dst.length
  if ld < ls then .panic
  else if ld > ls then .panic
  else
    let r := fill keys c (dst.take ls)
    .ok (r.1, r.2 ++ dst.drop ls)

/-- A sequence of calls of `Fill` with buffers `ds`: final state and contents. -/
def fills : St → List (List UInt8) → St × List (List UInt8)
  | c, [] => (c, [])
  | c, d :: ds =>
    let r := fill keys c d
    let rs := fills r.1 ds
    (rs.1, r.2 :: rs.2)

end Verif.Csprng
