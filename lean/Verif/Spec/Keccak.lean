import Verif.Model.Basic

/-!
Keccak-256 as Ethereum uses it (the external `golang.org/x/crypto/sha3.NewLegacyKeccak256`), from its definition: for tests only. The
theorems hold for every hash function of 32 bytes; this one is such a function.
-/
namespace Verif.Spec.Keccak

/-- A word of 64 bits. -/
def mask : Nat := 2 ^ 64 - 1

/-- Rotation to the left. -/
def rotl (x n : Nat) : Nat := if n = 0 then x else (x <<< n ||| x >>> (64 - n)) &&& mask

/-- The round constants. -/
def rc : List Nat :=
  [0x0000000000000001, 0x0000000000008082, 0x800000000000808A, 0x8000000080008000, 0x000000000000808B, 0x0000000080000001,
   0x8000000080008081, 0x8000000000008009, 0x000000000000008A, 0x0000000000000088, 0x0000000080008009, 0x000000008000000A,
   0x000000008000808B, 0x800000000000008B, 0x8000000000008089, 0x8000000000008003, 0x8000000000008002, 0x8000000000000080,
   0x000000000000800A, 0x800000008000000A, 0x8000000080008081, 0x8000000000008080, 0x0000000080000001, 0x8000000080008008]

/-- The rotations, lane `x + 5 y` at its position. -/
def rot : List Nat :=
  [0, 1, 62, 28, 27, 36, 44, 6, 55, 20, 3, 10, 43, 25, 39, 41, 45, 15, 21, 8, 18, 2, 61, 56, 14]

/-- The lane `x + 5 y` of a state. -/
def lane (a : List Nat) (x y : Nat) : Nat := a.getD (x % 5 + 5 * (y % 5)) 0

/-- A state from its lanes. -/
def state (f : Nat → Nat → Nat) : List Nat := (List.range 25).map fun i => f (i % 5) (i / 5)

/-- One round: θ, ρ and π, χ and ι. -/
def round (a : List Nat) (k : Nat) : List Nat :=
  let c := (List.range 5).map fun x => lane a x 0 ^^^ lane a x 1 ^^^ lane a x 2 ^^^ lane a x 3 ^^^ lane a x 4
  let d := (List.range 5).map fun x => c.getD ((x + 4) % 5) 0 ^^^ rotl (c.getD ((x + 1) % 5) 0) 1
  let a := state fun x y => rotl (lane a x y ^^^ d.getD x 0) (rot.getD (x + 5 * y) 0)
  -- the lane (x, y) moves to (y, 2x + 3y)
  let b := state fun x y => lane a (x + 3 * y) x
  let e := state fun x y => lane b x y ^^^ ((mask ^^^ lane b (x + 1) y) &&& lane b (x + 2) y)
  e.mapIdx fun i v => if i = 0 then v ^^^ k else v

/-- The permutation. -/
def keccakF (a : List Nat) : List Nat := rc.foldl round a

/-- Eight bytes as a word, the least significant first. -/
def word (b : List UInt8) : Nat := b.foldr (fun x n => x.toNat + 256 * n) 0

/-- A word as eight bytes. -/
def unword (n : Nat) : List UInt8 := (List.range 8).map fun i => UInt8.ofNat (n >>> (8 * i))

/-- The rate, in bytes. -/
def rate : Nat := 136

/-- The padding, with 1 and 0x80. -/
def pad (m : List UInt8) : List UInt8 :=
  let n := rate - m.length % rate
  if n = 1 then m ++ [0x81] else m ++ [0x01] ++ List.replicate (n - 2) 0 ++ [0x80]

/-- The state after one more block. -/
def block (a : List Nat) (b : List UInt8) : List Nat :=
  keccakF (a.mapIdx fun i v => if i < 17 then v ^^^ word ((b.drop (8 * i)).take 8) else v)

/-- The state after `n` blocks. -/
def absorb : Nat → List UInt8 → List Nat → List Nat
  | 0, _, a => a
  | n + 1, m, a => absorb n (m.drop rate) (block a (m.take rate))

/-- Keccak-256. -/
def keccak256 (m : List UInt8) : List UInt8 :=
  let p := pad m
  ((absorb (p.length / rate) p (List.replicate 25 0)).take 4).flatMap unword

end Verif.Spec.Keccak
