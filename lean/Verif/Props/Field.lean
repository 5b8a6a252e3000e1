import Verif.Proofs.Field

/-! Properties C04, C05: field.go. -/
namespace Verif.Props
open Verif.Field

/-- C04. `Bytes` never panics and yields 32 bytes with the canonical value; `SetBytes` gives the canonical
representative of the big-endian value; so `SetBytes(Bytes(f))` is `Equal` to `f` (and is `f` when reduced). -/
theorem C04_field_bytes (f : Int) : ∃ bs, bytes f = .ok bs ∧ bs.length = 32 ∧
    Represents secp256k1P (beNat bs : Nat) (f : Fq) ∧
    equal (setBytes bs) f = true ∧ ((0 ≤ f ∧ f < q) → setBytes bs = f) := by
  obtain ⟨bs, h1, h2, h3⟩ := bytes_spec f
  refine ⟨bs, h1, h2, ?_, ?_, ?_⟩
  · rw [h3]; exact represents_modQ f
  · rw [equal_iff, setBytes, cast_modQ, BigInt.setBytes_eq, h3, cast_modQ]
  · rintro ⟨a, b⟩
    rw [setBytes, BigInt.setBytes_eq, h3, modQ_idem, modQ_of_range a b]

/-- C04 (decoding). -/
theorem C04_setBytes (bs : List UInt8) :
    Represents secp256k1P (setBytes bs) ((beNat bs : Nat) : Fq) := by
  simpa [setBytes, BigInt.setBytes_eq] using represents_modQ (BigInt.setBytes bs)

/-- C04 (equality). `Equal` holds iff the values are congruent mod q; a nil element equals only nil. -/
theorem C04_equal (f g : Int) :
    (equalPtr (some f) (some g) = true ↔ (f : Fq) = (g : Fq)) ∧
    equalPtr none (some g) = false ∧ equalPtr (some f) none = false ∧ equalPtr none none = true :=
  ⟨equal_iff f g, rfl, rfl, rfl⟩

/-- C04 (ring). The field operations are the ring operations mod q with canonical results. -/
theorem C04_field_ops (a b : Int) :
    Represents secp256k1P (add a b) ((a : Fq) + b) ∧ Represents secp256k1P (sub a b) ((a : Fq) - b) ∧
    Represents secp256k1P (neg a) (-(a : Fq)) ∧ Represents secp256k1P (square a) ((a : Fq) ^ 2) ∧
    Represents secp256k1P (set a) (a : Fq) ∧ Represents secp256k1P (setInt a) (a : Fq) ∧
    Represents secp256k1P (clone a) (a : Fq) ∧
    Represents secp256k1P (rightHandSide a) ((a : Fq) ^ 3 + 7) := by
  have h := represents_modQ
  refine ⟨?_, ?_, ?_, ?_, h a, h a, ?_, ?_⟩
  · simpa [add] using h (a + b)
  · simpa [sub] using h (a - b)
  · simpa [neg] using h (-a)
  · have := h (BigInt.exp a 2 secp256k1P)
    rwa [cast_exp _ _ (by decide +kernel)] at this
  · have := h (modQ a)
    rwa [cast_modQ] at this
  · have := h (BigInt.exp a 3 secp256k1P + seven)
    refine ⟨this.1, this.2.1, cast_rightHandSide a⟩

example : bytes 258 = .ok (List.replicate 30 0 ++ [1, 2]) ∧ setBytes (List.replicate 32 255) = 2 ^ 256 - 1 - q ∧
    rightHandSide 2 = 15 ∧ sub 1 2 = q - 1 := by decide +kernel

/-- C05. The square root routine returns a root iff there is one: it returns nil exactly on non-squares, and
what it returns is a reduced integer whose square is congruent to the argument. -/
theorem C05_sqrt (v : Int) :
    (∀ s, maybeSqrt v = some s → (s * s - v) % q = 0 ∧ 0 ≤ s ∧ s < q) ∧
    (maybeSqrt v = none ↔ ¬ ∃ s : Int, (s * s - v) % q = 0) := by
  have key : ∀ s : Int, (s * s - v) % q = 0 ↔ (s : Fq) ^ 2 = (v : Fq) := by
    intro s
    rw [← sub_eq_zero (a := (s : Fq) ^ 2), ← Int.cast_pow, ← Int.cast_sub, pow_two]
    rw [ZMod.intCast_zmod_eq_zero_iff_dvd]
    exact ⟨Int.dvd_of_emod_eq_zero, Int.emod_eq_zero_of_dvd⟩
  constructor
  · intro s hs
    have := maybeSqrt_some hs
    exact ⟨(key s).2 this.1, this.2⟩
  · rw [← Option.not_isSome_iff_eq_none, maybeSqrt_isSome_iff, not_iff_not]
    constructor
    · rintro ⟨s, hs⟩
      exact ⟨(s.val : Int), (key _).2 (by rw [Int.cast_natCast, ZMod.natCast_zmod_val]; exact hs)⟩
    · rintro ⟨s, hs⟩
      exact ⟨s, (key s).1 hs⟩

/-- Non-vacuity: 4 has the root 2 up to sign, and 5 has none (kernel computations). -/
example : maybeSqrt 4 = some 2 ∨ maybeSqrt 4 = some (q - 2) := by decide +kernel
example : maybeSqrt 5 = none := by decide +kernel

end Verif.Props
