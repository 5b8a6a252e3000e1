import Verif.Proofs.Scalar

/-!
Properties C01, C02, C03, C67: scalar.go.
-/
namespace Verif.Props
open Verif.Scalar

/-- C01. Every scalar operation yields the canonical representative of the ring operation in Z/nZ, for all
operand values (also unreduced or negative ones). -/
theorem C01_scalar_ops (a b : Int) (bs : List UInt8) :
    Represents secp256k1N (add a b) ((a : Fn) + (b : Fn)) ∧
    Represents secp256k1N (sub a b) ((a : Fn) - (b : Fn)) ∧
    Represents secp256k1N (neg a) (-(a : Fn)) ∧
    Represents secp256k1N (mul a b) ((a : Fn) * (b : Fn)) ∧
    Represents secp256k1N (set a) (a : Fn) ∧
    Represents secp256k1N (clone a) (a : Fn) ∧
    Represents secp256k1N (newScalar a) (a : Fn) ∧
    Represents secp256k1N (intToScalar a) (a : Fn) ∧
    Represents secp256k1N (setInt64 a) (a : Fn) ∧
    Represents secp256k1N (setBytes bs) ((beNat bs : Nat) : Fn) ∧
    Represents secp256k1N zero (0 : Fn) ∧
    Represents secp256k1N one (1 : Fn) := by
  have h := represents_modG
  refine ⟨?_, ?_, ?_, ?_, h a, h a, h a, h a, h a, ?_, ?_, ?_⟩
  · simpa [add] using h (a + b)
  · simpa [sub] using h (a - b)
  · simpa [neg] using h (-a)
  · simpa [mul] using h (a * b)
  · simpa [setBytes, BigInt.setBytes_eq] using h (BigInt.setBytes bs)
  · simpa [zero, setInt64] using h 0
  · simpa [one, setInt64] using h 1

/-- Non-vacuity: -1 + 0 is the largest scalar. -/
example : add (-1) 0 = GroupOrder - 1 ∧ sub 2 5 = GroupOrder - 3 ∧
    mul (GroupOrder - 1) (GroupOrder - 1) = 1 := by decide +kernel

/-- `Equal` decides equality in Z/nZ. -/
theorem C01_scalar_equal (a b : Int) : equal a b = true ↔ (a : Fn) = (b : Fn) := equal_iff a b

example : equal (-1) (GroupOrder - 1) = true ∧ equal 1 2 = false := by decide +kernel

theorem coprime_of_ne_zero {b : Int} (h : (b : Fn) ≠ 0) : Int.gcd b GroupOrder = 1 := by
  have hp : Nat.Prime secp256k1N := Fact.out
  rw [Int.gcd_comm]
  change Nat.gcd secp256k1N b.natAbs = 1
  refine (Nat.Prime.coprime_iff_not_dvd hp).2 ?_
  intro hd
  apply h
  rw [ZMod.intCast_zmod_eq_zero_iff_dvd]
  exact Int.natCast_dvd.2 hd

theorem modInverse_isSome {b : Int} (h : (b : Fn) ≠ 0) : ∃ i, BigInt.modInverse b GroupOrder = some i ∧
    Represents secp256k1N i ((b : Fn)⁻¹) := by
  have hg := coprime_of_ne_zero h
  cases hi : BigInt.modInverse b GroupOrder with
  | none => exact absurd hg (BigInt.modInverse_none_iff.1 hi)
  | some i =>
    obtain ⟨h0, h1, h2⟩ := BigInt.modInverse_spec order_gt_one hi
    refine ⟨i, rfl, h0, h1, ?_⟩
    have : ((b * i : Int) : Fn) = ((1 : Int) : Fn) := by
      rw [cast_eq_iff, modG, modG, BigInt.mod, BigInt.mod, h2]; rfl
    push_cast at this
    exact eq_inv_of_mul_eq_one_right this

/-- C02 (division). For every `a` and every `b` nonzero mod n, `Div` returns the canonical representative of
`a / b` in the field Z/nZ, so multiplying it by `b` gives `a` back. -/
theorem C02_div (a b : Int) (hb : (b : Fn) ≠ 0) :
    ∃ d, div a b = .ok d ∧ Represents secp256k1N d ((a : Fn) / (b : Fn)) ∧ mul d b = set a := by
  obtain ⟨i, hi, hr⟩ := modInverse_isSome hb
  have hb0 : b ≠ 0 := by rintro rfl; exact hb (by simp)
  have hd := represents_modG (a * i)
  refine ⟨modG (a * i), by simp [div, hb0, hi], ⟨hd.1, hd.2.1, ?_⟩, ?_⟩
  · rw [hd.2.2]; push_cast; rw [hr.2.2, div_eq_mul_inv]
  · have : modG (modG (a * i) * b) = modG a := by
      rw [← cast_eq_iff]; push_cast
      rw [cast_modG]; push_cast; rw [hr.2.2, mul_assoc, inv_mul_cancel₀ hb, mul_one]
    exact this

/-- C02 (inverse). For every `a` nonzero mod n and every old receiver value, `Inv` returns the canonical
inverse, and the product with `a` is one. -/
theorem C02_inv (s a : Int) (ha : (a : Fn) ≠ 0) :
    ∃ i, inv s a = .ok i ∧ Represents secp256k1N i ((a : Fn)⁻¹) ∧ mul a i = one := by
  obtain ⟨i, hi, hr⟩ := modInverse_isSome ha
  have ha0 : a ≠ 0 := by rintro rfl; exact ha (by simp)
  refine ⟨i, by simp [inv, ha0, hi], hr, ?_⟩
  have : modG (a * i) = modG 1 := by
    rw [← cast_eq_iff]; push_cast; rw [hr.2.2, mul_inv_cancel₀ ha]
  exact this

/-- C02 (panics). On reduced operands `Div` and `Inv` panic exactly for the divisor 0; they never return an
error. -/
theorem C02_panic_iff (s a b : Int) (h0 : 0 ≤ b) (h1 : b < GroupOrder) :
    (div a b = .panic ↔ b = 0) ∧ (inv s b = .panic ↔ b = 0) := by
  have key : b ≠ 0 → (b : Fn) ≠ 0 := by
    intro hb e
    have : ((b : Int) : Fn) = ((0 : Int) : Fn) := by simpa using e
    rw [cast_eq_iff, modG_of_range h0 h1, modG_of_range (le_refl 0) order_pos] at this
    exact hb this
  constructor
  · constructor
    · intro h
      by_contra hb
      obtain ⟨d, hd, _⟩ := C02_div a b (key hb)
      rw [hd] at h; cases h
    · rintro rfl; simp [div]
  · constructor
    · intro h
      by_contra hb
      obtain ⟨d, hd, _⟩ := C02_inv s b (key hb)
      rw [hd] at h; cases h
    · rintro rfl; simp [inv]

example : ∃ d, div 1 2 = .ok d ∧ mul d 2 = 1 := by
  obtain ⟨d, h1, _, h2⟩ := C02_div 1 2 (by
    intro h
    have : ((2 : Int) : Fn) = ((0 : Int) : Fn) := by simpa using h
    rw [cast_eq_iff] at this
    exact absurd this (by decide +kernel))
  exact ⟨d, h1, by rw [h2]; decide +kernel⟩

/-- What happens outside the contract: for an unreduced nonzero multiple of the order, `Inv` silently keeps the
old value of the receiver (a finding; scalars built through the package API are always reduced, C01). -/
theorem C02_inv_unreduced (s : Int) : inv s GroupOrder = .ok s ∧ div s GroupOrder = .panic := by
  have h : BigInt.modInverse GroupOrder GroupOrder = none := by decide +kernel
  have h0 : GroupOrder ≠ 0 := ne_of_gt order_pos
  exact ⟨by simp [inv, h, h0], by simp [div, h, h0]⟩

/-- C03. `MarshalBinary` always succeeds with exactly 32 bytes, whose big-endian value is the canonical
representative, and decoding gives that representative back. -/
theorem C03_roundtrip (s : Int) : ∃ bs, marshalBinary s = .ok bs ∧ bs.length = 32 ∧
    Represents secp256k1N (beNat bs : Nat) (s : Fn) ∧
    unmarshalBinary bs = .ok (set s) ∧ ((0 ≤ s ∧ s < GroupOrder) → unmarshalBinary bs = .ok s) := by
  obtain ⟨bs, h1, h2, h3⟩ := marshalBinary_spec s
  have hu : unmarshalBinary bs = .ok (modG s) := by
    rw [unmarshalBinary, if_neg (by rw [h2]; simp [marshalSize]), BigInt.setBytes_eq, h3]
    change Outcome.ok (modG (modG s)) = _
    rw [modG_idem]
  refine ⟨bs, h1, h2, ?_, hu, ?_⟩
  · rw [h3]; exact represents_modG s
  · rintro ⟨a, b⟩; rw [hu, modG_of_range a b]

/-- C03 (decoding). `UnmarshalBinary` accepts exactly the 32-byte strings and yields the canonical
representative of their big-endian value. -/
theorem C03_unmarshal (bs : List UInt8) :
    (bs.length = 32 → ∃ s, unmarshalBinary bs = .ok s ∧ Represents secp256k1N s ((beNat bs : Nat) : Fn)) ∧
    (bs.length ≠ 32 → unmarshalBinary bs = .err) := by
  constructor
  · intro h
    refine ⟨modG (beNat bs : Nat), ?_, ?_⟩
    · rw [unmarshalBinary, if_neg (by rw [h]; simp [marshalSize]), BigInt.setBytes_eq]; rfl
    · simpa using represents_modG ((beNat bs : Nat) : Int)
  · intro h
    rw [unmarshalBinary]; exact if_pos h

/-- C03 (canonical). Two scalars are `Equal` iff their encodings are the same bytes. -/
theorem C03_equal_iff_bytes (a b : Int) : equal a b = true ↔ marshalBinary a = marshalBinary b := by
  rw [equal_iff, cast_eq_iff]
  constructor
  · intro h; rw [marshalBinary_eq, marshalBinary_eq, h]
  · intro h
    obtain ⟨bs, h1, _, h3⟩ := marshalBinary_spec a
    obtain ⟨bs', h1', _, h3'⟩ := marshalBinary_spec b
    rw [h1, h1'] at h
    cases h
    rw [← h3, ← h3']

example : marshalBinary 258 = .ok (List.replicate 30 0 ++ [1, 2]) := by decide +kernel
example : unmarshalBinary (List.replicate 32 255) = .ok (2 ^ 256 - 1 - GroupOrder) := by decide +kernel

/-- C67 is false of the code: `RepresentsScalar` accepts every negative integer. -/
theorem C67_counterexample : representsScalar (-1) = true ∧ ¬ (0 ≤ (-1 : Int)) := by decide +kernel

/-- C67, what does hold: on non-negative integers `RepresentsScalar` is exactly the range test. Missing from the
full claim `representsScalar i = true ↔ 0 ≤ i ∧ i < n`: the lower bound (see `C67_counterexample`). -/
theorem C67_representsScalar_partial (i : Int) :
    (representsScalar i = true ↔ i < GroupOrder) ∧
    (0 ≤ i → (representsScalar i = true ↔ ∃ z : Fn, Represents secp256k1N i z)) := by
  have h1 : representsScalar i = true ↔ i < GroupOrder := by simp [representsScalar]
  refine ⟨h1, fun h0 => h1.trans ⟨fun h => ⟨i, h0, h, rfl⟩, fun ⟨z, h⟩ => h.2.1⟩⟩

example : representsScalar (GroupOrder - 1) = true ∧ representsScalar GroupOrder = false := by
  decide +kernel

end Verif.Props
