import Verif.Model.Scalar
import Verif.Spec.Arith
import Verif.Proofs.Bytes

/-! Helper lemmas about the scalar model. -/
namespace Verif.Scalar

theorem order_pos : (0 : Int) < GroupOrder := by decide +kernel
theorem order_gt_one : (1 : Int) < GroupOrder := by decide +kernel
theorem order_lt : GroupOrder < 2 ^ 256 := by decide +kernel
theorem order_eq : GroupOrder = (secp256k1N : Nat) := rfl

theorem represents_modG (v : Int) : Represents secp256k1N (modG v) (v : Fn) := by
  refine ⟨Int.emod_nonneg _ (ne_of_gt order_pos), Int.emod_lt_of_pos _ order_pos, ?_⟩
  rw [modG, BigInt.mod, order_eq, ZMod.intCast_mod]

theorem cast_modG (v : Int) : ((modG v : Int) : Fn) = (v : Fn) := (represents_modG v).2.2

theorem modG_range (v : Int) : 0 ≤ modG v ∧ modG v < GroupOrder :=
  ⟨(represents_modG v).1, (represents_modG v).2.1⟩

theorem modG_of_range {v : Int} (h0 : 0 ≤ v) (h1 : v < GroupOrder) : modG v = v :=
  Int.emod_eq_of_lt h0 h1

theorem modG_idem (v : Int) : modG (modG v) = modG v :=
  modG_of_range (modG_range v).1 (modG_range v).2

theorem cast_eq_iff (a b : Int) : ((a : Fn) = (b : Fn)) ↔ modG a = modG b := by
  rw [ZMod.intCast_eq_intCast_iff']; rfl

theorem equal_iff (a b : Int) : equal a b = true ↔ (a : Fn) = (b : Fn) := by
  rw [equal, beq_iff_eq, ← sub_eq_zero (a := (a : Fn)), ← Int.cast_sub]
  have : BigInt.mod (a - b) GroupOrder = 0 ↔ modG (a - b) = modG 0 := by
    rw [modG_of_range (le_refl 0) order_pos]; rfl
  rw [this, ← cast_eq_iff]; simp

theorem natAbs_lt_of_range {v : Int} (h0 : 0 ≤ v) (h1 : v < GroupOrder) : v.natAbs < 256 ^ 32 := by
  have h2 := order_lt
  norm_num at h2 ⊢
  omega

theorem marshalBinary_eq (s : Int) : marshalBinary s =
    .ok (List.replicate (32 - (BigInt.bytes (modG s)).length) 0 ++ BigInt.bytes (modG s)) := by
  have hr := modG_range s
  have hl := BigInt.length_bytes_le (natAbs_lt_of_range hr.1 hr.2)
  have hp := BigInt.length_pad (natAbs_lt_of_range hr.1 hr.2)
  have h1 : ¬ marshalSize < (BigInt.bytes (modG s)).length := Nat.not_lt.2 hl
  have h2 : ¬ (List.replicate (marshalSize - (BigInt.bytes (modG s)).length) (0 : UInt8) ++
      BigInt.bytes (modG s)).length ≠ marshalSize := fun h => h hp
  rw [marshalBinary]
  dsimp only
  rw [if_neg h1, if_neg h2]; rfl

theorem marshalBinary_spec (s : Int) : ∃ bs, marshalBinary s = .ok bs ∧ bs.length = 32 ∧
    (beNat bs : Int) = modG s := by
  have hr := modG_range s
  refine ⟨_, marshalBinary_eq s, BigInt.length_pad (natAbs_lt_of_range hr.1 hr.2), ?_⟩
  rw [beNat_replicate_zero, BigInt.beNat_bytes]
  omega

end Verif.Scalar
