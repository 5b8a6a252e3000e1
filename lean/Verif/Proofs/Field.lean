import Verif.Model.Field
import Verif.Spec.Arith
import Verif.Proofs.Bytes
import Verif.Lib.Group

/-! Helper lemmas about the field model. -/
namespace Verif.Field

theorem q_pos : (0 : Int) < q := by decide +kernel
theorem q_lt : q < 2 ^ 256 := by decide +kernel
theorem q_eq : q = (secp256k1P : Nat) := rfl

theorem modQ_eq (v : Int) : modQ v = v % q := by
  rw [modQ]
  split
  · rfl
  · rename_i h
    rw [Ne, BigInt.cmp_eq_neg_one, BigInt.cmp_eq_neg_one] at h
    exact (Int.emod_eq_of_lt (by omega) (by omega)).symm

theorem represents_modQ (v : Int) : Represents secp256k1P (modQ v) (v : Fq) := by
  rw [modQ_eq]
  refine ⟨Int.emod_nonneg _ (ne_of_gt q_pos), Int.emod_lt_of_pos _ q_pos, ?_⟩
  rw [q_eq, ZMod.intCast_mod]

theorem cast_modQ (v : Int) : ((modQ v : Int) : Fq) = (v : Fq) := (represents_modQ v).2.2

theorem modQ_range (v : Int) : 0 ≤ modQ v ∧ modQ v < q :=
  ⟨(represents_modQ v).1, (represents_modQ v).2.1⟩

theorem modQ_of_range {v : Int} (h0 : 0 ≤ v) (h1 : v < q) : modQ v = v := by
  rw [modQ_eq]; exact Int.emod_eq_of_lt h0 h1

theorem modQ_idem (v : Int) : modQ (modQ v) = modQ v :=
  modQ_of_range (modQ_range v).1 (modQ_range v).2

theorem cast_eq_iff (a b : Int) : ((a : Fq) = (b : Fq)) ↔ modQ a = modQ b := by
  rw [ZMod.intCast_eq_intCast_iff', modQ_eq, modQ_eq]; rfl

theorem cast_inj_of_range {a b : Int} (ha : 0 ≤ a ∧ a < q) (hb : 0 ≤ b ∧ b < q) :
    (a : Fq) = (b : Fq) ↔ a = b := by
  rw [cast_eq_iff, modQ_of_range ha.1 ha.2, modQ_of_range hb.1 hb.2]

theorem equal_iff (a b : Int) : equal a b = true ↔ (a : Fq) = (b : Fq) := by
  rw [equal, beq_iff_eq, sub, ← sub_eq_zero (a := (a : Fq)), ← Int.cast_sub]
  have : modQ (a - b) = 0 ↔ modQ (a - b) = modQ 0 := by
    rw [modQ_of_range (le_refl 0) q_pos]
  rw [this, ← cast_eq_iff]; simp

theorem cast_exp (x : Int) (e : Nat) (he : e < 2 ^ 512) :
    ((BigInt.exp x e secp256k1P : Int) : Fq) = (x : Fq) ^ e :=
  BigInt.exp_cast x e _ P_pos he

theorem cast_square (y : Int) : ((square y : Int) : Fq) = (y : Fq) ^ 2 := by
  rw [square, fromBigInt, cast_modQ, cast_exp _ _ (by decide +kernel)]

theorem cast_rightHandSide (x : Int) : ((rightHandSide x : Int) : Fq) = (x : Fq) ^ 3 + 7 := by
  rw [rightHandSide, add, cast_modQ, Int.cast_add, cast_exp _ _ (by decide +kernel), seven, fromInt, cast_modQ,
    fromBigInt, cast_modQ]
  norm_num

/-- In the base field, `v^((q+1)/4)` is a root of every square `v`. -/
theorem pow_sqrtPower {v : Fq} (h : ∃ s, s ^ 2 = v) : (v ^ sqrtPower) ^ 2 = v := by
  obtain ⟨s, rfl⟩ := h
  rw [← pow_mul, ← pow_mul]
  have e : 2 * (sqrtPower * 2) = secp256k1P + 1 := by decide +kernel
  rw [e, pow_succ, ZMod.pow_card, pow_two]

theorem maybeSqrt_some {v s : Int} (h : maybeSqrt v = some s) :
    (s : Fq) ^ 2 = (v : Fq) ∧ 0 ≤ s ∧ s < q := by
  rw [maybeSqrt] at h
  split at h
  · cases h
  · rename_i hc
    simp only [Option.some.injEq] at h
    subst h
    simp only [Bool.not_eq_true', Bool.not_eq_false] at hc
    rw [equal_iff, cast_square] at hc
    exact ⟨hc, BigInt.exp_range _ _ _ P_pos⟩

theorem maybeSqrt_isSome_iff (v : Int) : (maybeSqrt v).isSome = true ↔ ∃ s : Fq, s ^ 2 = (v : Fq) := by
  constructor
  · intro h
    obtain ⟨s, hs⟩ := Option.isSome_iff_exists.1 h
    exact ⟨s, (maybeSqrt_some hs).1⟩
  · intro h
    have := pow_sqrtPower h
    rw [maybeSqrt]
    rw [if_neg, Option.isSome_some]
    simp only [Bool.not_eq_true', Bool.not_eq_false]
    rw [equal_iff, cast_square, cast_exp _ _ (by decide +kernel)]
    exact this

theorem natAbs_lt_of_range {v : Int} (h0 : 0 ≤ v) (h1 : v < q) : v.natAbs < 256 ^ 32 := by
  have h2 := q_lt
  norm_num at h2 ⊢
  omega

theorem bytes_eq (f : Int) : bytes f =
    .ok (List.replicate (32 - (BigInt.bytes (modQ f)).length) 0 ++ BigInt.bytes (modQ f)) := by
  have hr := modQ_range f
  have hl := BigInt.length_bytes_le (natAbs_lt_of_range hr.1 hr.2)
  rw [bytes]
  rw [if_neg (Nat.not_lt.2 hl)]

theorem bytes_spec (f : Int) : ∃ bs, bytes f = .ok bs ∧ bs.length = 32 ∧ (beNat bs : Int) = modQ f := by
  have hr := modQ_range f
  refine ⟨_, bytes_eq f, BigInt.length_pad (natAbs_lt_of_range hr.1 hr.2), ?_⟩
  rw [beNat_replicate_zero, BigInt.beNat_bytes]
  omega

theorem val_of_range {v : Int} (h : 0 ≤ v ∧ v < q) : (((v : Fq)).val : Int) = v := by
  rw [ZMod.val_intCast]
  exact Int.emod_eq_of_lt h.1 h.2

theorem isEven_iff {v : Int} (h : 0 ≤ v ∧ v < q) : isEven v = true ↔ ((v : Fq)).val % 2 = 0 := by
  have := val_of_range h
  rw [isEven, beq_iff_eq, BigInt.mod]
  omega

end Verif.Field
