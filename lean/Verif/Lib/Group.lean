import Verif.Lib.Order
import Mathlib.GroupTheory.Perm.Cycle.Type
import Mathlib.GroupTheory.SpecificGroups.Cyclic
import Mathlib.FieldTheory.Finite.Basic

/-!
The group of points of secp256k1 has exactly `secp256k1N` elements, hence is cyclic, generated by
`secpG`, and every point is killed by `secp256k1N`.
-/
namespace Verif

theorem P_odd : secp256k1P % 2 = 1 := by decide +kernel
theorem P_pos : 0 < secp256k1P := by decide +kernel
theorem N_pos : 0 < secp256k1N := by decide +kernel
theorem N_lt_P : secp256k1N < secp256k1P := by decide +kernel
theorem P_lt : secp256k1P < 2 ^ 256 := by decide +kernel
theorem N_lt : secp256k1N < 2 ^ 256 := by decide +kernel

/-- Negation flips the parity of the representative of a nonzero residue. -/
theorem neg_val_parity (y : Fq) (hy : y ≠ 0) : (-y).val % 2 ≠ y.val % 2 := by
  have : NeZero y := ⟨hy⟩
  rw [ZMod.val_neg_of_ne_zero]
  have h1 := ZMod.val_lt y
  have h2 := P_odd
  omega

/-- Two square roots of the same residue with the same parity are equal. -/
theorem sqrt_parity_unique {y y' : Fq} (h : y ^ 2 = y' ^ 2) (hp : y.val % 2 = y'.val % 2) :
    y = y' := by
  have e : (y - y') * (y + y') = 0 := by linear_combination h
  rcases mul_eq_zero.1 e with e | e
  · linear_combination e
  · have hy : y = -y' := by linear_combination e
    by_cases h0 : y' = 0
    · rw [hy, h0, neg_zero]
    · exact absurd (hy ▸ hp) (neg_val_parity y' h0)

/-- A point is determined by its x ordinate and the parity of y. -/
def compress : SecpPoint → Option (Fq × Bool)
  | .zero => none
  | .some x y _ => some (x, y.val % 2 == 1)

theorem compress_injective : Function.Injective compress := by
  intro P Q h
  rcases point_cases P with rfl | ⟨x, y, hx, rfl⟩ <;>
    rcases point_cases Q with rfl | ⟨x', y', hx', rfl⟩
  · rfl
  · cases h
  · cases h
  · simp only [compress, mkPoint, Option.some.injEq, Prod.mk.injEq] at h
    obtain ⟨rfl, h⟩ := h
    have hp : y.val % 2 = y'.val % 2 := by
      rcases Nat.mod_two_eq_zero_or_one y.val with a | a <;>
        rcases Nat.mod_two_eq_zero_or_one y'.val with b | b <;> simp_all
    have := sqrt_parity_unique (hx.trans hx'.symm) hp
    subst this; rfl

instance : Finite SecpPoint := Finite.of_injective compress compress_injective

theorem card_le : Nat.card SecpPoint ≤ 2 * secp256k1P + 1 := by
  have h := Nat.card_le_card_of_injective compress compress_injective
  refine h.trans ?_
  rw [Finite.card_option, Nat.card_prod, Nat.card_zmod, Nat.card_eq_fintype_card, Fintype.card_bool]
  omega

theorem addOrderOf_secpG : addOrderOf secpG = secp256k1N :=
  addOrderOf_eq_prime n_smul_secpG secpG_ne_zero

/-- `-7` is not a cube, so there is no point of order two. -/
theorem no_two_torsion (P : SecpPoint) (h : P + P = 0) : P = 0 := by
  rcases point_cases P with rfl | ⟨x, y, hx, rfl⟩
  · rfl
  · exfalso
    have h1 := (add_eq_zero_X h).2
    simp only [coords_mkPoint] at h1
    have hy : y = 0 := by
      have : 2 * y = 0 := by linear_combination h1
      exact (mul_eq_zero.1 this).resolve_left two_ne_zero_Fq
    have h7 : x ^ 3 = ((secp256k1P - 7 : Nat) : Fq) := by
      rw [cast_P_sub (by decide +kernel)]
      have := hx
      rw [hy] at this
      push_cast
      linear_combination -this
    have hx0 : x ≠ 0 := by
      rintro rfl
      have := hx
      rw [hy] at this
      exact not_onCurve_zero this
    have h8 := ZMod.pow_card_sub_one_eq_one hx0
    have h9 : ((secp256k1P - 7 : Nat) : Fq) ^ ((secp256k1P - 1) / 3) = 1 := by
      rw [← h7, ← pow_mul]
      have : 3 * ((secp256k1P - 1) / 3) = secp256k1P - 1 := by decide +kernel
      rw [this]; exact h8
    rw [← powMod_cast _ _ _ (by decide +kernel)] at h9
    have : ((powMod (secp256k1P - 7) ((secp256k1P - 1) / 3) secp256k1P : Nat) : Fq) ≠ ((1 : Nat) : Fq) :=
      natCast_Fq_ne (by decide +kernel)
    exact this (by rw [h9]; simp)

/-- secp256k1 has exactly `secp256k1N` points. -/
theorem card_secp : Nat.card SecpPoint = secp256k1N := by
  have hd : secp256k1N ∣ Nat.card SecpPoint := addOrderOf_secpG ▸ addOrderOf_dvd_natCard secpG
  obtain ⟨k, hk⟩ := hd
  have hpos : 0 < Nat.card SecpPoint := Nat.card_pos
  have hle := card_le
  have h3 : 2 * secp256k1P + 1 < 3 * secp256k1N := by decide +kernel
  have hk3 : k < 3 := by
    by_contra hc
    have : secp256k1N * 3 ≤ secp256k1N * k := Nat.mul_le_mul_left _ (by omega)
    omega
  have hk0 : k ≠ 0 := by rintro rfl; omega
  have hk2 : k ≠ 2 := by
    rintro rfl
    have : Fact (Nat.Prime 2) := ⟨Nat.prime_two⟩
    obtain ⟨P, hP⟩ := exists_prime_addOrderOf_dvd_card' (G := SecpPoint) 2 ⟨secp256k1N, by omega⟩
    have h2 : P + P = 0 := by
      rw [← two_nsmul, ← hP]; exact addOrderOf_nsmul_eq_zero P
    have := no_two_torsion P h2
    rw [this, addOrderOf_zero] at hP
    exact absurd hP (by decide)
  have : k = 1 := by omega
  rw [hk, this, mul_one]

/-- Every point is killed by the group order. -/
theorem n_smul_eq_zero (P : SecpPoint) : secp256k1N • P = 0 := by
  rw [← card_secp]; exact card_nsmul_eq_zero'

theorem nsmul_mod (k : Nat) (P : SecpPoint) : (k % secp256k1N) • P = k • P := by
  conv_rhs => rw [← Nat.mod_add_div k secp256k1N, add_smul, mul_comm, mul_smul, n_smul_eq_zero,
    nsmul_zero, add_zero]

theorem nsmul_congr {k k' : Nat} (h : k % secp256k1N = k' % secp256k1N) (P : SecpPoint) :
    k • P = k' • P := by
  rw [← nsmul_mod k, ← nsmul_mod k', h]

/-- Every point is a multiple of the generator. -/
theorem exists_nsmul_secpG (P : SecpPoint) : ∃ k, k < secp256k1N ∧ P = k • secpG := by
  have h : P ∈ AddSubgroup.zmultiples secpG := by
    have hc : Nat.card (AddSubgroup.zmultiples secpG) = Nat.card SecpPoint := by
      rw [Nat.card_zmultiples, addOrderOf_secpG, card_secp]
    rw [AddSubgroup.eq_top_of_card_eq _ hc]; trivial
  rw [← mem_multiples_iff_mem_zmultiples] at h
  obtain ⟨k, hk⟩ := h
  exact ⟨k % secp256k1N, Nat.mod_lt _ N_pos, by rw [nsmul_mod]; exact hk.symm⟩

theorem nsmul_inj_mod {P : SecpPoint} (hP : P ≠ 0) (k k' : Nat) :
    k • P = k' • P ↔ k % secp256k1N = k' % secp256k1N := by
  have : addOrderOf P = secp256k1N := addOrderOf_eq_prime (n_smul_eq_zero P) hP
  rw [nsmul_eq_nsmul_iff_modEq, this]; rfl

theorem nsmul_eq_zero_iff {P : SecpPoint} (hP : P ≠ 0) (k : Nat) :
    k • P = 0 ↔ k % secp256k1N = 0 := by
  have := nsmul_inj_mod hP k 0
  simpa using this

end Verif
