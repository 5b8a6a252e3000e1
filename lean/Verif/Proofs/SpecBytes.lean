import Verif.Spec.Schnorr
import Verif.Proofs.Bytes
import Verif.Proofs.Field

/-! The specification byte strings and the code's agree. -/
namespace Verif.Spec

@[simp] theorem length_toBE (len v : Nat) : (toBE len v).length = len := by
  induction len generalizing v with
  | zero => rfl
  | succ n ih => rw [toBE, List.length_append, ih]; rfl

theorem beNat_toBE (len v : Nat) : beNat (toBE len v) = v % 256 ^ len := by
  induction len generalizing v with
  | zero => simp [toBE, beNat, Nat.mod_one]
  | succ n ih =>
    rw [toBE, beNat_append, ih]
    have h : beNat [UInt8.ofNat (v % 256)] = v % 256 := by
      simp [beNat]
    rw [h, List.length_singleton, pow_one, Nat.pow_succ', Nat.mod_mul]
    omega

theorem toBE_beNat (bs : List UInt8) : toBE bs.length (beNat bs) = bs := by
  apply beNat_injective
  · simp
  · rw [beNat_toBE, Nat.mod_eq_of_lt (beNat_lt bs)]

theorem eq_toBE {bs : List UInt8} {len v : Nat} (hl : bs.length = len) (h : beNat bs = v) : bs = toBE len v := by
  rw [← hl, ← h, toBE_beNat]

theorem byteLen_rec {n : Nat} (h : n ≠ 0) : byteLen n = byteLen (n / 256) + 1 := by
  rw [byteLen, if_neg h, byteLen]
  by_cases h2 : n < 256
  · rw [if_pos (by omega)]
    have : n.log2 < 8 := (Nat.log2_lt h).2 h2
    omega
  · rw [if_neg (by omega)]
    have : n.log2 = (n / 256).log2 + 8 := by
      have d : ∀ m, 2 ≤ m → m.log2 = (m / 2).log2 + 1 := fun m hm => by
        rw [Nat.log2_def m, if_pos hm]
      rw [d n (by omega), d (n / 2) (by omega), d (n / 2 / 2) (by omega), d (n / 2 / 2 / 2) (by omega),
        d (n / 2 / 2 / 2 / 2) (by omega), d (n / 2 / 2 / 2 / 2 / 2) (by omega),
        d (n / 2 / 2 / 2 / 2 / 2 / 2) (by omega), d (n / 2 / 2 / 2 / 2 / 2 / 2 / 2) (by omega)]
      simp only [Nat.div_div_eq_div_mul]
    omega

theorem bytesAux_eq (f n : Nat) (h : n ≤ f) : BigInt.bytesAux f n = toBE (byteLen n) n := by
  induction f generalizing n with
  | zero => obtain rfl : n = 0 := by omega
            rfl
  | succ f ih =>
    rw [BigInt.bytesAux]
    by_cases h0 : n = 0
    · rw [if_pos h0, h0]; rfl
    · rw [if_neg h0, ih (n / 256) (by omega), byteLen_rec h0, toBE]

theorem bytes_eq (m : Int) : BigInt.bytes m = toBE (byteLen m.natAbs) m.natAbs :=
  bytesAux_eq _ _ (le_refl _)

theorem toBE_byteLen_inj {m m' : Nat} (h : toBE (byteLen m) m = toBE (byteLen m') m') : m = m' := by
  have e1 := bytes_eq (m : Int)
  have e2 := bytes_eq (m' : Int)
  rw [Int.natAbs_natCast] at e1 e2
  have h1 := BigInt.beNat_bytes (m : Int)
  have h2 := BigInt.beNat_bytes (m' : Int)
  rw [e1] at h1
  rw [e2] at h2
  rw [Int.natAbs_natCast] at h1 h2
  rw [← h1, h, h2]

theorem field_bytes_eq {x : Int} (h : 0 ≤ x ∧ x < Field.q) : Field.bytes x = .ok (toBE 32 x.toNat) := by
  obtain ⟨bs, h1, h2, h3⟩ := Field.bytes_spec x
  rw [Field.modQ_of_range h.1 h.2] at h3
  rw [h1, eq_toBE h2 (v := x.toNat) (by omega)]

theorem field_bytes_eq' (x : Int) : Field.bytes x = .ok (toBE 32 (Field.modQ x).toNat) := by
  obtain ⟨bs, h1, h2, h3⟩ := Field.bytes_spec x
  have := Field.modQ_range x
  rw [h1, eq_toBE h2 (v := (Field.modQ x).toNat) (by omega)]

end Verif.Spec
