import Verif.Model.BigInt
import Mathlib.Data.List.Basic
import Mathlib.Tactic.Ring
import Mathlib.Data.Int.Basic
import Mathlib.Tactic.Linarith

/-! Positional lemmas about big-endian byte strings. -/
namespace Verif

@[simp] theorem beNat_nil : beNat [] = 0 := rfl

theorem beNat_append_singleton (bs : List UInt8) (b : UInt8) :
    beNat (bs ++ [b]) = beNat bs * 256 + b.toNat := by
  simp [beNat, List.foldl_append]

theorem foldl_be (bs : List UInt8) (a : Nat) :
    bs.foldl (fun acc b => acc * 256 + b.toNat) a = a * 256 ^ bs.length + beNat bs := by
  induction bs generalizing a with
  | nil => simp [beNat]
  | cons b bs ih =>
    have e : beNat (b :: bs) = bs.foldl (fun acc b => acc * 256 + b.toNat) (0 * 256 + b.toNat) := rfl
    rw [e, List.foldl_cons, List.length_cons, ih, ih, pow_succ]; ring

theorem beNat_cons (b : UInt8) (bs : List UInt8) :
    beNat (b :: bs) = b.toNat * 256 ^ bs.length + beNat bs := by
  conv_lhs => rw [beNat, List.foldl_cons, foldl_be, Nat.zero_mul, Nat.zero_add]

theorem beNat_append (xs ys : List UInt8) :
    beNat (xs ++ ys) = beNat xs * 256 ^ ys.length + beNat ys := by
  conv_lhs => rw [beNat, List.foldl_append, foldl_be, ← beNat]

theorem beNat_lt (bs : List UInt8) : beNat bs < 256 ^ bs.length := by
  induction bs with
  | nil => simp
  | cons b bs ih =>
    rw [beNat_cons, List.length_cons, pow_succ]
    have := b.toNat_lt
    have h2 : b.toNat + 1 ≤ 256 := by omega
    nlinarith [Nat.mul_le_mul_right (256 ^ bs.length) h2]

theorem beNat_replicate_zero (k : Nat) (bs : List UInt8) :
    beNat (List.replicate k 0 ++ bs) = beNat bs := by
  induction k with
  | zero => simp
  | succ k ih => rw [List.replicate_succ, List.cons_append, beNat_cons, ih]; simp

theorem beNat_injective {xs ys : List UInt8} (hl : xs.length = ys.length) (h : beNat xs = beNat ys) :
    xs = ys := by
  induction xs generalizing ys with
  | nil => cases ys with
    | nil => rfl
    | cons => cases hl
  | cons x xs ih =>
    cases ys with
    | nil => cases hl
    | cons y ys =>
      simp only [List.length_cons, Nat.add_right_cancel_iff] at hl
      rw [beNat_cons, beNat_cons, hl] at h
      have h1 := beNat_lt xs
      have h2 := beNat_lt ys
      rw [hl] at h1
      have hx : x.toNat = y.toNat := by
        rcases Nat.lt_trichotomy x.toNat y.toNat with hc | hc | hc
        · exfalso
          have := Nat.mul_le_mul_right (256 ^ ys.length) hc
          rw [Nat.succ_mul] at this
          omega
        · exact hc
        · exfalso
          have := Nat.mul_le_mul_right (256 ^ ys.length) hc
          rw [Nat.succ_mul] at this
          omega
      have hb : beNat xs = beNat ys := by rw [hx] at h; omega
      rw [ih hl hb, UInt8.toNat_inj.1 hx]

namespace BigInt

theorem setBytes_eq (bs : List UInt8) : setBytes bs = (beNat bs : Nat) := rfl

theorem beNat_bytesAux : ∀ (f n : Nat), n ≤ f → beNat (bytesAux f n) = n
  | 0, n, h => by simp only [bytesAux]; simp; omega
  | f + 1, n, h => by
    rw [bytesAux]
    split
    · simp [*]
    · rw [beNat_append_singleton, beNat_bytesAux f (n / 256) (by omega)]
      have : (UInt8.ofNat (n % 256)).toNat = n % 256 := by
        rw [UInt8.toNat_ofNat']; omega
      rw [this]; omega

theorem beNat_bytes (x : Int) : beNat (bytes x) = x.natAbs := beNat_bytesAux _ _ (le_refl _)

theorem length_bytesAux : ∀ (f n k : Nat), n < 256 ^ k → (bytesAux f n).length ≤ k
  | 0, n, k, _ => by simp [bytesAux]
  | f + 1, n, 0, h => by
    have : n = 0 := by simpa using h
    simp [bytesAux, this]
  | f + 1, n, k + 1, h => by
    rw [bytesAux]
    split
    · simp
    · rw [List.length_append, List.length_singleton]
      have := length_bytesAux f (n / 256) k (by rw [pow_succ] at h; omega)
      omega

theorem length_bytes_le {x : Int} {k : Nat} (h : x.natAbs < 256 ^ k) : (bytes x).length ≤ k :=
  length_bytesAux _ _ _ h

theorem length_bytes_gt {x : Int} {k : Nat} (h : 256 ^ k ≤ x.natAbs) : k < (bytes x).length := by
  by_contra hc
  have h1 := beNat_lt (bytes x)
  rw [beNat_bytes] at h1
  have : 256 ^ (bytes x).length ≤ 256 ^ k := Nat.pow_le_pow_right (by norm_num) (by omega)
  omega

/-- Left-padding to `k` bytes. -/
theorem length_pad {x : Int} {k : Nat} (h : x.natAbs < 256 ^ k) :
    (List.replicate (k - (bytes x).length) (0 : UInt8) ++ bytes x).length = k := by
  have := length_bytes_le h
  simp; omega

theorem bytesAux_fuel : ∀ (f g n : Nat), n ≤ f → n ≤ g → bytesAux f n = bytesAux g n
  | 0, 0, _, _, _ => rfl
  | 0, g + 1, n, h, _ => by
    have : n = 0 := by omega
    simp [bytesAux, this]
  | f + 1, 0, n, _, h => by
    have : n = 0 := by omega
    simp [bytesAux, this]
  | f + 1, g + 1, n, h1, h2 => by
    rw [bytesAux, bytesAux]
    split
    · rfl
    · rw [bytesAux_fuel f g (n / 256) (by omega) (by omega)]

/-- The minimal encoding has no leading zero byte. -/
theorem bytesAux_head : ∀ (f n : Nat), (bytesAux f n).head? ≠ some 0 ∨ f < n
  | 0, n => by simp [bytesAux]
  | f + 1, n => by
    by_cases hn : f + 1 < n
    · right; exact hn
    left
    rw [bytesAux]
    split
    · simp
    · rename_i h0
      rcases bytesAux_head f (n / 256) with ih | ih
      · by_cases hz : n / 256 = 0
        · have : bytesAux f (n / 256) = [] := by cases f <;> simp [bytesAux, hz]
          rw [this]
          simp only [List.nil_append, List.head?_cons, ne_eq, Option.some.injEq]
          intro e
          have := congrArg UInt8.toNat e
          rw [UInt8.toNat_ofNat'] at this
          simp at this; omega
        · have hne : bytesAux f (n / 256) ≠ [] := by
            intro e
            have := beNat_bytesAux f (n / 256) (by omega)
            rw [e] at this; simp at this; omega
          rw [List.head?_append]
          cases hb : bytesAux f (n / 256) with
          | nil => exact absurd hb hne
          | cons a l => rw [hb] at ih; simpa using ih
      · omega

theorem bytes_head (x : Int) : (bytes x).head? ≠ some 0 :=
  (bytesAux_head x.natAbs x.natAbs).resolve_right (lt_irrefl _)

/-- `SetBytes` after `Bytes` is the absolute value. -/
theorem setBytes_bytes (x : Int) : setBytes (bytes x) = x.natAbs := by
  rw [setBytes_eq, beNat_bytes]

theorem bytes_inj {x y : Int} : bytes x = bytes y ↔ x.natAbs = y.natAbs := by
  constructor
  · intro h; rw [← beNat_bytes x, ← beNat_bytes y, h]
  · intro h; rw [bytes, bytes, h]

theorem exp_cast (x : Int) (e m : Nat) (hm : 0 < m) (he : e < 2 ^ 512) :
    ((exp x e m : Int) : ZMod m) = (x : ZMod m) ^ e := by
  rw [exp, Int.cast_natCast, powMod_cast _ _ _ he]
  congr 1
  have h0 : 0 ≤ x % (m : Int) := Int.emod_nonneg _ (by omega)
  have : (((x % (m : Int)).toNat : Nat) : ZMod m) = (((x % (m : Int)).toNat : Int) : ZMod m) := by
    rw [Int.cast_natCast]
  rw [this, Int.toNat_of_nonneg h0, ZMod.intCast_mod]

theorem exp_range (x : Int) (e m : Nat) (hm : 0 < m) : 0 ≤ exp x e m ∧ exp x e m < m := by
  have := powMod_lt (x % m).toNat e m hm
  rw [exp]; omega

theorem modInverse_spec {g n i : Int} (hn : 1 < n) (h : modInverse g n = some i) :
    0 ≤ i ∧ i < n ∧ (g * i) % n = 1 := by
  rw [modInverse] at h
  split at h
  · rename_i hg
    simp only [Option.some.injEq] at h
    subst h
    refine ⟨Int.emod_nonneg _ (by omega), Int.emod_lt_of_pos _ (by omega), ?_⟩
    have e1 : g * ((g % n).gcdA n % n) % n = (g % n * (g % n).gcdA n) % n := by
      conv_lhs => rw [Int.mul_emod, Int.emod_emod_of_dvd _ (dvd_refl _)]
      conv_rhs => rw [Int.mul_emod, Int.emod_emod_of_dvd _ (dvd_refl _)]
    rw [e1]
    have hb := Int.gcd_eq_gcd_ab (g % n) n
    have : Int.gcd (g % n) n = 1 := by
      rw [← hg]; exact Int.gcd_emod g n
    rw [this] at hb
    have h2 : g % n * (g % n).gcdA n = 1 - n * (g % n).gcdB n := by push_cast at hb; linarith
    rw [h2, Int.sub_mul_emod_self_left]
    exact Int.emod_eq_of_lt (by omega) hn
  · cases h

theorem modInverse_none_iff {g n : Int} : modInverse g n = none ↔ Int.gcd g n ≠ 1 := by
  rw [modInverse]; split <;> simp_all

theorem lt_iff (x y : Int) : lt x y = true ↔ x < y := by
  cases x <;> cases y <;> simp only [lt, Nat.blt_eq, Int.ofNat_eq_natCast, true_iff, Bool.false_eq_true, false_iff] <;> omega

theorem cmp_eq_neg_one (x y : Int) : cmp x y = -1 ↔ x < y := by
  rw [cmp, ← lt_iff]; split
  · simp [*]
  · split <;> simp_all

theorem cmp_eq_zero (x y : Int) : cmp x y = 0 ↔ x = y := by
  rw [cmp]
  have h1 := lt_iff x y
  have h2 := lt_iff y x
  split
  · have := h1.1 (by assumption); constructor <;> intro h <;> omega
  · split
    · have := h2.1 (by assumption); constructor <;> intro h <;> omega
    · constructor
      · intro _
        have a1 : ¬ x < y := fun h => by simp_all
        have a2 : ¬ y < x := fun h => by simp_all
        omega
      · intro _; rfl

end BigInt
end Verif

namespace Verif.BigInt

theorem cmp_eq_one {x y : Int} : cmp x y = 1 ↔ y < x := by
  rw [cmp]
  by_cases h1 : lt x y = true
  · rw [if_pos h1, lt_iff] at *
    constructor
    · intro h; exact absurd h (by decide)
    · intro h; omega
  · rw [if_neg h1]
    by_cases h2 : lt y x = true
    · rw [if_pos h2]; rw [lt_iff] at h2; simp [h2]
    · rw [if_neg h2]; rw [lt_iff] at h2; simp [h2]

end Verif.BigInt
