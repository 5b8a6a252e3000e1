import Mathlib.Data.ZMod.Basic
import Mathlib.Tactic.Ring

/-!
Square-and-multiply modular exponentiation on `Nat`, computable by the kernel
(all arithmetic on literals is GMP-accelerated there), with its specification.
-/
namespace Verif

/-- Right-to-left square-and-multiply. `fuel` bounds the number of binary digits of `e`. -/
def powModAux (m : Nat) : (fuel b e acc : Nat) → Nat
  | 0, _, _, acc => acc
  | f + 1, b, e, acc =>
    match e with
    | 0 => acc
    | e' + 1 =>
      let acc' := bif (e' + 1) % 2 == 1 then acc * b % m else acc
      powModAux m f (b * b % m) ((e' + 1) / 2) acc'

/-- `b ^ e % m` for exponents below `2 ^ 512`. The case split on the base keeps the recursion from being unrolled
on symbolic bases when a term containing it is reduced. -/
def powMod (b e m : Nat) : Nat :=
  match b % m with
  | 0 => powModAux m 512 0 e (1 % m)
  | b' + 1 => powModAux m 512 (b' + 1) e (1 % m)

theorem powMod_def (b e m : Nat) : powMod b e m = powModAux m 512 (b % m) e (1 % m) := by
  rw [powMod]; split <;> simp [*]

theorem powModAux_cast (m : Nat) : ∀ (f b e acc : Nat), e < 2 ^ f →
    (powModAux m f b e acc : ZMod m) = acc * (b : ZMod m) ^ e
  | 0, b, e, acc, h => by
    have : e = 0 := by simpa using h
    subst this; simp [powModAux]
  | f + 1, b, 0, acc, _ => by simp [powModAux]
  | f + 1, b, e' + 1, acc, h => by
    have h2 : (e' + 1) / 2 < 2 ^ f := by
      rw [Nat.pow_succ] at h; omega
    rw [powModAux, powModAux_cast m f _ _ _ h2]
    have hm := Nat.div_add_mod (e' + 1) 2
    rcases Nat.mod_two_eq_zero_or_one (e' + 1) with h0 | h1
    · have hb : ((e' + 1) % 2 == 1) = false := by simp [h0]
      simp only [hb, cond_false, ZMod.natCast_mod, Nat.cast_mul]
      conv_rhs => rw [← hm, h0, Nat.add_zero, pow_mul]
      rw [pow_two]
    · have hb : ((e' + 1) % 2 == 1) = true := by simp [h1]
      simp only [hb, cond_true, ZMod.natCast_mod, Nat.cast_mul]
      conv_rhs => rw [← hm, h1, pow_succ, pow_mul]
      rw [pow_two]; ring

theorem powModAux_lt (m : Nat) (hm : 0 < m) : ∀ (f b e acc : Nat), acc < m →
    powModAux m f b e acc < m
  | 0, b, e, acc, h => by simpa [powModAux] using h
  | f + 1, b, 0, acc, h => by simpa [powModAux] using h
  | f + 1, b, e' + 1, acc, h => by
    rw [powModAux]
    apply powModAux_lt m hm
    cases ((e' + 1) % 2 == 1)
    · simpa using h
    · simpa using Nat.mod_lt _ hm

theorem powMod_lt (b e m : Nat) (hm : 0 < m) : powMod b e m < m :=
  powMod_def b e m ▸ powModAux_lt m hm _ _ _ _ (Nat.mod_lt _ hm)

theorem powMod_cast (b e m : Nat) (h : e < 2 ^ 512) :
    (powMod b e m : ZMod m) = (b : ZMod m) ^ e := by
  rw [powMod_def, powModAux_cast _ _ _ _ _ h]; simp

theorem powMod_eq (b e m : Nat) (hm : 0 < m) (h : e < 2 ^ 512) :
    powMod b e m = b ^ e % m := by
  have h1 : ((powMod b e m : Nat) : ZMod m) = ((b ^ e : Nat) : ZMod m) := by
    rw [powMod_cast b e m h]; push_cast; rfl
  rw [ZMod.natCast_eq_natCast_iff] at h1
  have := Nat.mod_eq_of_lt (powMod_lt b e m hm)
  rw [← this]; exact h1

end Verif
