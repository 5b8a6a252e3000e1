import Verif.Lib.PowMod
import Mathlib.NumberTheory.LucasPrimality
import Mathlib.Tactic.NormNum.Prime

/-!
Primality of the two secp256k1 primes by Pratt certificates: the field size `P` and group order `N` of
`btcec.S256()`, which /repo/ch/core/services/signatures/secp256k1/scalar.go:27-28 exports as
`FieldSize` and `GroupOrder`, and field.go:23 as `q`.
-/
namespace Verif

/-- `S256().P` = 2^256 - 2^32 - 977: `q` of secp256k1/field.go:23. -/
def secp256k1P : Nat := 0xfffffffffffffffffffffffffffffffffffffffffffffffffffffffefffffc2f
/-- `S256().N`: `GroupOrder` of secp256k1/scalar.go:27; the value is in the comment at scalar.go:12. -/
def secp256k1N : Nat := 0xfffffffffffffffffffffffffffffffebaaedce6af48a03bbfd25e8cd0364141

/-- The arithmetic part of a Pratt certificate: base `a`, factorisation `fs` of `p - 1`. -/
def prattCheck (p a : Nat) (fs : List (Nat × Nat)) : Bool :=
  Nat.blt 1 p && Nat.blt p (2 ^ 512)
  && Nat.beq (fs.foldr (fun f acc => f.1 ^ f.2 * acc) 1) (p - 1)
  && Nat.beq (powMod a (p - 1) p) 1
  && fs.all (fun f => !(Nat.beq (powMod a ((p - 1) / f.1) p) 1))

theorem mem_of_prime_dvd_foldr (q : Nat) (hq : q.Prime) : ∀ fs : List (Nat × Nat),
    (∀ f ∈ fs, f.1.Prime) → q ∣ fs.foldr (fun f acc => f.1 ^ f.2 * acc) 1 → ∃ f ∈ fs, f.1 = q
  | [], _, h => by
    have : q ∣ 1 := h
    exact absurd (Nat.dvd_one.1 this) hq.one_lt.ne'
  | f :: fs, hp, h => by
    rcases (Nat.Prime.dvd_mul hq).1 h with h | h
    · have := (Nat.prime_dvd_prime_iff_eq hq (hp f List.mem_cons_self)).1 (hq.dvd_of_dvd_pow h)
      exact ⟨f, List.mem_cons_self, this.symm⟩
    · obtain ⟨g, hg, e⟩ := mem_of_prime_dvd_foldr q hq fs
        (fun g hg => hp g (List.mem_cons_of_mem _ hg)) h
      exact ⟨g, List.mem_cons_of_mem _ hg, e⟩

theorem pratt (p a : Nat) (fs : List (Nat × Nat)) (hc : prattCheck p a fs = true)
    (hfs : ∀ f ∈ fs, f.1.Prime) : p.Prime := by
  simp only [prattCheck, Bool.and_eq_true, List.all_eq_true, Bool.not_eq_true', Nat.beq_eq,
    Nat.blt_eq] at hc
  obtain ⟨⟨⟨⟨h1, h512⟩, hprod⟩, ha⟩, hne⟩ := hc
  have : Fact (1 < p) := ⟨h1⟩
  have key : ∀ e, e < 2 ^ 512 → (powMod a e p = 1 ↔ (a : ZMod p) ^ e = 1) := by
    intro e he
    rw [← powMod_cast a e p he]
    constructor
    · intro h; rw [h]; simp
    · intro h
      have h' : ((powMod a e p : Nat) : ZMod p) = ((1 : Nat) : ZMod p) := by simpa using h
      rw [ZMod.natCast_eq_natCast_iff'] at h'
      rwa [Nat.mod_eq_of_lt (powMod_lt _ _ _ (by omega)), Nat.mod_eq_of_lt h1] at h'
  refine lucas_primality p (a : ZMod p) ?_ ?_
  · exact (key (p - 1) (by omega)).1 ha
  · intro q hq hd
    rw [← hprod] at hd
    obtain ⟨f, hf, rfl⟩ := mem_of_prime_dvd_foldr q hq fs hfs hd
    have hlt : (p - 1) / f.1 < 2 ^ 512 := lt_of_le_of_lt (Nat.div_le_self _ _) (by omega)
    intro h
    have h2 := hne f hf
    rw [(key _ hlt).2 h] at h2
    exact absurd h2 (by decide)

theorem fc {p : Nat × Nat → Prop} {a : Nat × Nat} {l} : (∀ x ∈ a :: l, p x) ↔ p a ∧ ∀ x ∈ l, p x := List.forall_mem_cons
theorem fn {p : Nat × Nat → Prop} : ∀ x ∈ ([] : List (Nat × Nat)), p x := by simp

theorem prime_13441 : Nat.Prime 13441 :=
  pratt _ 11 [(2, 7), (3, 1), (5, 1), (7, 1)] (by decide +kernel)
    (fc.2 ⟨(by norm_num), fc.2 ⟨(by norm_num), fc.2 ⟨(by norm_num), fc.2 ⟨(by norm_num), fn⟩⟩⟩⟩)

theorem prime_96557 : Nat.Prime 96557 :=
  pratt _ 2 [(2, 2), (101, 1), (239, 1)] (by decide +kernel)
    (fc.2 ⟨(by norm_num), fc.2 ⟨(by norm_num), fc.2 ⟨(by norm_num), fn⟩⟩⟩)

theorem prime_20113 : Nat.Prime 20113 :=
  pratt _ 10 [(2, 4), (3, 1), (419, 1)] (by decide +kernel)
    (fc.2 ⟨(by norm_num), fc.2 ⟨(by norm_num), fc.2 ⟨(by norm_num), fn⟩⟩⟩)

theorem prime_1206781 : Nat.Prime 1206781 :=
  pratt _ 10 [(2, 2), (3, 1), (5, 1), (20113, 1)] (by decide +kernel)
    (fc.2 ⟨(by norm_num), fc.2 ⟨(by norm_num), fc.2 ⟨(by norm_num), fc.2 ⟨prime_20113, fn⟩⟩⟩⟩)

theorem prime_7240687 : Nat.Prime 7240687 :=
  pratt _ 3 [(2, 1), (3, 1), (1206781, 1)] (by decide +kernel)
    (fc.2 ⟨(by norm_num), fc.2 ⟨(by norm_num), fc.2 ⟨prime_1206781, fn⟩⟩⟩)

theorem prime_41201 : Nat.Prime 41201 :=
  pratt _ 3 [(2, 4), (5, 2), (103, 1)] (by decide +kernel)
    (fc.2 ⟨(by norm_num), fc.2 ⟨(by norm_num), fc.2 ⟨(by norm_num), fn⟩⟩⟩)

theorem prime_107590001 : Nat.Prime 107590001 :=
  pratt _ 3 [(2, 4), (5, 4), (7, 1), (29, 1), (53, 1)] (by decide +kernel)
    (fc.2 ⟨(by norm_num), fc.2 ⟨(by norm_num), fc.2 ⟨(by norm_num), fc.2 ⟨(by norm_num), fc.2 ⟨(by norm_num), fn⟩⟩⟩⟩⟩)

theorem prime_255515944373312847190720520512484175977 : Nat.Prime 255515944373312847190720520512484175977 :=
  pratt _ 3 [(2, 3), (7, 2), (11, 1), (1627, 1), (2657, 1), (4423, 1), (41201, 1), (96557, 1), (7240687, 1), (107590001, 1)] (by decide +kernel)
    (fc.2 ⟨(by norm_num), fc.2 ⟨(by norm_num), fc.2 ⟨(by norm_num), fc.2 ⟨(by norm_num), fc.2 ⟨(by norm_num), fc.2 ⟨(by norm_num), fc.2 ⟨prime_41201, fc.2 ⟨prime_96557, fc.2 ⟨prime_7240687, fc.2 ⟨prime_107590001, fn⟩⟩⟩⟩⟩⟩⟩⟩⟩⟩)

theorem prime_24809 : Nat.Prime 24809 :=
  pratt _ 6 [(2, 3), (7, 1), (443, 1)] (by decide +kernel)
    (fc.2 ⟨(by norm_num), fc.2 ⟨(by norm_num), fc.2 ⟨(by norm_num), fn⟩⟩⟩)

theorem prime_13331831 : Nat.Prime 13331831 :=
  pratt _ 13 [(2, 1), (5, 1), (971, 1), (1373, 1)] (by decide +kernel)
    (fc.2 ⟨(by norm_num), fc.2 ⟨(by norm_num), fc.2 ⟨(by norm_num), fc.2 ⟨(by norm_num), fn⟩⟩⟩⟩)

theorem prime_173378833005251801 : Nat.Prime 173378833005251801 :=
  pratt _ 6 [(2, 3), (5, 2), (2621, 1), (24809, 1), (13331831, 1)] (by decide +kernel)
    (fc.2 ⟨(by norm_num), fc.2 ⟨(by norm_num), fc.2 ⟨(by norm_num), fc.2 ⟨prime_24809, fc.2 ⟨prime_13331831, fn⟩⟩⟩⟩⟩)

theorem prime_22149492674086928081353 : Nat.Prime 22149492674086928081353 :=
  pratt _ 5 [(2, 3), (3, 1), (5323, 1), (173378833005251801, 1)] (by decide +kernel)
    (fc.2 ⟨(by norm_num), fc.2 ⟨(by norm_num), fc.2 ⟨(by norm_num), fc.2 ⟨prime_173378833005251801, fn⟩⟩⟩⟩)

theorem prime_132896956044521568488119 : Nat.Prime 132896956044521568488119 :=
  pratt _ 6 [(2, 1), (3, 1), (22149492674086928081353, 1)] (by decide +kernel)
    (fc.2 ⟨(by norm_num), fc.2 ⟨(by norm_num), fc.2 ⟨prime_22149492674086928081353, fn⟩⟩⟩)

theorem prime_205115282021455665897114700593932402728804164701536103180137503955397371 : Nat.Prime 205115282021455665897114700593932402728804164701536103180137503955397371 :=
  pratt _ 10 [(2, 1), (3, 1), (5, 1), (29, 2), (31, 1), (7723, 1), (132896956044521568488119, 1), (255515944373312847190720520512484175977, 1)] (by decide +kernel)
    (fc.2 ⟨(by norm_num), fc.2 ⟨(by norm_num), fc.2 ⟨(by norm_num), fc.2 ⟨(by norm_num), fc.2 ⟨(by norm_num), fc.2 ⟨(by norm_num), fc.2 ⟨prime_132896956044521568488119, fc.2 ⟨prime_255515944373312847190720520512484175977, fn⟩⟩⟩⟩⟩⟩⟩⟩)

theorem prime_q : Nat.Prime secp256k1P :=
  pratt _ 3 [(2, 1), (3, 1), (7, 1), (13441, 1), (205115282021455665897114700593932402728804164701536103180137503955397371, 1)] (by decide +kernel)
    (fc.2 ⟨(by norm_num), fc.2 ⟨(by norm_num), fc.2 ⟨(by norm_num), fc.2 ⟨prime_13441, fc.2 ⟨prime_205115282021455665897114700593932402728804164701536103180137503955397371, fn⟩⟩⟩⟩⟩)

theorem prime_44706919 : Nat.Prime 44706919 :=
  pratt _ 6 [(2, 1), (3, 1), (797, 1), (9349, 1)] (by decide +kernel)
    (fc.2 ⟨(by norm_num), fc.2 ⟨(by norm_num), fc.2 ⟨(by norm_num), fc.2 ⟨(by norm_num), fn⟩⟩⟩⟩)

theorem prime_120233 : Nat.Prime 120233 :=
  pratt _ 3 [(2, 3), (7, 1), (19, 1), (113, 1)] (by decide +kernel)
    (fc.2 ⟨(by norm_num), fc.2 ⟨(by norm_num), fc.2 ⟨(by norm_num), fc.2 ⟨(by norm_num), fn⟩⟩⟩⟩)

theorem prime_174723607534414371449 : Nat.Prime 174723607534414371449 :=
  pratt _ 3 [(2, 3), (17, 1), (59, 1), (4051, 1), (120233, 1), (44706919, 1)] (by decide +kernel)
    (fc.2 ⟨(by norm_num), fc.2 ⟨(by norm_num), fc.2 ⟨(by norm_num), fc.2 ⟨(by norm_num), fc.2 ⟨prime_120233, fc.2 ⟨prime_44706919, fn⟩⟩⟩⟩⟩⟩)

theorem prime_4681609 : Nat.Prime 4681609 :=
  pratt _ 23 [(2, 3), (3, 1), (97, 1), (2011, 1)] (by decide +kernel)
    (fc.2 ⟨(by norm_num), fc.2 ⟨(by norm_num), fc.2 ⟨(by norm_num), fc.2 ⟨(by norm_num), fn⟩⟩⟩⟩)

theorem prime_16699 : Nat.Prime 16699 :=
  pratt _ 3 [(2, 1), (3, 1), (11, 2), (23, 1)] (by decide +kernel)
    (fc.2 ⟨(by norm_num), fc.2 ⟨(by norm_num), fc.2 ⟨(by norm_num), fc.2 ⟨(by norm_num), fn⟩⟩⟩⟩)

theorem prime_85831 : Nat.Prime 85831 :=
  pratt _ 3 [(2, 1), (3, 1), (5, 1), (2861, 1)] (by decide +kernel)
    (fc.2 ⟨(by norm_num), fc.2 ⟨(by norm_num), fc.2 ⟨(by norm_num), fc.2 ⟨(by norm_num), fn⟩⟩⟩⟩)

theorem prime_107361793816595537 : Nat.Prime 107361793816595537 :=
  pratt _ 3 [(2, 4), (16699, 1), (85831, 1), (4681609, 1)] (by decide +kernel)
    (fc.2 ⟨(by norm_num), fc.2 ⟨prime_16699, fc.2 ⟨prime_85831, fc.2 ⟨prime_4681609, fn⟩⟩⟩⟩)

theorem prime_305873 : Nat.Prime 305873 :=
  pratt _ 3 [(2, 4), (7, 1), (2731, 1)] (by decide +kernel)
    (fc.2 ⟨(by norm_num), fc.2 ⟨(by norm_num), fc.2 ⟨(by norm_num), fn⟩⟩⟩)

theorem prime_1627771 : Nat.Prime 1627771 :=
  pratt _ 3 [(2, 1), (3, 1), (5, 1), (29, 1), (1871, 1)] (by decide +kernel)
    (fc.2 ⟨(by norm_num), fc.2 ⟨(by norm_num), fc.2 ⟨(by norm_num), fc.2 ⟨(by norm_num), fc.2 ⟨(by norm_num), fn⟩⟩⟩⟩⟩)

theorem prime_297159362677 : Nat.Prime 297159362677 :=
  pratt _ 2 [(2, 2), (3, 2), (11, 1), (461, 1), (1627771, 1)] (by decide +kernel)
    (fc.2 ⟨(by norm_num), fc.2 ⟨(by norm_num), fc.2 ⟨(by norm_num), fc.2 ⟨(by norm_num), fc.2 ⟨prime_1627771, fn⟩⟩⟩⟩⟩)

theorem prime_28181 : Nat.Prime 28181 :=
  pratt _ 2 [(2, 2), (5, 1), (1409, 1)] (by decide +kernel)
    (fc.2 ⟨(by norm_num), fc.2 ⟨(by norm_num), fc.2 ⟨(by norm_num), fn⟩⟩⟩)

theorem prime_545358713 : Nat.Prime 545358713 :=
  pratt _ 5 [(2, 3), (41, 1), (59, 1), (28181, 1)] (by decide +kernel)
    (fc.2 ⟨(by norm_num), fc.2 ⟨(by norm_num), fc.2 ⟨(by norm_num), fc.2 ⟨prime_28181, fn⟩⟩⟩⟩)

theorem prime_29047611873442575647497758179 : Nat.Prime 29047611873442575647497758179 :=
  pratt _ 2 [(2, 1), (293, 1), (305873, 1), (545358713, 1), (297159362677, 1)] (by decide +kernel)
    (fc.2 ⟨(by norm_num), fc.2 ⟨(by norm_num), fc.2 ⟨prime_305873, fc.2 ⟨prime_545358713, fc.2 ⟨prime_297159362677, fn⟩⟩⟩⟩⟩)

theorem prime_341948486974166000522343609283189 : Nat.Prime 341948486974166000522343609283189 :=
  pratt _ 2 [(2, 2), (3, 3), (109, 1), (29047611873442575647497758179, 1)] (by decide +kernel)
    (fc.2 ⟨(by norm_num), fc.2 ⟨(by norm_num), fc.2 ⟨(by norm_num), fc.2 ⟨prime_29047611873442575647497758179, fn⟩⟩⟩⟩)

theorem prime_n : Nat.Prime secp256k1N :=
  pratt _ 7 [(2, 6), (3, 1), (149, 1), (631, 1), (107361793816595537, 1), (174723607534414371449, 1), (341948486974166000522343609283189, 1)] (by decide +kernel)
    (fc.2 ⟨(by norm_num), fc.2 ⟨(by norm_num), fc.2 ⟨(by norm_num), fc.2 ⟨(by norm_num), fc.2 ⟨prime_107361793816595537, fc.2 ⟨prime_174723607534414371449, fc.2 ⟨prime_341948486974166000522343609283189, fn⟩⟩⟩⟩⟩⟩⟩)

instance : Fact (Nat.Prime secp256k1P) := ⟨prime_q⟩
instance : Fact (Nat.Prime secp256k1N) := ⟨prime_n⟩

end Verif
