import Verif.Proofs.Point
import Verif.Proofs.Scalar

/-! The group as exponents: `gexp x` is the group element `x·G`, and `Log a x` says that the model point `a` is
it. Every group element has exactly one exponent. -/
namespace Verif

/-- `x·G`. -/
noncomputable def gexp (x : Fn) : SecpPoint := x.val • secpG

theorem natCast_smul_gexp (k : Nat) (x : Fn) : k • gexp x = gexp ((k : Fn) * x) := by
  rw [gexp, gexp, ← mul_smul]
  apply nsmul_congr
  rw [← ZMod.natCast_eq_natCast_iff']
  simp

theorem gexp_natCast (k : Nat) : gexp (k : Fn) = k • secpG := by
  apply nsmul_congr
  rw [← ZMod.natCast_eq_natCast_iff']
  simp

theorem gexp_add (x y : Fn) : gexp (x + y) = gexp x + gexp y := by
  rw [gexp, gexp, gexp, ← add_smul]
  apply nsmul_congr
  rw [← ZMod.natCast_eq_natCast_iff']
  simp

theorem gexp_zero : gexp 0 = 0 := by
  rw [gexp, ZMod.val_zero]; exact zero_nsmul _

theorem gexp_one : gexp 1 = secpG := by
  have := gexp_natCast 1
  rw [one_smul] at this
  simpa using this

theorem gexp_neg (x : Fn) : gexp (-x) = -gexp x := by
  rw [eq_neg_iff_add_eq_zero, ← gexp_add, neg_add_cancel, gexp_zero]

theorem gexp_sub (x y : Fn) : gexp (x - y) = gexp x - gexp y := by
  rw [sub_eq_add_neg, gexp_add, gexp_neg, sub_eq_add_neg]

theorem gexp_injective : Function.Injective gexp := by
  intro x y h
  rw [gexp, gexp, nsmul_inj_mod secpG_ne_zero, Nat.mod_eq_of_lt (ZMod.val_lt x), Nat.mod_eq_of_lt (ZMod.val_lt y)] at h
  exact ZMod.val_injective _ h

theorem gexp_surjective : Function.Surjective gexp := by
  intro P
  obtain ⟨k, _, rfl⟩ := exists_nsmul_secpG P
  exact ⟨k, gexp_natCast k⟩

namespace Point
open Verif.Field

/-- The model point `a` is `x·G`. -/
def Log (a : Pt) (x : Fn) : Prop := Denotes a (gexp x)

theorem Log.unique_left {a b : Pt} {x : Fn} (ha : Log a x) (hb : Log b x) : a = b := Denotes.unique_left ha hb
theorem Log.unique_right {a : Pt} {x y : Fn} (hx : Log a x) (hy : Log a y) : x = y :=
  gexp_injective (Denotes.unique_right hx hy)
theorem Log.eq_iff {a b : Pt} {x y : Fn} (ha : Log a x) (hb : Log b y) : a = b ↔ x = y :=
  (Denotes.eq_iff ha hb).trans gexp_injective.eq_iff

theorem exists_log_iff (a : Pt) : GroupElt a.X a.Y ↔ ∃ x, Log a x := by
  rw [groupElt_iff]
  constructor
  · rintro ⟨P, h⟩
    obtain ⟨x, rfl⟩ := gexp_surjective P
    exact ⟨x, h⟩
  · rintro ⟨x, h⟩; exact ⟨_, h⟩

theorem log_null : Log null 0 := by rw [Log, gexp_zero]; exact denotes_null
theorem log_base : Log base 1 := by rw [Log, gexp_one]; exact denotes_base
theorem Log.add {a b : Pt} {x y : Fn} (ha : Log a x) (hb : Log b y) : Log (Point.add a b) (x + y) := by
  rw [Log, gexp_add]; exact denotes_add ha hb
theorem Log.sub {a b : Pt} {x y : Fn} (ha : Log a x) (hb : Log b y) : Log (Point.sub a b) (x - y) := by
  rw [Log, gexp_sub]; exact denotes_sub ha hb
theorem Log.neg {a : Pt} {x : Fn} (ha : Log a x) : Log (Point.neg a) (-x) := by
  rw [Log, gexp_neg]; exact denotes_neg ha

theorem natCast_toNat_modG (s : Int) : (((Scalar.modG s).toNat : Nat) : Fn) = (s : Fn) := by
  have : (((Scalar.modG s).toNat : Nat) : Fn) = ((((Scalar.modG s).toNat : Nat) : Int) : Fn) :=
    (Int.cast_natCast _).symm
  rw [this, toNat_modG, Scalar.cast_modG]

theorem Log.mul {a : Pt} {x : Fn} (ha : Log a x) (s : Int) :
    ∃ r, Point.mul s a = .ok r ∧ Log r ((s : Fn) * x) := by
  obtain ⟨r, h1, h2⟩ := mul_spec ha s
  refine ⟨r, h1, ?_⟩
  rw [natCast_smul_gexp, natCast_toNat_modG] at h2
  exact h2

theorem log_mulBase (s : Int) : ∃ r, mulBase s = .ok r ∧ Log r (s : Fn) := by
  obtain ⟨r, h1, h2⟩ := log_base.mul s
  rw [mul_one] at h2
  exact ⟨r, by rw [mulBase_eq]; exact h1, h2⟩

/-- The model point of an exponent. -/
noncomputable def ofLog (x : Fn) : Pt := ofPoint (gexp x)
theorem log_ofLog (x : Fn) : Log (ofLog x) x := denotes_ofPoint _

theorem null_eq : null = ⟨0, 0⟩ := by decide +kernel

theorem Log.onCurve_iff {a : Pt} {x : Fn} (ha : Log a x) : OnCurve a.X a.Y ↔ x ≠ 0 := by
  constructor
  · rintro hc rfl
    have : a = null := ha.unique_left log_null
    rw [this, null_eq] at hc
    exact absurd hc (by unfold OnCurve; decide +kernel)
  · intro hx
    have hg := (exists_log_iff a).2 ⟨x, ha⟩
    rcases hg.2 with h0 | h0
    · exfalso
      have : a = null := by rw [null_eq]; cases a; obtain ⟨rfl, rfl⟩ := h0; rfl
      exact hx (ha.unique_right (this ▸ log_null))
    · exact h0

theorem Log.valid_iff {a : Pt} {x : Fn} (ha : Log a x) : validPublicKey (.pt a) = true ↔ x ≠ 0 := by
  rw [validPublicKey_pt, ← Point.onCurve_iff, ha.onCurve_iff]

theorem Log.equal_iff {a b : Pt} {x y : Fn} (ha : Log a x) (hb : Log b y) : Point.equal a b = true ↔ x = y := by
  rw [Point.equal_iff, ← ha.eq_iff hb]
  constructor
  · rintro ⟨h1, h2⟩
    cases a; cases b
    rw [Pt.mk.injEq]
    exact ⟨(cast_inj_of_range ha.1.1 hb.1.1).1 h1, (cast_inj_of_range ha.1.2 hb.1.2).1 h2⟩
  · rintro rfl; exact ⟨rfl, rfl⟩

end Point
end Verif
