import Verif.Model.PointHeap
import Verif.Proofs.PointRandom
import Verif.Props.Point
import Verif.Lib.Group

/-! Helper lemmas: what the calls of `PointHeap` leave in the heap. -/
namespace Verif.PointHeap
open Verif.Point Verif.Field

variable {R : CStream}

/-- No two coordinates share an integer, coordinates are reduced, and the objects hold the group elements `v`; nothing is said of the
value of an object for which `v` has none. -/
structure Good (h : Heap R) (v : List (Option SecpPoint)) : Prop where
  len : v.length = h.pts.length
  low : ∀ (i : Nat) f, h.pts[i]? = some f → f.1 < h.free ∧ f.2 < h.free ∧ f.1 ≠ f.2
  sep : ∀ (i j : Nat) f g, h.pts[i]? = some f → h.pts[j]? = some g → i ≠ j → f.1 ≠ g.1 ∧ f.1 ≠ g.2 ∧ f.2 ≠ g.1 ∧ f.2 ≠ g.2
  red : ∀ (i : Nat) f, h.pts[i]? = some f → (0 ≤ h.elt f.1 ∧ h.elt f.1 < q) ∧ 0 ≤ h.elt f.2 ∧ h.elt f.2 < q
  den : ∀ (i : Nat) f e, h.pts[i]? = some f → v[i]? = some (some e) → Denotes ⟨h.elt f.1, h.elt f.2⟩ e

/-- The receiver gets new values, in place or in new elements; nothing else changes. -/
theorem Good.write {h h' : Heap R} {v : List (Option SecpPoint)} (hg : Good h v) {p : Nat} {f f' : Nat × Nat} (hf : h.pts[p]? = some f)
    (hp : h'.pts = h.pts.set p f') (hfree : h.free ≤ h'.free) (h1 : f'.1 = f.1 ∨ (h.free ≤ f'.1 ∧ f'.1 < h'.free))
    (h2 : f'.2 = f.2 ∨ (h.free ≤ f'.2 ∧ f'.2 < h'.free)) (hne : f'.1 ≠ f'.2)
    (hold : ∀ i, i < h.free → i ≠ f.1 → i ≠ f.2 → h'.elt i = h.elt i)
    (hred : (0 ≤ h'.elt f'.1 ∧ h'.elt f'.1 < q) ∧ 0 ≤ h'.elt f'.2 ∧ h'.elt f'.2 < q) (o : Option SecpPoint)
    (ho : ∀ e, o = some e → Denotes ⟨h'.elt f'.1, h'.elt f'.2⟩ e) : Good h' (v.set p o) := by
  have hlt : p < h.pts.length := (List.getElem?_eq_some_iff.1 hf).1
  have get : ∀ (i : Nat) g, h'.pts[i]? = some g → (i = p ∧ g = f') ∨ (i ≠ p ∧ h.pts[i]? = some g) := by
    intro i g hi
    rw [hp, List.getElem?_set] at hi
    by_cases e : p = i
    · rw [if_pos e, if_pos hlt] at hi
      exact .inl ⟨e.symm, (Option.some.inj hi).symm⟩
    · rw [if_neg e] at hi
      exact .inr ⟨fun x => e x.symm, hi⟩
  obtain ⟨l1, l2, l3⟩ := hg.low p f hf
  have same : ∀ (i : Nat) g, i ≠ p → h.pts[i]? = some g → h'.elt g.1 = h.elt g.1 ∧ h'.elt g.2 = h.elt g.2 := by
    intro i g hi hgi
    obtain ⟨a1, a2, _⟩ := hg.low i g hgi
    obtain ⟨s1, s2, s3, s4⟩ := hg.sep i p g f hgi hf hi
    exact ⟨hold _ a1 s1 s2, hold _ a2 s3 s4⟩
  refine ⟨by rw [List.length_set, hp, List.length_set, hg.len], ?_, ?_, ?_, ?_⟩
  · intro i g hi
    rcases get i g hi with ⟨_, rfl⟩ | ⟨_, hi⟩
    · exact ⟨by rcases h1 with e | e <;> omega, by rcases h2 with e | e <;> omega, hne⟩
    · obtain ⟨a1, a2, a3⟩ := hg.low i g hi
      exact ⟨by omega, by omega, a3⟩
  · intro i j g k hi hj hij
    rcases get i g hi with ⟨rfl, rfl⟩ | ⟨hip, hi⟩
    · rcases get j k hj with ⟨rfl, rfl⟩ | ⟨hjp, hj⟩
      · exact absurd rfl hij
      · obtain ⟨a1, a2, a3⟩ := hg.low j k hj
        obtain ⟨s1, s2, s3, s4⟩ := hg.sep i j f k hf hj hij
        refine ⟨?_, ?_, ?_, ?_⟩
        · rcases h1 with e | e <;> omega
        · rcases h1 with e | e <;> omega
        · rcases h2 with e | e <;> omega
        · rcases h2 with e | e <;> omega
    · rcases get j k hj with ⟨rfl, rfl⟩ | ⟨hjp, hj⟩
      · obtain ⟨a1, a2, a3⟩ := hg.low i g hi
        obtain ⟨s1, s2, s3, s4⟩ := hg.sep i j g f hi hf hij
        refine ⟨?_, ?_, ?_, ?_⟩
        · rcases h1 with e | e <;> omega
        · rcases h2 with e | e <;> omega
        · rcases h1 with e | e <;> omega
        · rcases h2 with e | e <;> omega
      · exact hg.sep i j g k hi hj hij
  · intro i g hi
    rcases get i g hi with ⟨_, rfl⟩ | ⟨hip, hi⟩
    · exact hred
    · rw [(same i g hip hi).1, (same i g hip hi).2]; exact hg.red i g hi
  · intro i g e hi hv
    rcases get i g hi with ⟨rfl, rfl⟩ | ⟨hip, hi⟩
    · rw [List.getElem?_set_self (by rw [hg.len]; exact hlt)] at hv
      exact ho e (Option.some.inj hv)
    · rw [List.getElem?_set_ne (fun x => hip x.symm)] at hv
      rw [(same i g hip hi).1, (same i g hip hi).2]; exact hg.den i g e hi hv

/-- There is a new object. -/
theorem Good.push {h h' : Heap R} {v : List (Option SecpPoint)} (hg : Good h v) {f : Nat × Nat}
    (hp : h'.pts = h.pts ++ [f]) (h1 : h.free ≤ f.1 ∧ f.1 < h'.free) (h2 : h.free ≤ f.2 ∧ f.2 < h'.free) (hne : f.1 ≠ f.2)
    (hold : ∀ i, i < h.free → h'.elt i = h.elt i)
    (hred : (0 ≤ h'.elt f.1 ∧ h'.elt f.1 < q) ∧ 0 ≤ h'.elt f.2 ∧ h'.elt f.2 < q) (o : Option SecpPoint)
    (ho : ∀ e, o = some e → Denotes ⟨h'.elt f.1, h'.elt f.2⟩ e) : Good h' (v ++ [o]) := by
  have get : ∀ (i : Nat) g, h'.pts[i]? = some g → (i = h.pts.length ∧ g = f) ∨ h.pts[i]? = some g := by
    intro i g hi
    rw [hp] at hi
    by_cases e : i < h.pts.length
    · rw [List.getElem?_append_left e] at hi; exact .inr hi
    · rw [List.getElem?_append_right (by omega)] at hi
      obtain ⟨x, y⟩ := List.getElem?_eq_some_iff.1 hi
      rw [List.length_singleton] at x
      have : i - h.pts.length = 0 := by omega
      rw [this] at hi
      exact .inl ⟨by omega, (Option.some.inj hi).symm⟩
  have lt : ∀ (i : Nat) g, h.pts[i]? = some g → i < h.pts.length := fun i g hi => (List.getElem?_eq_some_iff.1 hi).1
  have same : ∀ (i : Nat) g, h.pts[i]? = some g → h'.elt g.1 = h.elt g.1 ∧ h'.elt g.2 = h.elt g.2 := by
    intro i g hgi
    obtain ⟨a1, a2, _⟩ := hg.low i g hgi
    exact ⟨hold _ a1, hold _ a2⟩
  refine ⟨by rw [hp, List.length_append, List.length_append, hg.len]; rfl, ?_, ?_, ?_, ?_⟩
  · intro i g hi
    rcases get i g hi with ⟨_, rfl⟩ | hi
    · exact ⟨h1.2, h2.2, hne⟩
    · obtain ⟨a1, a2, a3⟩ := hg.low i g hi
      exact ⟨by omega, by omega, a3⟩
  · intro i j g k hi hj hij
    rcases get i g hi with ⟨e, rfl⟩ | hi
    · rcases get j k hj with ⟨e', rfl⟩ | hj
      · omega
      · obtain ⟨a1, a2, a3⟩ := hg.low j k hj
        exact ⟨by omega, by omega, by omega, by omega⟩
    · rcases get j k hj with ⟨e', rfl⟩ | hj
      · obtain ⟨a1, a2, a3⟩ := hg.low i g hi
        exact ⟨by omega, by omega, by omega, by omega⟩
      · exact hg.sep i j g k hi hj hij
  · intro i g hi
    rcases get i g hi with ⟨_, rfl⟩ | hi
    · exact hred
    · rw [(same i g hi).1, (same i g hi).2]; exact hg.red i g hi
  · intro i g e hi hv
    rcases get i g hi with ⟨hl, rfl⟩ | hi
    · rw [hl, ← hg.len, List.getElem?_concat_length] at hv
      exact ho e (Option.some.inj hv)
    · rw [List.getElem?_append_left (by rw [hg.len]; exact lt i g hi)] at hv
      rw [(same i g hi).1, (same i g hi).2]; exact hg.den i g e hi hv

theorem store_elt (h : Heap R) (i : Nat) (v : Int) (j : Nat) : (store h i v).elt j = if j = i then v else h.elt j := rfl

theorem modQAt_elt (h : Heap R) (i j : Nat) : (modQAt h i).elt j = if j = i then modQ (h.elt i) else h.elt j := rfl

theorem setAt_elt (h : Heap R) (i : Nat) (v : Int) (j : Nat) : (setAt h i v).elt j = if j = i then modQ v else h.elt j := by
  rw [setAt, modQAt_elt, store_elt, store_elt, if_pos rfl]
  by_cases e : j = i
  · rw [if_pos e, if_pos e]
  · rw [if_neg e, if_neg e, if_neg e]

theorem negAt_elt (h : Heap R) (i k j : Nat) : (negAt h i k).elt j = if j = i then modQ (-(h.elt k)) else h.elt j := by
  rw [negAt, modQAt_elt, store_elt, store_elt, if_pos rfl]
  by_cases e : j = i
  · rw [if_pos e, if_pos e]
  · rw [if_neg e, if_neg e, if_neg e]

theorem alloc_elt (h : Heap R) (v : Int) (j : Nat) : (alloc h v).elt j = if j = h.free then v else h.elt j := rfl

/-- Reducing a reduced element changes nothing. -/
theorem modQAt_same (h : Heap R) (i : Nat) (hr : 0 ≤ h.elt i ∧ h.elt i < q) : modQAt h i = h := by
  have : (modQAt h i).elt = h.elt := by
    funext j
    rw [modQAt_elt]
    by_cases e : j = i
    · rw [if_pos e, modQ_of_range hr.1 hr.2, e]
    · rw [if_neg e]
  cases h
  rw [modQAt, store] at this ⊢
  dsimp only at this ⊢
  rw [this]

/-- Both coordinates are set in place. -/
theorem Good.assign {h : Heap R} {v : List (Option SecpPoint)} (hg : Good h v) {p : Nat} {f : Nat × Nat} (hf : h.pts[p]? = some f)
    (x y : Int) (o : Option SecpPoint) (ho : ∀ e, o = some e → Denotes ⟨setInt x, setInt y⟩ e) :
    Good (setAt (setAt h f.1 x) f.2 y) (v.set p o) := by
  obtain ⟨l1, l2, l3⟩ := hg.low p f hf
  have e1 : (setAt (setAt h f.1 x) f.2 y).elt f.1 = setInt x := by
    rw [setAt_elt, if_neg l3, setAt_elt, if_pos rfl]; rfl
  have e2 : (setAt (setAt h f.1 x) f.2 y).elt f.2 = setInt y := by
    rw [setAt_elt, if_pos rfl]; rfl
  refine hg.write (h' := setAt (setAt h f.1 x) f.2 y) (f' := f) hf ?_ (Nat.le_refl _) (.inl rfl) (.inl rfl) l3 ?_ ?_ o ?_
  · obtain ⟨a, b⟩ := List.getElem?_eq_some_iff.1 hf
    rw [← b, List.set_getElem_self]; rfl
  · intro i _ i1 i2
    rw [setAt_elt, if_neg i2, setAt_elt, if_neg i1]
  · rw [e1, e2]; exact ⟨modQ_range _, modQ_range _⟩
  · rw [e1, e2]; exact ho

/-- Both coordinates are replaced by new elements. -/
theorem Good.replace {h : Heap R} {v : List (Option SecpPoint)} (hg : Good h v) {p : Nat} {f : Nat × Nat} (hf : h.pts[p]? = some f)
    {h' : Heap R} (x y : Int) (hp : h'.pts = h.pts.set p (h.free, h.free + 1)) (hfree : h'.free = h.free + 2)
    (hx : h'.elt h.free = x) (hy : h'.elt (h.free + 1) = y) (hold : ∀ i, i < h.free → h'.elt i = h.elt i)
    (hr : (0 ≤ x ∧ x < q) ∧ 0 ≤ y ∧ y < q) (o : Option SecpPoint) (ho : ∀ e, o = some e → Denotes ⟨x, y⟩ e) : Good h' (v.set p o) := by
  refine hg.write (f' := (h.free, h.free + 1)) hf hp (by omega) (.inr ⟨Nat.le_refl _, by dsimp only; omega⟩)
    (.inr ⟨by dsimp only; omega, by dsimp only; omega⟩) (by dsimp only; omega) (fun i hi _ _ => hold i hi) ?_ o ?_
  · dsimp only; rw [hx, hy]; exact hr
  · dsimp only; rw [hx, hy]; exact ho

/-- The group action of integers, as `Mul` computes it. -/
theorem modG_smul (s : Int) (P : SecpPoint) : (Scalar.modG s).toNat • P = s • P := by
  have h1 : (((Scalar.modG s).toNat : Nat) : Int) • P = (Scalar.modG s).toNat • P := natCast_zsmul _ _
  rw [← h1, toNat_modG, Scalar.modG, BigInt.mod, Scalar.order_eq]
  conv_rhs => rw [← Int.emod_add_mul_ediv s (secp256k1N : Nat), add_zsmul, mul_comm, mul_zsmul, natCast_zsmul, n_smul_eq_zero, zsmul_zero, add_zero]

theorem denotes_of_curve {x y : Int} (hr : (0 ≤ x ∧ x < q) ∧ 0 ≤ y ∧ y < q) (hc : (y : Fq) ^ 2 = (x : Fq) ^ 3 + 7) :
    ∃ e : SecpPoint, e ≠ 0 ∧ Denotes ⟨x, y⟩ e := by
  refine ⟨mkPoint x y hc, fun e => ?_, hr, rfl⟩
  have := (coords_eq_zero_iff (mkPoint (x : Fq) y hc)).2 e
  rw [coords_mkPoint, Prod.mk.injEq] at this
  rw [this.1, this.2] at hc
  exact not_onCurve_zero hc

end Verif.PointHeap
