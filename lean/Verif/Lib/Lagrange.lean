import Mathlib.LinearAlgebra.Lagrange

/-! Lagrange interpolation at zero over lists of points. -/
namespace Verif
open Polynomial

variable {F : Type*} [Field F] [DecidableEq F]

/-- The Lagrange term of the point `q` at zero. -/
def lagTerm (l : List (F × F)) (q : F × F) : F :=
  q.2 * (l.map fun r => if r.1 = q.1 then 1 else r.1).prod / (l.map fun r => if r.1 = q.1 then 1 else r.1 - q.1).prod

theorem eval_zero_basisDivisor (x y : F) : (Lagrange.basisDivisor x y).eval 0 = y / (y - x) := by
  rw [Lagrange.basisDivisor]
  simp only [eval_mul, eval_C, eval_sub, eval_X, zero_sub]
  rw [div_eq_mul_inv, ← neg_sub y x, inv_neg, neg_mul_neg, mul_comm]

theorem prod_list_eq (l : List (F × F)) (hn : (l.map Prod.fst).Nodup) (a : F) (f : F → F) :
    (l.map fun r => if r.1 = a then 1 else f r.1).prod = ∏ j ∈ (l.map Prod.fst).toFinset.erase a, f j := by
  have h1 : (l.map fun r => if r.1 = a then 1 else f r.1) = (l.map Prod.fst).map (fun x => if x = a then 1 else f x) := by
    rw [List.map_map]; rfl
  rw [h1, ← List.prod_toFinset _ hn, ← Finset.prod_erase _ (a := a) (by simp)]
  apply Finset.prod_congr rfl
  intro j hj
  rw [if_neg (Finset.ne_of_mem_erase hj)]

/-- The Lagrange sum at zero of points on a polynomial of smaller degree is its value at zero. -/
theorem lagrange_zero (l : List (F × F)) (hn : (l.map Prod.fst).Nodup) (p : F[X])
    (hdeg : p.degree < (l.length : WithBot ℕ)) (hy : ∀ q ∈ l, q.2 = p.eval q.1) :
    (l.map (lagTerm l)).sum = p.eval 0 := by
  have hcard : (l.map Prod.fst).toFinset.card = l.length := by
    rw [List.toFinset_card_of_nodup hn, List.length_map]
  have hp := Lagrange.eq_interpolate_of_eval_eq (s := (l.map Prod.fst).toFinset) (v := id) (f := p)
    (fun x => p.eval x) (Set.injOn_id _) (by rw [hcard]; exact hdeg) (fun i _ => rfl)
  conv_rhs => rw [hp, Lagrange.interpolate_apply, eval_finset_sum]
  have h2 : (l.map (lagTerm l)) = (l.map Prod.fst).map (fun x => p.eval x *
      (∏ j ∈ (l.map Prod.fst).toFinset.erase x, j) / ∏ j ∈ (l.map Prod.fst).toFinset.erase x, (j - x)) := by
    rw [List.map_map]
    apply List.map_congr_left
    intro q hq
    rw [lagTerm, hy q hq, prod_list_eq l hn q.1 (fun x => x), prod_list_eq l hn q.1 (fun x => x - q.1)]
    rfl
  rw [h2, ← List.sum_toFinset _ hn]
  apply Finset.sum_congr rfl
  intro i _
  rw [eval_mul, eval_C, Lagrange.basis, eval_prod]
  simp only [id, eval_zero_basisDivisor, Finset.prod_div_distrib]
  rw [mul_div_assoc]

/-- Interpolation: for points with distinct nonzero abscissas and any value wanted at zero and a further abscissa, some
polynomial of degree at most the number of points takes these values. -/
theorem exists_poly_through (l : List (F × F)) (hn : (l.map Prod.fst).Nodup) (h0 : ∀ q ∈ l, q.1 ≠ 0) (c : F) :
    ∃ p : F[X], p.degree < ((l.length + 1 : ℕ) : WithBot ℕ) ∧ (∀ q ∈ l, q.2 = p.eval q.1) ∧ p.eval 0 = c := by
  have hn' : (((0, c) :: l).map Prod.fst).Nodup := by
    rw [List.map_cons, List.nodup_cons]
    refine ⟨?_, hn⟩
    rw [List.mem_map]
    rintro ⟨q, hq, e⟩
    exact h0 q hq e
  let s := (((0, c) :: l).map Prod.fst).toFinset
  let val : F → F := fun x => ((((0, c) :: l).find? (fun q => q.1 = x)).map Prod.snd).getD 0
  have hval : ∀ q ∈ (0, c) :: l, val q.1 = q.2 := by
    intro q hq
    have : ((0, c) :: l).find? (fun r => r.1 = q.1) = some q := by
      generalize (0, c) :: l = L at hn' hq
      induction L with
      | nil => cases hq
      | cons a L ih =>
        rw [List.map_cons, List.nodup_cons] at hn'
        rw [List.find?_cons]
        rcases List.mem_cons.1 hq with rfl | hq
        · simp
        · have : a.1 ≠ q.1 := fun e => hn'.1 (e ▸ List.mem_map_of_mem hq)
          simp only [this, decide_false]
          exact ih hn'.2 hq
    simp only [val, this]; rfl
  have hmem : ∀ q ∈ (0, c) :: l, q.1 ∈ s := fun q hq => List.mem_toFinset.2 (List.mem_map_of_mem hq)
  refine ⟨Lagrange.interpolate s id val, ?_, ?_, ?_⟩
  · have := Lagrange.degree_interpolate_lt (s := s) (v := id) val (Set.injOn_id _)
    have hc : s.card = l.length + 1 := by
      rw [List.toFinset_card_of_nodup hn', List.length_map, List.length_cons]
    rwa [hc] at this
  · intro q hq
    have := Lagrange.eval_interpolate_at_node (s := s) (v := id) val (Set.injOn_id _) (hmem q (List.mem_cons_of_mem _ hq))
    rw [id] at this
    rw [this, hval q (List.mem_cons_of_mem _ hq)]
  · have := Lagrange.eval_interpolate_at_node (s := s) (v := id) val (Set.injOn_id _) (hmem (0, c) (by simp))
    rw [id] at this
    rw [this, hval (0, c) (by simp)]

end Verif
