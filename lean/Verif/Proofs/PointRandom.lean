import Verif.Proofs.Point

/-! Lemmas about the randomised functions of point.go. -/
namespace Verif.Point
open Verif.Field

theorem embedLoop_ok (R : CStream) (start : Nat) (hs : start ≤ 32) (n : Nat) :
    ∀ (s s' : R.State) (x : List UInt8) (P : Pt), x.length = 32 → embedLoop R start n s x = (s', .ok P) →
      ∃ x', x'.length = 32 ∧ x'.take start = x.take start ∧ P.X = Field.setBytes x' ∧
        (P.Y : Fq) ^ 2 = (P.X : Fq) ^ 3 + 7 ∧ 0 ≤ P.Y ∧ P.Y < q := by
  induction n with
  | zero => intro s s' x P _ h; rw [embedLoop] at h; cases h
  | succ n ih =>
    intro s s' x P hl h
    rw [embedLoop] at h
    rcases hxr : R.xor s (x.drop start) with ⟨s1, r⟩
    have hr : r.length = 32 - start := by
      have := R.xor_length s (x.drop start)
      rw [hxr, List.length_drop, hl] at this; exact this
    rw [hxr] at h
    dsimp only at h
    have hx' : (x.take start ++ r).length = 32 := by
      rw [List.length_append, hr, List.length_take, hl]; omega
    have ht : (x.take start ++ r).take start = x.take start := by
      have : (x.take start).length = start := by rw [List.length_take, hl]; omega
      exact List.take_left' this
    rcases hm : maybeSqrt (rightHandSide (Field.setBytes (x.take start ++ r))) with _ | y
    · rw [hm] at h
      obtain ⟨x', h1, h2, h3⟩ := ih _ _ _ _ hx' h
      exact ⟨x', h1, h2.trans ht, h3⟩
    · rw [hm] at h
      cases h
      obtain ⟨h1, h2⟩ := maybeSqrt_some hm
      rw [cast_rightHandSide] at h1
      exact ⟨_, hx', ht, rfl, h1, h2⟩

theorem int_range (R : CStream) (m : Int) (f : Nat) :
    ∀ s s' v, R.int m f s = some (s', v) → 0 < v ∧ v < m := by
  induction f with
  | zero => intro s s' v h; cases h
  | succ f ih =>
    intro s s' v h
    rw [CStream.int] at h
    dsimp only at h
    by_cases hc : 0 < BigInt.setBytes (R.xor s (List.replicate 32 0)).2 ∧
        BigInt.setBytes (R.xor s (List.replicate 32 0)).2 < m
    · rw [if_pos hc] at h; cases h; exact hc
    · rw [if_neg hc] at h; exact ih _ _ _ h

theorem pick_ok (R : CStream) (f : Nat) :
    ∀ s s' P, pick R f s = some (s', P) →
      ((0 ≤ P.X ∧ P.X < q) ∧ (0 ≤ P.Y ∧ P.Y < q)) ∧ (P.Y : Fq) ^ 2 = (P.X : Fq) ^ 3 + 7 := by
  induction f with
  | zero => intro s s' P h; cases h
  | succ f ih =>
    intro s s' P h
    rw [pick, Option.bind_eq_some_iff] at h
    obtain ⟨⟨s1, v⟩, _, h⟩ := h
    dsimp only at h
    rcases hm : maybeSqrt (rightHandSide (Field.set v)) with _ | y
    · rw [hm] at h; exact ih _ _ _ h
    · rw [hm] at h
      dsimp only [Option.elim] at h
      obtain ⟨h1, h2⟩ := maybeSqrt_some hm
      rw [cast_rightHandSide] at h1
      have hX := modQ_range v
      have hY := modQ_range y
      by_cases hb : ((R.xor s1 [0]).2.getD 0 0) &&& 1 = 0
      · rw [if_pos hb] at h
        cases h
        refine ⟨⟨hX, modQ_range _⟩, ?_⟩
        change ((modQ (-(modQ y)) : Int) : Fq) ^ 2 = _
        rw [cast_modQ, Int.cast_neg, cast_modQ, neg_sq]; exact h1
      · rw [if_neg hb] at h
        cases h
        refine ⟨⟨hX, hY⟩, ?_⟩
        change ((modQ y : Int) : Fq) ^ 2 = _
        rw [cast_modQ]; exact h1

theorem scalarPick_range (R : CStream) (f : Nat) (s s' : R.State) (k : Int)
    (h : scalarPick R f s = some (s', k)) : 0 < k ∧ k < Scalar.GroupOrder := by
  rw [scalarPick, Option.map_eq_some_iff] at h
  obtain ⟨⟨s1, v⟩, h1, h2⟩ := h
  cases h2
  have := int_range R _ _ _ _ _ h1
  change 0 < Scalar.modG v ∧ Scalar.modG v < _
  rwa [Scalar.modG_of_range this.1.le this.2]

theorem mulBase_valid {k : Int} (h : 0 < k ∧ k < Scalar.GroupOrder) {P : Pt} (hP : mulBase k = .ok P) :
    validPublicKey (.pt P) = true := by
  obtain ⟨r, h1, h2⟩ := mulBase_spec k
  rw [hP] at h1; cases h1
  rw [validPublicKey_pt]
  have hne : (Scalar.modG k).toNat • secpG ≠ 0 := by
    rw [Scalar.modG_of_range h.1.le h.2]
    intro h0
    rw [nsmul_eq_zero_iff secpG_ne_zero] at h0
    rw [Scalar.order_eq] at h
    rw [Nat.mod_eq_of_lt (by omega)] at h0
    omega
  have hg : GroupElt P.X P.Y := (groupElt_iff P).2 ⟨_, h2⟩
  rcases hg.2 with h0 | h0
  · exfalso
    apply hne
    have hn : P = null := by cases P; obtain ⟨rfl, rfl⟩ := h0; rfl
    rw [hn] at h2
    exact h2.unique_right denotes_null
  · exact (onCurve_iff _ _).1 h0

end Verif.Point
