import Verif.Model.Dss
import Verif.Proofs.Dlog
import Verif.Props.Scalar
import Verif.Lib.Lagrange

/-! kyber's RecoverSecret computes Lagrange interpolation at zero. -/
namespace Verif.Dss
open Verif.Point

/-- A share index as Go's `int` allows it: below 2^63. -/
def IdxOk (i : Int) : Prop := 0 ≤ i ∧ i < 2 ^ 63

/-- The abscissa of a share index as a residue. -/
def xOf (i : Int) : Fn := ((i + 1 : Int) : Fn)

theorem cast_abscissa (i : Int) : ((abscissa i : Int) : Fn) = xOf i := Scalar.cast_modG _

theorem xOf_inj {i j : Int} (hi : IdxOk i) (hj : IdxOk j) (h : xOf i = xOf j) : i = j := by
  rw [xOf, xOf, ZMod.intCast_eq_intCast_iff'] at h
  have hn : (2 : Int) ^ 63 + 1 < (secp256k1N : Nat) := by decide +kernel
  obtain ⟨h1, h2⟩ := hi
  obtain ⟨h3, h4⟩ := hj
  rw [Int.emod_eq_of_lt (by omega) (by omega), Int.emod_eq_of_lt (by omega) (by omega)] at h
  omega

theorem xOf_ne_zero {i : Int} (hi : IdxOk i) : xOf i ≠ 0 := by
  intro h
  rw [xOf, ZMod.intCast_zmod_eq_zero_iff_dvd] at h
  have hn : (2 : Int) ^ 63 + 1 < (secp256k1N : Nat) := by decide +kernel
  obtain ⟨h1, h2⟩ := hi
  have := Int.le_of_dvd (by omega) h
  omega

theorem mapSet_new {m : List (Int × Int)} {k v : Int} (h : k ∉ m.map Prod.fst) : mapSet m k v = m ++ [(k, v)] := by
  rw [mapSet, if_neg]
  rw [List.any_eq_true]
  rintro ⟨p, hp, e⟩
  rw [beq_iff_eq] at e
  exact h (e ▸ List.mem_map_of_mem hp)

/-- The pairs kept by `xyScalar` from shares with distinct non-negative indices. -/
theorem xyScalar_spec (t : Int) (l : List Share) : ∀ (m : List (Int × Int)), (m.map Prod.fst ++ l.map Share.I).Nodup →
    (∀ s ∈ l, 0 ≤ s.I) → (m.length : Int) < t →
    xyScalar t m l = m ++ (l.take (t.toNat - m.length)).map (fun s => (s.I, s.V)) := by
  induction l with
  | nil => intro m _ _ _; simp [xyScalar]
  | cons s l ih =>
    intro m hn hp ht
    have hs := hp s (by simp)
    rw [List.map_cons, List.nodup_append] at hn
    obtain ⟨h1, h2, h3⟩ := hn
    have hk : s.I ∉ m.map Prod.fst := fun h => h3 _ h _ (by simp) rfl
    rw [xyScalar, if_neg (by omega)]
    dsimp only
    rw [mapSet_new hk]
    obtain ⟨k, hk2⟩ : ∃ k, t.toNat - m.length = k + 1 := ⟨t.toNat - m.length - 1, by omega⟩
    rw [hk2, List.take_succ_cons, List.map_cons]
    by_cases he : ((m ++ [(s.I, s.V)]).length : Int) = t
    · rw [if_pos he]
      rw [List.length_append, List.length_singleton] at he
      have : k = 0 := by omega
      rw [this]; simp
    · rw [if_neg he]
      rw [List.length_append, List.length_singleton] at he
      rw [List.nodup_cons] at h2
      rw [ih (m ++ [(s.I, s.V)])]
      · have : t.toNat - (m ++ [(s.I, s.V)]).length = k := by
          rw [List.length_append, List.length_singleton]; omega
        rw [this]; simp
      · rw [List.map_append, List.append_assoc, List.nodup_append]
        refine ⟨h1, ?_, ?_⟩
        · simp only [List.map_cons, List.map_nil, List.singleton_append, List.nodup_cons]
          exact h2
        · intro a ha b hb
          simp only [List.map_cons, List.map_nil, List.singleton_append] at hb
          exact h3 a ha b hb
      · intro s' hs'; exact hp s' (by simp [hs'])
      · rw [List.length_append, List.length_singleton]; omega

/-- Index-value pairs as points over the scalar field. -/
def toPts (m : List (Int × Int)) : List (Fn × Fn) := m.map fun p => (xOf p.1, (p.2 : Fn))

theorem cast_mul (a b : Int) : ((Scalar.mul a b : Int) : Fn) = (a : Fn) * b := by
  have := Scalar.cast_modG (a * b); push_cast at this; exact this
theorem cast_sub (a b : Int) : ((Scalar.sub a b : Int) : Fn) = (a : Fn) - b := by
  have := Scalar.cast_modG (a - b); push_cast at this; exact this
theorem cast_add (a b : Int) : ((Scalar.add a b : Int) : Fn) = (a : Fn) + b := by
  have := Scalar.cast_modG (a + b); push_cast at this; exact this
theorem cast_one : ((Scalar.one : Int) : Fn) = 1 := by
  have := Scalar.cast_modG 1; push_cast at this; exact this
theorem cast_zero : ((Scalar.zero : Int) : Fn) = 0 := by
  have := Scalar.cast_modG 0; push_cast at this; exact this

theorem fold_spec (m : List (Int × Int)) (p : Int × Int) (a b : Int) :
    let r := m.foldl (fun (nd : Int × Int) q =>
      if q.1 = p.1 then nd
      else (Scalar.mul nd.1 (abscissa q.1), Scalar.mul nd.2 (Scalar.sub (abscissa q.1) (abscissa p.1)))) (a, b)
    (r.1 : Fn) = a * (m.map fun q => if q.1 = p.1 then 1 else xOf q.1).prod ∧
    (r.2 : Fn) = b * (m.map fun q => if q.1 = p.1 then 1 else xOf q.1 - xOf p.1).prod := by
  induction m generalizing a b with
  | nil => simp
  | cons q m ih =>
    simp only [List.foldl_cons, List.map_cons, List.prod_cons]
    by_cases h : q.1 = p.1
    · simp only [if_pos h, one_mul]
      exact ih a b
    · simp only [if_neg h]
      obtain ⟨h1, h2⟩ := ih (Scalar.mul a (abscissa q.1)) (Scalar.mul b (Scalar.sub (abscissa q.1) (abscissa p.1)))
      rw [h1, h2, cast_mul, cast_mul, cast_sub, cast_abscissa, cast_abscissa]
      exact ⟨by ring, by ring⟩

theorem lagrangeTerm_spec (m : List (Int × Int)) (p : Int × Int) (hm : ∀ q ∈ m, IdxOk q.1) (hp : IdxOk p.1) :
    ∃ d, lagrangeTerm m p = .ok d ∧ (d : Fn) = lagTerm (toPts m) (xOf p.1, (p.2 : Fn)) := by
  obtain ⟨h1, h2⟩ := fold_spec m p (Scalar.set p.2) Scalar.one
  have e0 : ((Scalar.set p.2 : Int) : Fn) = (p.2 : Fn) := Scalar.cast_modG _
  have conv : ∀ f : Int → Fn, (m.map fun q => if q.1 = p.1 then 1 else f q.1) =
      (m.map fun q => if xOf q.1 = xOf p.1 then 1 else f q.1) := by
    intro f
    apply List.map_congr_left
    intro q hq
    by_cases h : q.1 = p.1
    · rw [if_pos h, if_pos (by rw [h])]
    · rw [if_neg h, if_neg (fun e => h (xOf_inj (hm q hq) hp e))]
  rw [e0, conv (fun i => xOf i)] at h1
  rw [cast_one, one_mul, conv (fun i => xOf i - xOf p.1)] at h2
  have hne : (m.map fun q => if xOf q.1 = xOf p.1 then 1 else xOf q.1 - xOf p.1).prod ≠ 0 := by
    rw [Ne, List.prod_eq_zero_iff, List.mem_map]
    rintro ⟨q, hq, e⟩
    by_cases h : xOf q.1 = xOf p.1
    · rw [if_pos h] at e; exact one_ne_zero e
    · rw [if_neg h] at e; exact h (sub_eq_zero.1 e)
  obtain ⟨d, h3, h4, _⟩ := Props.C02_div _ _ (by rw [h2]; exact hne)
  refine ⟨d, h3, ?_⟩
  rw [h4.2.2, h1, h2, lagTerm, toPts, List.map_map, List.map_map]
  rfl

theorem sum_spec (m m0 : List (Int × Int)) (hm : ∀ q ∈ m, IdxOk q.1) (h0 : ∀ q ∈ m0, IdxOk q.1) (a : Int)
    (ha : 0 ≤ a ∧ a < Scalar.GroupOrder) :
    ∃ r, m0.foldl (fun acc p => do
      let a ← acc
      let d ← lagrangeTerm m p
      return Scalar.add a d) (Outcome.ok a) = .ok r ∧ (0 ≤ r ∧ r < Scalar.GroupOrder) ∧
      (r : Fn) = a + ((toPts m0).map (lagTerm (toPts m))).sum := by
  induction m0 generalizing a with
  | nil => exact ⟨a, rfl, ha, by simp [toPts]⟩
  | cons p m0 ih =>
    obtain ⟨d, h1, h2⟩ := lagrangeTerm_spec m p hm (h0 p (by simp))
    rw [List.foldl_cons, Outcome.bind_ok, h1, Outcome.bind_ok]
    obtain ⟨r, h3, h4, h5⟩ := ih (fun q hq => h0 q (by simp [hq])) (Scalar.add a d) (Scalar.modG_range _)
    refine ⟨r, h3, h4, ?_⟩
    rw [h5, cast_add, h2]
    simp only [toPts, List.map_cons, List.sum_cons]
    ring

theorem toPts_nodup {m : List (Int × Int)} (hn : (m.map Prod.fst).Nodup) (hm : ∀ q ∈ m, IdxOk q.1) :
    ((toPts m).map Prod.fst).Nodup := by
  have e : (toPts m).map Prod.fst = (m.map Prod.fst).map xOf := by
    rw [toPts, List.map_map, List.map_map]; rfl
  rw [e]
  refine List.Nodup.map_on ?_ hn
  intro x hx y hy h
  rw [List.mem_map] at hx hy
  obtain ⟨p, hp, rfl⟩ := hx
  obtain ⟨q, hq, rfl⟩ := hy
  exact xOf_inj (hm p hp) (hm q hq) h

/-- `RecoverSecret` on shares with distinct indices, all on a polynomial of degree below `t`. -/
theorem recoverSecret_poly (shares : List Share) (t : Int) (ht : 0 < t) (hlen : t ≤ (shares.length : Int))
    (hn : (shares.map Share.I).Nodup) (hi : ∀ s ∈ shares, IdxOk s.I) (p : Polynomial Fn)
    (hdeg : p.degree < ((t.toNat : ℕ) : WithBot ℕ)) (hv : ∀ s ∈ shares, (s.V : Fn) = p.eval (xOf s.I)) :
    ∃ r, recoverSecret shares t = .ok r ∧ (0 ≤ r ∧ r < Scalar.GroupOrder) ∧ (r : Fn) = p.eval 0 := by
  have hperm := List.perm_insertionSort (fun a b : Share => a.I ≤ b.I) shares
  generalize hS : shares.insertionSort (fun a b => a.I ≤ b.I) = S at hperm
  have hnS : (S.map Share.I).Nodup := (hperm.map Share.I).nodup_iff.2 hn
  have hlS : S.length = shares.length := hperm.length_eq
  rw [recoverSecret, hS]
  rw [xyScalar_spec t S [] (by simpa using hnS) (fun s hs => (hi s (hperm.mem_iff.1 hs)).1) (by simpa using ht)]
  simp only [List.nil_append, List.length_nil, Nat.sub_zero]
  obtain ⟨m, hm⟩ : ∃ m, m = (S.take t.toNat).map (fun s => (s.I, s.V)) := ⟨_, rfl⟩
  rw [← hm]
  have hml : m.length = t.toNat := by
    rw [hm, List.length_map, List.length_take]; omega
  have hmem : ∀ q ∈ m, ∃ s ∈ shares, q = (s.I, s.V) := by
    intro q hq
    rw [hm, List.mem_map] at hq
    obtain ⟨s, hs, rfl⟩ := hq
    exact ⟨s, hperm.mem_iff.1 (List.mem_of_mem_take hs), rfl⟩
  have hmi : ∀ q ∈ m, IdxOk q.1 := by
    intro q hq
    obtain ⟨s, hs, rfl⟩ := hmem q hq
    exact hi s hs
  have hmn : (m.map Prod.fst).Nodup := by
    have : m.map Prod.fst = (S.map Share.I).take t.toNat := by
      rw [hm, List.map_map, List.map_take]; rfl
    rw [this]
    exact hnS.sublist (List.take_sublist _ _)
  rw [if_neg (by omega)]
  obtain ⟨r, h1, h2, h3⟩ := sum_spec m m hmi hmi Scalar.zero (Scalar.modG_range _)
  refine ⟨r, h1, h2, ?_⟩
  rw [h3, cast_zero, zero_add]
  apply lagrange_zero _ (toPts_nodup hmn hmi)
  · rw [toPts, List.length_map, hml]; exact hdeg
  · intro q hq
    rw [toPts, List.mem_map] at hq
    obtain ⟨q', hq', rfl⟩ := hq
    obtain ⟨s, hs, rfl⟩ := hmem q' hq'
    exact hv s hs

/-- What `xyScalar` keeps, for arbitrary shares: distinct indices, values of given shares, at most `t` entries. -/
theorem xyScalar_sound (t : Int) (l : List Share) : ∀ (m : List (Int × Int)), (m.map Prod.fst).Nodup →
    (m.length : Int) < t →
    ((xyScalar t m l).map Prod.fst).Nodup ∧ ((xyScalar t m l).length : Int) ≤ t ∧
    ∀ q ∈ xyScalar t m l, q ∈ m ∨ ∃ s ∈ l, 0 ≤ s.I ∧ q = (s.I, s.V) := by
  induction l with
  | nil => intro m h1 h2; exact ⟨h1, by rw [xyScalar]; omega, fun q hq => .inl hq⟩
  | cons s l ih =>
    intro m hn ht
    rw [xyScalar]
    by_cases hs : s.I < 0
    · rw [if_pos hs]
      obtain ⟨h1, h2, h3⟩ := ih m hn ht
      refine ⟨h1, h2, fun q hq => ?_⟩
      rcases h3 q hq with h | ⟨s', h4, h5⟩
      · exact .inl h
      · exact .inr ⟨s', by simp [h4], h5⟩
    rw [if_neg hs]
    dsimp only
    have hmap : (∃ hk : s.I ∈ m.map Prod.fst, True) ∨ s.I ∉ m.map Prod.fst := by
      by_cases hk : s.I ∈ m.map Prod.fst
      · exact .inl ⟨hk, trivial⟩
      · exact .inr hk
    have hm' : ((mapSet m s.I s.V).map Prod.fst).Nodup ∧ ((mapSet m s.I s.V).length : Int) ≤ t ∧
        ∀ q ∈ mapSet m s.I s.V, q ∈ m ∨ q = (s.I, s.V) := by
      rcases hmap with ⟨hk, -⟩ | hk
      · have e : mapSet m s.I s.V = m.map (fun p => if p.1 == s.I then (s.I, s.V) else p) := by
          rw [mapSet, if_pos]
          rw [List.any_eq_true]
          rw [List.mem_map] at hk
          obtain ⟨p, hp, hpe⟩ := hk
          exact ⟨p, hp, by rw [beq_iff_eq]; exact hpe⟩
        rw [e]
        refine ⟨?_, by rw [List.length_map]; omega, ?_⟩
        · rw [List.map_map]
          have : (Prod.fst ∘ fun (p : Int × Int) => if p.1 == s.I then (s.I, s.V) else p) = Prod.fst := by
            funext p
            simp only [Function.comp]
            by_cases h : p.1 = s.I
            · rw [if_pos (by rw [beq_iff_eq]; exact h), h]
            · rw [if_neg (by rw [beq_iff_eq]; exact h)]
          rw [this]; exact hn
        · intro q hq
          rw [List.mem_map] at hq
          obtain ⟨p, hp, rfl⟩ := hq
          by_cases h : p.1 = s.I
          · rw [if_pos (by rw [beq_iff_eq]; exact h)]; exact .inr rfl
          · rw [if_neg (by rw [beq_iff_eq]; exact h)]; exact .inl hp
      · rw [mapSet_new hk]
        refine ⟨?_, by rw [List.length_append, List.length_singleton]; omega, ?_⟩
        · rw [List.map_append, List.nodup_append]
          refine ⟨hn, by simp, ?_⟩
          intro a ha b hb
          simp only [List.map_cons, List.map_nil, List.mem_singleton] at hb
          rintro rfl
          exact hk (hb ▸ ha)
        · intro q hq
          rw [List.mem_append, List.mem_singleton] at hq
          exact hq
    obtain ⟨g1, g2, g3⟩ := hm'
    by_cases he : ((mapSet m s.I s.V).length : Int) = t
    · rw [if_pos he]
      refine ⟨g1, g2, fun q hq => ?_⟩
      rcases g3 q hq with h | h
      · exact .inl h
      · exact .inr ⟨s, by simp, by omega, h⟩
    · rw [if_neg he]
      obtain ⟨h1, h2, h3⟩ := ih _ g1 (by omega)
      refine ⟨h1, h2, fun q hq => ?_⟩
      rcases h3 q hq with h | ⟨s', h4, h5⟩
      · rcases g3 q h with h | h
        · exact .inl h
        · exact .inr ⟨s, by simp, by omega, h⟩
      · exact .inr ⟨s', by simp [h4], h5⟩

/-- Whatever the shares (repeated indices included), if they are all on a polynomial of degree below `t` and
`RecoverSecret` returns, it returns the value at zero. -/
theorem recoverSecret_sound (shares : List Share) (t : Int) (ht : 0 < t) (hi : ∀ s ∈ shares, IdxOk s.I)
    (p : Polynomial Fn) (hdeg : p.degree < ((t.toNat : ℕ) : WithBot ℕ))
    (hv : ∀ s ∈ shares, (s.V : Fn) = p.eval (xOf s.I)) (r : Int) (hr : recoverSecret shares t = .ok r) :
    (0 ≤ r ∧ r < Scalar.GroupOrder) ∧ (r : Fn) = p.eval 0 := by
  have hperm := List.perm_insertionSort (fun a b : Share => a.I ≤ b.I) shares
  rw [recoverSecret] at hr
  generalize hS : shares.insertionSort (fun a b => a.I ≤ b.I) = S at hperm hr
  obtain ⟨h1, h2, h3⟩ := xyScalar_sound t S [] (by simp) (by simpa using ht)
  generalize hm : xyScalar t [] S = m at h1 h2 h3 hr
  by_cases hlt : (m.length : Int) < t
  · rw [if_pos hlt] at hr; cases hr
  rw [if_neg hlt] at hr
  have hmem : ∀ q ∈ m, ∃ s ∈ shares, q = (s.I, s.V) := by
    intro q hq
    rcases h3 q hq with h | ⟨s, hs, _, h⟩
    · cases h
    · exact ⟨s, hperm.mem_iff.1 hs, h⟩
  have hmi : ∀ q ∈ m, IdxOk q.1 := by
    intro q hq
    obtain ⟨s, hs, rfl⟩ := hmem q hq
    exact hi s hs
  obtain ⟨r', g1, g2, g3⟩ := sum_spec m m hmi hmi Scalar.zero (Scalar.modG_range _)
  have : r' = r := Outcome.ok.inj (g1.symm.trans hr)
  subst this
  refine ⟨g2, ?_⟩
  rw [g3, cast_zero, zero_add]
  apply lagrange_zero _ (toPts_nodup h1 hmi)
  · rw [toPts, List.length_map, show m.length = t.toNat by omega]; exact hdeg
  · intro q hq
    rw [toPts, List.mem_map] at hq
    obtain ⟨q', hq', rfl⟩ := hq
    obtain ⟨s, hs, rfl⟩ := hmem q' hq'
    exact hv s hs

end Verif.Dss
