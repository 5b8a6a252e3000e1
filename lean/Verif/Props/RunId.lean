import Verif.Spec.Signode

/-!
C74: run identifiers. They are what keeps the messages, documents and outputs of different runs apart.
-/
namespace Verif.Props.RunId
open Verif.Signode Verif.Spec.Signode

/-- A time from September 2001 up to November 2286: its milliseconds since the epoch have 13 digits. -/
def Modern (t : Int) : Prop := 10 ^ 12 ≤ unixMilli t ∧ unixMilli t < 10 ^ 13

theorem repr_inj {a b : Nat} (h : Nat.toDigits 10 a = Nat.toDigits 10 b) : a = b := by
  rw [← Nat.ofDigitChars_ten_toDigits (n := a), h, Nat.ofDigitChars_ten_toDigits]

theorem toList_nat (n : Nat) : (toString n).toList = Nat.toDigits 10 n := by
  rw [Nat.toString_eq_repr, Nat.toList_repr]

theorem toList_int (n : Nat) : (toString (n : Int)).toList = Nat.toDigits 10 n := by
  rw [← toList_nat]
  rfl

theorem length_modern {n : Nat} (h1 : 10 ^ 12 ≤ n) (h2 : n < 10 ^ 13) : (Nat.toDigits 10 n).length = 13 := by
  have a := (Nat.length_toDigits_le_iff (b := 10) (n := n) (k := 13) (by decide) (by decide)).2 h2
  have b : ¬ (Nat.toDigits 10 n).length ≤ 12 := fun h =>
    absurd ((Nat.length_toDigits_le_iff (b := 10) (n := n) (k := 12) (by decide) (by decide)).1 h) (by omega)
  omega

/-- The digits of a modern time. -/
theorem modern_digits {t : Int} (h : Modern t) :
    ∃ n : Nat, unixMilli t = n ∧ (toString (unixMilli t)).toList = Nat.toDigits 10 n ∧ (Nat.toDigits 10 n).length = 13 := by
  obtain ⟨h1, h2⟩ := h
  obtain ⟨n, hn⟩ := Int.eq_ofNat_of_zero_le (a := unixMilli t) (by omega)
  rw [hn]
  exact ⟨n, rfl, toList_int n, length_modern (by omega) (by omega)⟩

/-- A prefix followed by the digits of a modern time determines both. -/
theorem split {a b : String} {t u : Int} (ht : Modern t) (hu : Modern u)
    (h : a ++ toString (unixMilli t) = b ++ toString (unixMilli u)) : a = b ∧ unixMilli t = unixMilli u := by
  obtain ⟨n, h1, h2, h3⟩ := modern_digits ht
  obtain ⟨m, h4, h5, h6⟩ := modern_digits hu
  have := congrArg String.toList h
  rw [String.toList_append, String.toList_append, h2, h5] at this
  obtain ⟨h7, h8⟩ := List.append_inj' this (by rw [h3, h6])
  exact ⟨String.toList_inj.1 h7, by rw [h1, h4, repr_inj h8]⟩

/-- C74 (requests, modern times). Two requests have one run identifier exactly if they have the same namespace and start in the same
millisecond. What is missing for the full claim: the range of the times, without which it is false (`C74_counterexample`). -/
theorem C74_requests_partial (j j' : Job) (h : Modern j.start) (h' : Modern j'.start) :
    jobId j = jobId j' ↔ j.nmspc = j'.nmspc ∧ unixMilli j.start = unixMilli j'.start := by
  constructor
  · intro e
    obtain ⟨h1, h2⟩ := split h h' e
    refine ⟨?_, h2⟩
    have := congrArg String.toList h1
    rw [String.toList_append, String.toList_append] at this
    exact String.toList_inj.1 (List.append_cancel_left this)
  · rintro ⟨h1, h2⟩
    rw [jobId, jobId, runnerRunId, runnerRunId, h1, h2]

/-- The request `0 _ AA` when the default start is 1 September 2022. -/
example : Modern 1662004242000000000 ∧ jobId ⟨"0", 1662004242000000000, 170⟩ = "sig01662004242000" :=
  ⟨by unfold Modern unixMilli; decide, by decide +kernel⟩

/-- C74 (attempts, modern times). Two attempts at long-term keys, of one run of the tool or of two, have one run identifier exactly if
they have the same number and the runs of the tool start in the same millisecond. What is missing for the full claim: as above. -/
theorem C74_attempts_partial (start interval start' interval' : Int) (i i' : Nat) (h : Modern start) (h' : Modern start')
    (ha : Modern (start + i * interval)) (ha' : Modern (start' + i' * interval'))
    (e : attemptId start interval i = attemptId start' interval' i') : unixMilli start = unixMilli start' ∧ i = i' := by
  obtain ⟨h1, _⟩ := split ha ha' e
  obtain ⟨n, e1, h2, h3⟩ := modern_digits h
  obtain ⟨m, e2, h4, h5⟩ := modern_digits h'
  have := congrArg String.toList h1
  rw [String.toList_append, String.toList_append, String.toList_append, String.toList_append, h2, h4, toList_nat, toList_nat,
    List.append_assoc, List.append_assoc] at this
  obtain ⟨h6, h7⟩ := List.append_inj (List.append_cancel_left this) (by rw [h3, h5])
  exact ⟨by rw [e1, e2, repr_inj h6], repr_inj h7⟩

/-- The first two attempts of a run of the tool. -/
example : Modern 1662004242000000000 ∧ Modern (1662004242000000000 + (1 : Nat) * 10000000000) ∧
    attemptId 1662004242000000000 10000000000 0 = "longterm166200424200001662004242000" ∧
    attemptId 1662004242000000000 10000000000 1 = "longterm166200424200011662004252000" :=
  ⟨by unfold Modern unixMilli; decide, by unfold Modern unixMilli; decide, by decide +kernel, by decide +kernel⟩

/-- C74 (one process). The attempts of one run of the tool all have different run identifiers, if it starts after 1970. -/
theorem C74_own_attempts (start interval : Int) (hs : 0 ≤ start) (hi : 0 ≤ interval) (i j : Nat)
    (e : attemptId start interval i = attemptId start interval j) : i = j := by
  have digits : ∀ k : Nat, ∃ n : Nat, unixMilli (start + k * interval) = n ∧
      (toString (unixMilli (start + k * interval))).toList = Nat.toDigits 10 n := by
    intro k
    have : 0 ≤ unixMilli (start + k * interval) := by
      have := Int.mul_nonneg (Int.natCast_nonneg k) hi
      unfold unixMilli; omega
    obtain ⟨n, hn⟩ := Int.eq_ofNat_of_zero_le this
    exact ⟨n, hn, by rw [hn]; exact toList_int n⟩
  have mono : ∀ {a b : Nat}, a ≤ b → (Nat.toDigits 10 a).length ≤ (Nat.toDigits 10 b).length := by
    intro a b h
    have h0 : 0 < (Nat.toDigits 10 b).length := Nat.length_toDigits_pos
    rw [Nat.length_toDigits_le_iff (by decide) h0]
    exact Nat.lt_of_le_of_lt h ((Nat.length_toDigits_le_iff (by decide) h0).1 (Nat.le_refl _))
  have key : ∀ i j : Nat, i ≤ j → attemptId start interval i = attemptId start interval j → i = j := by
    intro i j hij e
    obtain ⟨n, h1, h2⟩ := digits i
    obtain ⟨m, h3, h4⟩ := digits j
    have hnm : n ≤ m := by
      have : (i : Int) * interval ≤ j * interval := Int.mul_le_mul_of_nonneg_right (by omega) hi
      have : unixMilli (start + i * interval) ≤ unixMilli (start + j * interval) := by
        unfold unixMilli; omega
      omega
    have := congrArg String.toList e
    rw [attemptId, attemptId] at this
    simp only [String.toList_append, List.append_assoc] at this
    rw [h2, h4, toList_nat, toList_nat] at this
    have hl := (List.append_cancel_left (List.append_cancel_left this) :
      Nat.toDigits 10 i ++ Nat.toDigits 10 n = Nat.toDigits 10 j ++ Nat.toDigits 10 m)
    have hlen := congrArg List.length hl
    rw [List.length_append, List.length_append] at hlen
    have l1 := mono hij
    have l2 := mono hnm
    exact repr_inj (List.append_inj hl (by omega)).1
  rcases Nat.le_total i j with h | h
  · exact key i j h e
  · exact (key j i h e.symm).symm

/-- A run of the tool in 1970, where the times get longer as it goes on. -/
example : attemptId 9999000000 1000000 0 = "longterm999909999" ∧ attemptId 9999000000 1000000 1 = "longterm9999110000" :=
  ⟨by decide +kernel, by decide +kernel⟩

/-- C74 (kinds). The run identifier of a request is never one of an attempt at long-term keys. -/
theorem C74_kinds (j : Job) (start interval : Int) (i : Nat) : jobId j ≠ attemptId start interval i := by
  intro e
  have := congrArg String.toList e
  rw [jobId, runnerRunId, attemptId] at this
  simp only [String.toList_append] at this
  have : some 's' = some 'l' := congrArg List.head? this
  exact absurd this (by decide)

/-- C74 is false of the code in general: requests with different namespaces share a run identifier if one of them starts before
September 2001, and so do requests with different documents in one namespace that start in the same millisecond, as all requests
without a time of their own do. -/
theorem C74_counterexample :
    jobId ⟨"0", 1662004242000000000, 170⟩ = jobId ⟨"01", 662004242000000000, 170⟩ ∧
    jobId ⟨"0", 1662004242000000000, 170⟩ = jobId ⟨"0", 1662004242000000001, 187⟩ := by decide +kernel

end Verif.Props.RunId
