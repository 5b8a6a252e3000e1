import Verif.Proofs.Locks

/-!
C112: the mutexes of signode. C113: whether all shared data is guarded by them.
-/
namespace Verif.Props.Locks
open Verif.Locks

/-! ### C112 -/

/-- No deadlock: whatever the program has come to, and whatever mutex is held, there are steps of goroutines, none of which waits for
anything but mutexes, after which nobody holds it. -/
theorem C112_given_back {s : Sys} (h : Reach s) (l : Lock) : ∃ s', Run s s' ∧ Free s' l := by
  by_cases free : Free s l
  · exact ⟨s, .nil, free⟩
  · obtain ⟨s', hs, free⟩ := releases 3 l s h.good (by omega) free
    exact ⟨s', hs.1, free⟩

/-- Two goroutines never hold the same mutex, and no goroutine takes one twice. -/
theorem C112_exclusive {s : Sys} (h : Reach s) : (∀ i j l, l ∈ (s i).held → l ∈ (s j).held → i = j) ∧ ∀ i, (s i).held.Nodup :=
  ⟨h.good.own, h.good.nodup⟩

/-- A goroutine that sleeps, waits for a channel or for the network, and one that has ended, holds no mutex. -/
theorem C112_waits_without {s : Sys} (h : Reach s) (i : Nat) (hi : (∃ k, (s i).code = .act .wait :: k) ∨ (s i).code = []) :
    (s i).held = [] := by
  rcases hi with ⟨k, e⟩ | e
  · exact (h.good.wait_nil e).1
  · exact h.good.idle_nil e

/-- Only a mutex that the goroutine holds is given back: `Unlock` never panics. -/
theorem C112_unlocks_own {s : Sys} (h : Reach s) (i : Nat) (l : Lock) (k : List Code) (e : (s i).code = .act (.rel l) :: k) :
    l ∈ (s i).held := by
  have hk := h.good.ok i
  rw [e] at hk
  obtain ⟨H', ho, -⟩ := hk.head
  rw [ho.rel_inv]; simp

/-- An example: two runs of one guest. The first is in the middle of `st_init`, where it holds the mutex of the run and `dss_kdat_lck`;
the second waits for the latter, with the mutex of its own run. -/
example : ∃ s, Reach s ∧ (s 0).held = [.kdats, .run 0] ∧ (s 1).held = [.run 1] ∧ (∃ k, (s 1).code = acq .kdats :: k) ∧
    ∃ s', Run s s' ∧ Free s' .kdats := by
  obtain ⟨s, h, h0, h1⟩ := Reach.two (.runTimedSteps 0 (1, 0)) (.runTimedSteps 1 (1, 0))
    (toStep [1, 1, 1, 1, 1, 0] ++ [0, 0, 0, 0, 1, 0, 0, 0]) (toStep [1, 1, 1, 1, 1, 1, 0] ++ [0, 0]) rfl rfl
  exact ⟨s, h, by rw [h0], by rw [h1], ⟨_, by rw [h1]⟩, C112_given_back h _⟩

/-! ### C113 -/

/-- What is missing of C113: the secrets of the guests. All other data that goroutines share is accessed by at most one at a time. -/
theorem C113_tables_partial {s : Sys} (h : Reach s) (v : Var) (hv : ∀ g, v ≠ .secret g) : ¬ Race s v := by
  rintro ⟨i, j, w, w', k, k', hij, -, e, e'⟩
  obtain ⟨l, hl⟩ : ∃ l, guardOf v = some l := by cases v <;> simp [guardOf] at hv ⊢
  have has : ∀ i w k, (s i).code = .act (.acc w v) :: k → l ∈ (s i).held := by
    intro i w k e
    have hk := h.good.ok i
    rw [e] at hk
    obtain ⟨H', ho, -⟩ := hk.head
    exact ho.acc_inv.2 l hl
  exact hij (h.good.own i j l (has i w k e) (has j w' k' e'))

/-- C113 is false of the code: two runs of one guest that sign at the same time both write the secret of the guest, each with no mutex
but that of its own run. -/
theorem C113_counterexample : ∃ s, Reach s ∧ Race s (.secret 0) ∧ (s 0).held = [.run 0] ∧ (s 1).held = [.run 1] := by
  obtain ⟨s, h, h0, h1⟩ := Reach.two (.runTimedSteps 0 (1, 0)) (.runTimedSteps 1 (1, 0))
    (toStep [1, 1, 1, 1, 1, 1, 0] ++ List.replicate 17 0) (toStep [1, 1, 1, 1, 1, 1, 0] ++ List.replicate 17 0) rfl rfl
  exact ⟨s, h, ⟨0, 1, true, true, _, _, by decide, .inl rfl, by rw [h0], by rw [h1]⟩, by rw [h0]; rfl, by rw [h1]; rfl⟩

/-- An example for `C113_tables_partial`: a consumer is about to change the run that the goroutine of the run would read next, which
has to wait for the mutex. -/
example : ∃ s, Reach s ∧ (∃ k, (s 0).code = wr (.run 0) :: k) ∧ (∃ k, (s 1).code = acq (.run 0) :: k) ∧ ¬ Race s (.run 0) := by
  obtain ⟨s, h, h0, h1⟩ := Reach.two (.runIncomingQueueConsumer (1, 0)) (.runTimedSteps 0 (1, 0))
    [1, 0, 0, 1, 0, 0, 0, 0, 0, 0, 0, 1, 0, 0, 1, 0, 0, 0, 0, 0, 0, 0, 1, 0] [0] rfl rfl
  exact ⟨s, h, ⟨_, by rw [h0]; rfl⟩, ⟨_, by rw [h1]⟩, C113_tables_partial h _ (by simp)⟩

end Verif.Props.Locks
