import Verif.Proofs.Program
import Verif.Proofs.NodeTimely

/-! The node inside the program: its own history, and which runners were started. -/
namespace Verif.Program
open Verif.Prot Verif.Dto Verif.Dss Verif.Dkg Verif.Tables Verif.Signode Verif.Props Verif.Spec.Prot Verif.Spec.Program
variable {K : Type} {c : Cfg K} {W : Message Dto → Prop}

/-- The runner was started for a request. -/
def ForJob (c : Cfg K) (l : List Job) (k : RunKey) (a : Firewall.Allowance) : Prop :=
  ∃ j ∈ l, k.pc = 1 ∧ k.gidx ∈ c.guests ∧ k.runId = jobId j ∧ a = c.allow j

/-- A history of the node that leads from one state to another. -/
def Through (c : Cfg K) (l : List Job) (n n' : Node.Sys Dto) : Prop :=
  ∃ es, Node.run n es = .ok n' ∧ ∀ k a, .launch k a ∈ es → ForJob c l k a

theorem Through.refl (l : List Job) (n : Node.Sys Dto) : Through c l n n := ⟨[], rfl, fun _ _ h => absurd h List.not_mem_nil⟩

theorem Through.trans {l : List Job} {n n' n'' : Node.Sys Dto} (h : Through c l n n') (h' : Through c l n' n'') : Through c l n n'' := by
  obtain ⟨es, h1, h2⟩ := h
  obtain ⟨es', h3, h4⟩ := h'
  refine ⟨es ++ es', by rw [Node.run_append, h1]; exact h3, fun k a hm => ?_⟩
  exact (List.mem_append.1 hm).elim (h2 k a) (h4 k a)

theorem through_node {l : List Job} {s s' : Sys K} {e : Node.Ev Dto} (hl : ∀ k a, e = .launch k a → ForJob c l k a)
    (h : nodeEvent c s e = .ok s') : Through c l s.node s'.node := by
  obtain ⟨n, h1, e1⟩ := node_ok h
  refine ⟨[e], ?_, fun k a hm => hl k a (List.mem_singleton.1 hm).symm⟩
  rw [Node.run, h1, e1]
  rfl

theorem through_launch {l : List Job} {j : Job} (hj : j ∈ l) {gs : List Int} (hg : ∀ g ∈ gs, g ∈ c.guests) {s s' : Sys K}
    (h : launchAll c s j gs = .ok s') : Through c l s.node s'.node := by
  induction gs generalizing s with
  | nil => rw [launchAll] at h; rw [← Outcome.ok.inj h]; exact .refl _ _
  | cons g gs ih =>
    rw [launchAll, Outcome.bind_eq_ok] at h
    obtain ⟨s1, h1, h2⟩ := h
    refine (through_node (fun k a e => ?_) h1).trans (ih (fun g hm => hg g (List.mem_cons_of_mem _ hm)) h2)
    cases e
    exact ⟨j, hj, rfl, hg g (List.mem_cons_self ..), rfl, rfl⟩

theorem through_step {s s' : Sys K} {e : Ev} (hs : step c s e = .ok s') : Through c (reqs s') s.node s'.node := by
  have hreq := reqs_step hs
  have node : ∀ {e : Node.Ev Dto}, (∀ k a, e ≠ .launch k a) → ∀ {t : Sys K}, nodeEvent c s e = .ok t → Through c (reqs s') s.node t.node :=
    fun hl _ h => through_node (fun k a e => absurd e (hl k a)) h
  cases e with
  | request j => rw [step] at hs; rw [← Outcome.ok.inj hs]; exact .refl _ _
  | tick t => exact node (fun k a x => (by cases x)) hs
  | latch => exact node (fun k a x => (by cases x)) hs
  | net m => exact node (fun k a x => (by cases x)) hs
  | fwStep i => exact node (fun k a x => (by cases x)) hs
  | task i => exact node (fun k a x => (by cases x)) hs
  | runner j => exact node (fun k a x => (by cases x)) hs
  | cons q =>
    rw [step, consStep] at hs
    cases hq : s.node.cons q with
    | idle => rw [hq] at hs; exact node (fun k a x => (by cases x)) hs
    | got x =>
      rw [hq] at hs
      dsimp only at hs
      rw [Outcome.bind_eq_ok] at hs
      obtain ⟨s1, h1, h2⟩ := hs
      have := node (fun k a x => (by cases x)) h1
      rw [← Outcome.ok.inj h2] at this ⊢
      exact this
    | found x =>
      rw [hq] at hs
      dsimp only at hs
      rw [Outcome.bind_eq_ok] at hs
      obtain ⟨s1, h1, h2⟩ := hs
      obtain ⟨_, _, _, _, _, _, _, _, e1⟩ := run_ok h1
      have := through_node (l := reqs s') (fun k a x => (by cases x)) h2
      rw [e1] at this
      exact this
  | thread r =>
    rw [step, threadStep] at hs
    cases ho : s.node.reg.objs[r]? with
    | none => rw [ho] at hs; cases hs
    | some o =>
      rw [ho] at hs
      dsimp only at hs
      by_cases hst : o.started = 0
      · rw [if_pos hst] at hs; cases hs
      · rw [if_neg hst, Outcome.bind_eq_ok] at hs
        obtain ⟨s1, h1, h2⟩ := hs
        obtain ⟨_, _, _, _, _, _, _, _, e1⟩ := run_ok h1
        have en : s1.node = s.node := by rw [e1]
        by_cases hp : phaseOf s1 r = some .done
        · rw [if_pos hp] at h2
          have := through_node (l := reqs s') (fun k a x => (by cases x)) h2
          rw [en] at this
          exact this
        · rw [if_neg hp] at h2
          rw [← Outcome.ok.inj h2, en]; exact .refl _ _
  | job i g =>
    rw [step, jobStep] at hs
    cases hb : s.jobs[i]? with
    | none => rw [hb] at hs; cases hs
    | some b =>
      rw [hb] at hs
      dsimp only at hs
      cases hpc : b.pc with
      | registering =>
        rw [hpc] at hs
        dsimp only at hs
        split at hs
        · rw [← Outcome.ok.inj hs]; exact .refl _ _
        · split at hs
          · rw [Outcome.bind_eq_ok] at hs
            obtain ⟨_, _, hs⟩ := hs
            rw [← Outcome.ok.inj hs]; exact .refl _ _
          · cases hs
      | launching =>
        rw [hpc] at hs
        dsimp only at hs
        rw [Outcome.bind_eq_ok] at hs
        obtain ⟨s1, h1, hs⟩ := hs
        have hj : b.job ∈ reqs s' := by
          rw [hreq]
          exact List.mem_append_left _ (List.mem_map_of_mem (List.mem_of_getElem? hb))
        have := through_launch hj (fun g hg => hg) h1
        rw [← Outcome.ok.inj hs] at this ⊢
        exact this
      | waiting =>
        rw [hpc] at hs
        dsimp only at hs
        split at hs
        · rw [← Outcome.ok.inj hs]; exact .refl _ _
        · cases hs
      | deregistering =>
        rw [hpc] at hs
        dsimp only at hs
        split at hs
        · rw [← Outcome.ok.inj hs]; exact .refl _ _
        · split at hs
          · rw [Outcome.bind_eq_ok] at hs
            obtain ⟨_, _, hs⟩ := hs
            rw [← Outcome.ok.inj hs]; exact .refl _ _
          · cases hs
      | printing =>
        rw [hpc] at hs
        dsimp only at hs
        split at hs
        · rw [← Outcome.ok.inj hs]; exact .refl _ _
        · split at hs
          · rw [Outcome.bind_eq_ok] at hs
            obtain ⟨_, _, hs⟩ := hs
            rw [Outcome.bind_eq_ok] at hs
            obtain ⟨_, _, hs⟩ := hs
            rw [← Outcome.ok.inj hs]; exact .refl _ _
          · cases hs
      | ended => rw [hpc] at hs; cases hs

theorem Through.more {l l' : List Job} {n n' : Node.Sys Dto} (h : Through c l n n') (hl : ∀ j ∈ l, j ∈ l') : Through c l' n n' := by
  obtain ⟨es, h1, h2⟩ := h
  refine ⟨es, h1, fun k a hm => ?_⟩
  obtain ⟨j, hj, h⟩ := h2 k a hm
  exact ⟨j, hl j hj, h⟩

theorem through_run {s s' : Sys K} {h : List Ev} (hs : run c s h = .ok s') : Through c (reqs s') s.node s'.node := by
  induction h generalizing s with
  | nil => rw [run] at hs; rw [← Outcome.ok.inj hs]; exact .refl _ _
  | cons e h ih =>
    rw [run, Outcome.bind_eq_ok] at hs
    obtain ⟨s1, h1, h2⟩ := hs
    refine ((through_step h1).more fun j hj => ?_).trans (ih h2)
    rw [reqs_run h2]
    exact List.mem_append_left _ hj

end Verif.Program
