import Verif.Proofs.ProgramLive

/-! A runner whose call of `fw_set_allowance` came second for its run waits for ever, and so does its request. -/
namespace Verif.Firewall
variable {D : Type}

/-- A call that started no thread stays as it is. -/
theorem dead_stays {f f' : Fw D} {e : Ev D} (hs : step f e = .ok f') {x : Nat} {cl : Call} (hx : f.calls[x]? = some cl)
    (hl : cl.live = false) (ho : cl.obs = []) : f'.calls[x]? = some cl := by
  cases e with
  | tick t =>
    rw [step] at hs
    by_cases h : f.now ≤ t
    · rw [if_pos h] at hs; rw [← Outcome.ok.inj hs]; exact hx
    · rw [if_neg h] at hs; cases hs
  | latch =>
    rw [step] at hs
    by_cases h : f.dropAll = true ∧ f.dropUntil ≤ f.now
    · rw [if_pos h] at hs; rw [← Outcome.ok.inj hs]; exact hx
    · rw [if_neg h] at hs; cases hs
  | msg m =>
    rw [step] at hs
    rw [← Outcome.ok.inj hs, process]
    split
    · exact hx
    · split
      · exact hx
      · split
        · dsimp only
          split <;> exact hx
        · split <;> exact hx
  | allow k a =>
    rw [step, setAllowance] at hs
    have happ : ∀ y, (f.calls ++ [y])[x]? = some cl := fun y => by
      rw [List.getElem?_append_left (Registry.lt_of_some hx)]; exact hx
    by_cases h1 : (!keyValid f k) = true
    · rw [if_pos h1] at hs; cases hs
    rw [if_neg h1] at hs
    by_cases h2 : (f.allowances.get? k).isSome = true
    · rw [if_pos h2] at hs; rw [← Outcome.ok.inj hs]; exact happ _
    · rw [if_neg h2] at hs; rw [← Outcome.ok.inj hs]; exact happ _
  | read i =>
    rw [step] at hs
    cases hc : f.calls[i]? with
    | none => rw [hc] at hs; cases hs
    | some c =>
      rw [hc] at hs
      dsimp only at hs
      by_cases h : c.obs = []
      · rw [if_pos h] at hs; cases hs
      · rw [if_neg h] at hs
        rw [← Outcome.ok.inj hs]
        dsimp only
        rw [getElem?_set_other]
        · exact hx
        · rintro rfl
          exact h (by rw [← Option.some.inj (hx.symm.trans hc)]; exact ho)
  | step i =>
    rw [step, stateStep] at hs
    cases hc : f.calls[i]? with
    | none => rw [hc] at hs; cases hs
    | some c =>
      rw [hc] at hs
      dsimp only at hs
      by_cases hlive : c.live = true
      · have hne : x ≠ i := by
          rintro rfl
          rw [← Option.some.inj (hx.symm.trans hc), hl] at hlive
          cases hlive
        have hset : ∀ y, (f.calls.set i y)[x]? = some cl := fun y => by rw [getElem?_set_other _ hne]; exact hx
        rw [hlive] at hs
        simp only [Bool.not_true, Bool.false_eq_true, if_false] at hs
        split at hs
        · rw [← Outcome.ok.inj hs]; exact hset _
        · split at hs
          · split at hs
            · rw [← Outcome.ok.inj hs]; exact hset _
            · cases hs
          · split at hs
            · split at hs
              · rw [← Outcome.ok.inj hs]; exact hset _
              · cases hs
            · split at hs
              · split at hs
                · rw [← Outcome.ok.inj hs]; exact hset _
                · cases hs
              · cases hs
      · rw [Bool.not_eq_true] at hlive
        rw [hlive] at hs
        cases hs

end Verif.Firewall

namespace Verif.Node
variable {D : Type}

/-- The j-th runner waits for a notification of a call that started no thread. -/
structure Stuck (j : Nat) (u : Runner) (s : Sys D) : Prop where
  runner : s.runners[j]? = some u
  pos : u.pos = 2
  call : ∃ cl, s.fw.calls[u.call]? = some cl ∧ cl.live = false ∧ cl.obs = []

theorem stuck_step {s s' : Sys D} {j : Nat} {u : Runner} (h : Stuck j u s) {e : Ev D} (hs : step s e = .ok s') : Stuck j u s' := by
  obtain ⟨h1, h2, cl, h3, h4, h5⟩ := h
  have hset : ∀ {j' : Nat} {v v' : Runner}, s.runners[j']? = some v → v.pos ≠ 2 → (s.runners.set j' v')[j]? = some u := by
    intro j' v v' hv hp
    rw [Firewall.getElem?_set_other]
    · exact h1
    · rintro rfl
      exact hp (by rw [← Option.some.inj (h1.symm.trans hv)]; exact h2)
  have hfw : ∀ {fe : Firewall.Ev D} {f' : Firewall.Fw D}, Firewall.step s.fw fe = .ok f' →
      ∃ cl, f'.calls[u.call]? = some cl ∧ cl.live = false ∧ cl.obs = [] :=
    fun hf => ⟨cl, Firewall.dead_stays hf h3 h4 h5, h4, h5⟩
  cases step_shape hs with
  | fw _ hd => exact ⟨h1, h2, hfw hd.1⟩
  | reg => exact ⟨h1, h2, cl, h3, h4, h5⟩
  | launch => exact ⟨by dsimp only; rw [List.getElem?_append_left (Registry.lt_of_some h1)]; exact h1, h2, cl, h3, h4, h5⟩
  | take => exact ⟨h1, h2, cl, h3, h4, h5⟩
  | give => exact ⟨h1, h2, cl, h3, h4, h5⟩
  | delete => exact ⟨h1, h2, cl, h3, h4, h5⟩
  | find => exact ⟨h1, h2, cl, h3, h4, h5⟩
  | observe hu h0 => exact ⟨hset hu (by omega), h2, cl, h3, h4, h5⟩
  | allow hu h0 hd => exact ⟨hset hu (by omega), h2, hfw hd.1⟩
  | sleep hu h0 => exact ⟨hset hu (by omega), h2, cl, h3, h4, h5⟩
  | ensure hu h0 => exact ⟨hset hu (by omega), h2, cl, h3, h4, h5⟩
  | recv hu h0 => exact ⟨hset hu (by omega), h2, cl, h3, h4, h5⟩
  | @read j' v f' qs hu h0 hd =>
    by_cases hj : j = j'
    · exfalso
      subst hj
      have := Option.some.inj (h1.symm.trans hu)
      subst this
      have hr := hd.1
      rw [Firewall.step] at hr
      rw [h3] at hr
      dsimp only at hr
      rw [if_pos h5] at hr
      cases hr
    · exact ⟨by dsimp only; rw [Firewall.getElem?_set_other _ hj]; exact h1, h2, hfw hd.1⟩
  | signal hu h0 => exact ⟨hset hu (by omega), h2, cl, h3, h4, h5⟩

end Verif.Node

namespace Verif.Program
open Verif.Prot Verif.Dto Verif.Dss Verif.Dkg Verif.Tables Verif.Signode Verif.Props Verif.Spec.Prot Verif.Spec.Program
variable {K : Type} {c : Cfg K}

/-- The i-th request waits for such a runner. -/
structure Stuck (i j : Nat) (u : Node.Runner) (b : JobSt) (s : Sys K) : Prop where
  node : Node.Stuck j u s.node
  job : s.jobs[i]? = some b
  pc : b.pc = .waiting
  mine : j ∈ b.runners

theorem stuck_node {s s' : Sys K} {i j : Nat} {u : Node.Runner} {b : JobSt} (h : Stuck i j u b s) {e : Node.Ev Dto}
    (hs : nodeEvent c s e = .ok s') : Stuck i j u b s' := by
  obtain ⟨n, h1, rfl⟩ := node_ok hs
  exact ⟨Node.stuck_step h.node h1, h.job, h.pc, h.mine⟩

theorem stuck_step {s s' : Sys K} {i j : Nat} {u : Node.Runner} {b : JobSt} (h : Stuck i j u b s) {e : Ev} (hs : step c s e = .ok s') :
    Stuck i j u b s' := by
  have run : ∀ {r : Nat} {re : Prot.Ev Dto} {s1 : Sys K}, runEvent c s r re = .ok s1 → Stuck i j u b s1 := by
    intro r re s1 h1
    obtain ⟨_, _, _, _, _, _, _, _, rfl⟩ := run_ok h1
    exact ⟨h.node, h.job, h.pc, h.mine⟩
  cases step_kind hs with
  | node h1 _ _ _ f =>
    have := stuck_node h h1
    exact ⟨this.node, this.job, this.pc, this.mine⟩
  | thread h1 => exact run h1
  | last h1 _ h2 => exact stuck_node (run h1) h2
  | give _ h1 h2 => exact stuck_node (run h1) h2
  | @job i' g b1 b' d o hb _ hc =>
    refine ⟨h.node, ?_, h.pc, h.mine⟩
    dsimp only
    rw [Firewall.getElem?_set_other]
    · exact h.job
    · rintro rfl
      have := Option.some.inj (h.job.symm.trans hb)
      subst this
      have hp := h.pc
      rcases hc with ⟨_, _, _, _, p5⟩ | ⟨p1, _⟩ | ⟨_, _, _, p4⟩ | ⟨p1, _⟩ | ⟨p1, _⟩
      · rcases p5 with p5 | p5 | p5 <;> rw [hp] at p5 <;> cases p5
      · rw [hp] at p1; cases p1
      · rw [List.all_eq_true] at p4
        have := p4 j h.mine
        rw [released, h.node.runner, Option.map_some, Option.getD_some, decide_eq_true_eq, h.node.pos] at this
        omega
      · rw [hp] at p1; cases p1
      · rw [hp] at p1; cases p1
  | @launch i' g b1 s1 hb hp1 h1 =>
    have key : ∀ (gs : List Int) (s t : Sys K), Stuck i j u b s → launchAll c s b1.job gs = .ok t → Stuck i j u b t := by
      intro gs
      induction gs with
      | nil => intro s t hst hl; rw [launchAll] at hl; rw [← Outcome.ok.inj hl]; exact hst
      | cons g gs ih =>
        intro s t hst hl
        rw [launchAll, Outcome.bind_eq_ok] at hl
        obtain ⟨s2, l1, l2⟩ := hl
        exact ih s2 t (stuck_node hst l1) l2
    have h2 := key _ s s1 h h1
    refine ⟨h2.node, ?_, h.pc, h.mine⟩
    dsimp only
    rw [Firewall.getElem?_set_other]
    · exact h2.job
    · rintro rfl
      have := Option.some.inj (h.job.symm.trans hb)
      subst this
      have hp := h.pc
      rw [hp] at hp1; cases hp1
  | request =>
    exact ⟨h.node, by dsimp only; rw [List.getElem?_append_left (Registry.lt_of_some h.job)]; exact h.job, h.pc, h.mine⟩

theorem stuck_run {s s' : Sys K} {i j : Nat} {u : Node.Runner} {b : JobSt} (h : Stuck i j u b s) {es : List Ev}
    (hs : Verif.Program.run c s es = .ok s') : Stuck i j u b s' := by
  induction es generalizing s with
  | nil => have := Outcome.ok.inj hs; subst this; exact h
  | cons e es ih =>
    rw [Verif.Program.run, Outcome.bind_eq_ok] at hs
    obtain ⟨s1, h1, h2⟩ := hs
    exact ih (stuck_step h h1) h2

end Verif.Program
