import Verif.Proofs.KeyMain
import Verif.Proofs.ProgramSafe

/-! Where the tool can panic as it makes long-term keys. -/
namespace Verif.KeyProgram
open Verif.Prot Verif.Dto Verif.Dss Verif.Dkg Verif.Tables Verif.Signode Verif.Props Verif.Spec.Prot Verif.Spec.Signode
open Verif.Spec.KeyProgram
open Verif.Node (bind_ne_panic)
open Verif.Program (nodeEvent runEvent node_ok run_ok conf_node pushAll_keys pushAll_safe pop_keys initOutputs_some runEvent_node phaseOf
  threadStep consStep msgs_append)
variable {K : Type} {W : Message Dto → Prop} {P : Int → String → Prop}

/-- The tables have their entries, and the node knows its guests. -/
structure TInv (c : Program.Cfg K) (s : Program.Sys K) : Prop where
  sound : Node.Sound s.node
  known : ∀ k : RunKey, k.pc = 0 → k.gidx ∈ c.guests → Firewall.keyValid s.node.fw k = true
  outs : ∀ g ∈ c.guests, s.outs.get? (0, g) ≠ none ∧ s.outs.get? (1, g) ≠ none

theorem tinv_init (c : Cfg K) : TInv c.base (init c).prog := by
  refine ⟨Node.sound_make _ _ _ _ _ _, ?_, ?_⟩
  · intro k h1 h2
    rw [init, Program.init, Node.make, Firewall.make, Firewall.keyValid]
    dsimp only
    rw [h1]
    simpa using h2
  · intro g hg
    exact ⟨initOutputs_some _ _ _ _ ⟨0, by decide, rfl, hg⟩, initOutputs_some _ _ _ _ ⟨1, by decide, rfl, hg⟩⟩

section
variable {c : Program.Cfg K}

theorem tinv_node {s s' : Program.Sys K} {e : Node.Ev Dto} (hn : NInv W s.node) (h : TInv c s)
    (hl : ∀ k a, e = .launch k a → k.pc = 0 ∧ k.gidx ∈ c.guests) (hs : nodeEvent c s e = .ok s') : TInv c s' := by
  obtain ⟨n, h1, rfl⟩ := node_ok hs
  refine ⟨Node.sound_step (hn.good ⟨0, 0, ""⟩).r h.sound (fun k a he => ?_) h1, fun k h2 h3 => ?_, h.outs⟩
  · obtain ⟨h2, h3⟩ := hl k a he
    exact ⟨by rw [h2], h.known k h2 h3⟩
  · dsimp only
    rw [conf_node h1]
    exact h.known k h2 h3

theorem tnode_safe {s : Program.Sys K} {e : Node.Ev Dto} (hn : NInv W s.node) (h : TInv c s) : nodeEvent c s e ≠ .panic := by
  rw [nodeEvent]
  exact bind_ne_panic (Node.step_safe h.sound hn.orig e) fun _ _ hc => by cases hc

theorem tinv_run {s s' : Program.Sys K} {r : Nat} {e : Prot.Ev Dto} (h : TInv c s) (hs : runEvent c s r e = .ok s') : TInv c s' := by
  obtain ⟨u, o, u', outs, _, _, _, hp, rfl⟩ := run_ok hs
  exact ⟨h.sound, h.known, fun g hg => ⟨pushAll_keys hp _ (h.outs g hg).1, pushAll_keys hp _ (h.outs g hg).2⟩⟩

/-- The runs of the guests do not panic, if they are given messages for them that satisfy `W`. -/
def RunsSafe (c : Program.Cfg K) (W : Message Dto → Prop) : Prop :=
  ∀ g ∈ c.guests, ∀ r id t0 hist, (∀ m ∈ msgs hist, W m ∧ 0 ≤ m.op ∧ m.key = ⟨0, g, id⟩) →
    exec (dkgConf (c.y g r) id g c.members) (newRun Dto Obj (newData (c.gen g r)) t0) hist ≠ .panic

theorem calm_runs (hc : ∀ g ∈ c.guests, ∀ r, Calm (c.y g r)) (hW : ∀ m, W m → Complete m.dto) : RunsSafe c W := fun g hg r id t0 hist hm =>
  C60_dkg_partial (c.y g r) (hc _ hg r) id g c.members (c.gen g r) t0 hist fun m hx => ⟨(hm m hx).2.1, hW m (hm m hx).1⟩

theorem trun_safe {s : Program.Sys K} (hp : PInv c W P s) (ht : TInv c s) (hg : ∀ u ∈ s.node.runners, u.key.gidx ∈ c.guests)
    (hc : RunsSafe c W) {r : Nat} {e : Prot.Ev Dto}
    (he : e = .thread ∨ ∃ m, e = .msg m ∧ W m ∧ 0 ≤ m.op ∧ ∃ o, s.node.reg.objs[r]? = some o ∧ o.key = m.key) : runEvent c s r e ≠ .panic := by
  rw [runEvent]
  cases hr : s.runs[r]? with
  | none => intro h; cases h
  | some u =>
    cases ho : s.node.reg.objs[r]? with
    | none => intro h; cases h
    | some o =>
      dsimp only
      obtain ⟨v, hv, _, hk⟩ := hp.n.orig.obj r o ho
      have hgo : o.key.gidx ∈ c.guests := by rw [← hk]; exact hg v hv
      have h0 : o.key.pc = 0 := by rw [← hk]; exact hp.n.pc v hv
      have hkey : o.key = ⟨0, o.key.gidx, o.key.runId⟩ := by rw [← h0]
      refine bind_ne_panic ?_ fun u' _ => bind_ne_panic (pushAll_safe (ht.outs _ hgo).1 (ht.outs _ hgo).2) fun _ _ hc => by cases hc
      rw [Program.conf, if_pos h0]
      obtain ⟨t0, hist, hm, htr⟩ := hp.u.trace r o u ho hr
      have := hc o.key.gidx hgo r o.key.runId t0 (hist ++ [.tick s.node.fw.now, e]) (fun m hx => by
          rw [msgs_append] at hx
          rcases List.mem_append.1 hx with hx | hx
          · exact ⟨(hm m hx).1, (hm m hx).2.1, (hm m hx).2.2.trans hkey⟩
          · rcases he with rfl | ⟨m', rfl, h1, h2, o', h3, h4⟩
            · cases hx
            · have : m = m' := by simpa [msgs] using hx
              subst this
              rw [ho] at h3
              cases h3
              exact ⟨h1, h2, h4.symm.trans hkey⟩)
      rw [exec_append, htr, Outcome.bind_ok] at this
      exact this

end

variable {c : Cfg K}

theorem launchAll_safe {id : String} {t : Int} {gs : List Int} {p : Program.Sys K} : launchAll c id t gs p ≠ .panic := by
  induction gs generalizing p with
  | nil => intro h; cases h
  | cons g gs ih =>
    rw [launchAll]
    refine bind_ne_panic ?_ fun _ _ => ih
    rw [nodeEvent, Node.step]
    intro h; cases h

theorem launchAll_tinv {id : String} {t : Int} {gs : List Int} {p p' : Program.Sys K} (hecho : ∀ g id, W (echo g id)) (hn : NInv W p.node)
    (h : TInv c.base p) (hg : ∀ g ∈ gs, g ∈ c.base.guests) (hnd : gs.Nodup)
    (hf : ∀ g ∈ gs, (⟨0, g, id⟩ : RunKey) ∉ p.node.runners.map Node.Runner.key) (hs : launchAll c id t gs p = .ok p') : TInv c.base p' := by
  induction gs generalizing p with
  | nil => rw [launchAll] at hs; rw [← Outcome.ok.inj hs]; exact h
  | cons g gs ih =>
    rw [launchAll, Outcome.bind_eq_ok] at hs
    obtain ⟨s1, h1, h2⟩ := hs
    have h3 := tinv_node hn h (fun k a he => by cases he; exact ⟨rfl, hg g (List.mem_cons_self ..)⟩) h1
    obtain ⟨n, h4, rfl⟩ := node_ok h1
    have hn1 : NInv W n := ninv_step hecho hn (fun m he => by cases he)
      (fun k a he => by cases he; exact ⟨hf g (List.mem_cons_self ..), rfl⟩) h4
    rw [Node.step] at h4
    refine ih hn1 h3 (fun g' hg' => hg g' (List.mem_cons_of_mem _ hg')) (List.nodup_cons.1 hnd).2 (fun g' hg' hm => ?_) h2
    rw [← Outcome.ok.inj h4] at hm
    dsimp only at hm
    rw [List.map_append, List.mem_append] at hm
    rcases hm with hm | hm
    · exact hf g' (List.mem_cons_of_mem _ hg') hm
    · rw [List.map_singleton, List.mem_singleton] at hm
      have : g' = g := congrArg RunKey.gidx hm
      subst this
      exact (List.nodup_cons.1 hnd).1 hg'

/-- The rest of the program does not panic. -/
theorem prog_safe {s : Sys K} (h : SInv c W s) (ht : TInv c.base s.prog) (hc : RunsSafe c.base W)
    (e : Program.Ev) :
    progStep c s.prog e ≠ .panic ∧ ∀ p, progStep c s.prog e = .ok p → TInv c.base p := by
  have no : ∀ {Q : Program.Sys K → Prop}, (Outcome.err : Outcome (Program.Sys K)) ≠ .panic ∧
      ∀ s', (Outcome.err : Outcome (Program.Sys K)) = .ok s' → Q s' := ⟨fun h => (by cases h), fun _ h => (by cases h)⟩
  have node : ∀ {e : Node.Ev Dto}, (∀ k a, e ≠ .launch k a) →
      nodeEvent c.base s.prog e ≠ .panic ∧ ∀ p, nodeEvent c.base s.prog e = .ok p → TInv c.base p :=
    fun hl => ⟨tnode_safe h.p.n ht, fun s' hs => tinv_node h.p.n ht (fun k a he => absurd he (hl k a)) hs⟩
  have hg : ∀ u ∈ s.prog.node.runners, u.key.gidx ∈ c.base.guests := by
    intro u hu
    obtain ⟨j, g, hg, hk, _⟩ := h.m.owner u hu
    rw [hk]; exact hg
  cases e with
  | tick t => exact node (fun k a he => by cases he)
  | latch => exact node (fun k a he => by cases he)
  | net m => exact node (fun k a he => by cases he)
  | fwStep i => exact node (fun k a he => by cases he)
  | task i => exact node (fun k a he => by cases he)
  | runner j => exact node (fun k a he => by cases he)
  | request j => exact no
  | job i g =>
    change Program.jobStep c.base s.prog i g ≠ .panic ∧ ∀ p, Program.jobStep c.base s.prog i g = .ok p → TInv c.base p
    rw [Program.jobStep, h.p.jobs]
    exact no
  | thread r =>
    change threadStep c.base s.prog r ≠ .panic ∧ ∀ p, threadStep c.base s.prog r = .ok p → TInv c.base p
    rw [threadStep]
    cases ho : s.prog.node.reg.objs[r]? with
    | none => exact no
    | some o =>
      dsimp only
      by_cases hst : o.started = 0
      · rw [if_pos hst]; exact no
      · rw [if_neg hst]
        refine ⟨bind_ne_panic (trun_safe h.p ht hg hc (.inl rfl)) fun s1 h1 => ?_, fun s' hs => ?_⟩
        · by_cases hp : phaseOf s1 r = some .done
          · rw [if_pos hp]
            exact tnode_safe (by rw [runEvent_node h1]; exact h.p.n) (tinv_run ht h1)
          · rw [if_neg hp]; intro hx; cases hx
        · rw [Outcome.bind_eq_ok] at hs
          obtain ⟨s1, h1, h2⟩ := hs
          by_cases hp : phaseOf s1 r = some .done
          · rw [if_pos hp] at h2
            exact tinv_node (by rw [runEvent_node h1]; exact h.p.n) (tinv_run ht h1) (fun k a he => by cases he) h2
          · rw [if_neg hp] at h2
            rw [← Outcome.ok.inj h2]
            exact tinv_run ht h1
  | cons q =>
    change consStep c.base s.prog q ≠ .panic ∧ ∀ p, consStep c.base s.prog q = .ok p → TInv c.base p
    rw [consStep]
    cases hq : s.prog.node.cons q with
    | idle => exact node (fun k a he => by cases he)
    | got x =>
      dsimp only
      refine ⟨bind_ne_panic (tnode_safe h.p.n ht) fun _ _ hc => (by cases hc), fun s' hs => ?_⟩
      rw [Outcome.bind_eq_ok] at hs
      obtain ⟨s1, h1, h2⟩ := hs
      have h3 := tinv_node h.p.n ht (fun k a he => by cases he) h1
      rw [← Outcome.ok.inj h2]
      exact ⟨h3.sound, h3.known, h3.outs⟩
    | found x =>
      dsimp only
      obtain ⟨hx, hr⟩ := h.p.n.carry.hold q x hq
      refine ⟨bind_ne_panic (trun_safe h.p ht hg hc (.inr ⟨x, rfl, hx, hr.1, h.p.f q x hq⟩)) fun s1 h1 => ?_, fun s' hs => ?_⟩
      · exact tnode_safe (by rw [runEvent_node h1]; exact h.p.n) (tinv_run ht h1)
      · rw [Outcome.bind_eq_ok] at hs
        obtain ⟨s1, h1, h2⟩ := hs
        exact tinv_node (by rw [runEvent_node h1]; exact h.p.n) (tinv_run ht h1) (fun k a he => by cases he) h2

/-- The tables after a step of the main goroutine. -/
theorem tinv_main {s s' : Sys K} {g : Int} (hi : Inj c) (hgn : c.base.guests.Nodup) (hecho : ∀ g id, W (echo g id)) (h : SInv c W s)
    (ht : TInv c.base s.prog) (hs : mainStep c s g = .ok s') : TInv c.base s'.prog := by
  rw [mainStep, runId_ids h.m] at hs
  dsimp only at hs
  cases hpc : s.main.pc with
  | launching =>
    rw [hpc] at hs
    dsimp only at hs
    rw [Outcome.bind_eq_ok] at hs
    obtain ⟨p, h1, h2⟩ := hs
    rw [← Outcome.ok.inj h2]
    exact launchAll_tinv hecho h.p.n ht (fun g hg => hg) hgn (fun g _ => launch_fresh hi h.m hpc g) h1
  | waiting =>
    rw [hpc] at hs
    dsimp only at hs
    by_cases ho : s.main.runners.all (Program.released s.prog) = true
    · rw [if_pos ho] at hs
      rw [← Outcome.ok.inj hs]; exact ht
    · rw [if_neg ho] at hs; cases hs
  | collecting =>
    rw [hpc] at hs
    dsimp only at hs
    by_cases ho : (c.base.guests.all fun g => decide (g ∈ s.main.done)) = true
    · rw [if_pos ho] at hs
      rw [← Outcome.ok.inj hs]; exact ht
    · rw [if_neg ho] at hs
      by_cases hm : (decide (g ∈ c.base.guests) && decide (g ∉ s.main.done)) = true
      · rw [if_pos hm, Outcome.bind_eq_ok] at hs
        obtain ⟨⟨o1, v⟩, h1, hs⟩ := hs
        rw [Outcome.bind_eq_ok] at hs
        obtain ⟨sh, _, hs⟩ := hs
        rw [← Outcome.ok.inj hs]
        exact ⟨ht.sound, ht.known, fun g' hg' => ⟨pop_keys h1 _ (ht.outs g' hg').1, pop_keys h1 _ (ht.outs g' hg').2⟩⟩
      · rw [if_neg hm] at hs; cases hs
  | checking => rw [hpc] at hs; cases hs

theorem tinv_check {s s' : Sys K} {order : List Int} (ht : TInv c.base s.prog) (hs : checkStep c s order = .ok s') : TInv c.base s'.prog := by
  rw [checkStep] at hs
  by_cases hc : s.main.pc = .checking ∧ order.Perm s.main.lts.keys
  · rw [if_pos hc, Outcome.bind_eq_ok] at hs
    obtain ⟨cv, _, hs⟩ := hs
    cases cv with
    | true =>
      rw [if_pos rfl, Outcome.bind_eq_ok] at hs
      obtain ⟨f, _, hs⟩ := hs
      rw [← Outcome.ok.inj hs]; exact ht
    | false =>
      rw [if_neg (by simp)] at hs
      rw [← Outcome.ok.inj hs]; exact ht
  · rw [if_neg hc] at hs; cases hs

theorem tinv_step {s s' : Sys K} {e : Ev} (hi : Inj c) (hgn : c.base.guests.Nodup) (hecho : ∀ g id, W (echo g id)) (h : SInv c W s)
    (ht : TInv c.base s.prog) (hc : RunsSafe c.base W)
    (hs : step c s e = .ok s') : TInv c.base s'.prog := by
  rw [Verif.KeyProgram.step.eq_def] at hs
  by_cases hf : s.file.isSome = true
  · rw [if_pos hf] at hs; cases hs
  · rw [if_neg hf] at hs
    cases e with
    | prog e =>
      dsimp only at hs
      rw [Outcome.bind_eq_ok] at hs
      obtain ⟨p, h1, h2⟩ := hs
      rw [← Outcome.ok.inj h2]
      exact (prog_safe h ht hc e).2 p h1
    | main g => exact tinv_main hi hgn hecho h ht hs
    | check order => exact tinv_check ht hs

theorem tinv_steps {s s' : Sys K} {h : List Ev} (hi : Inj c) (hgn : c.base.guests.Nodup) (hecho : ∀ g id, W (echo g id)) (hI : SInv c W s)
    (ht : TInv c.base s.prog) (hc : RunsSafe c.base W)
    (hw : ∀ m, .prog (.net m) ∈ h → W m) (hs : run c s h = .ok s') : TInv c.base s'.prog := by
  induction h generalizing s with
  | nil => rw [run] at hs; rw [← Outcome.ok.inj hs]; exact ht
  | cons e h ih =>
    rw [run, Outcome.bind_eq_ok] at hs
    obtain ⟨s1, h1, h2⟩ := hs
    exact ih (sinv_step hi hgn hecho hI (fun m he => hw m (by rw [← he]; exact List.mem_cons_self ..)) h1)
      (tinv_step hi hgn hecho hI ht hc h1) (fun m hm => hw m (List.mem_cons_of_mem _ hm)) h2

end Verif.KeyProgram
