import Verif.Proofs.ProgramSent
import Verif.Proofs.KeyLive

/-! The tool as it makes long-term keys, when nothing is late: the runs of each attempt keep to their schedule. -/
namespace Verif.KeyProgram
open Verif.Prot Verif.Dto Verif.Dss Verif.Dkg Verif.Tables Verif.Signode Verif.Props Verif.Spec.Prot Verif.Spec.Signode
open Verif.Spec.KeyProgram
open Verif.Spec.Program (ends)
open Verif.Registry (lt_of_some)
open Verif.Program (nodeEvent runEvent released node_ok run_ok runs_node objs_step step_kind Whole)
variable {K : Type} {W : Message Dto → Prop} {P : Int → String → Prop}

section
variable {c : Program.Cfg K}

/-- The key generation of a run. -/
abbrev runConf (c : Program.Cfg K) (r : Nat) (k : RunKey) : Conf Dto Obj (Data K) := dkgConf (c.y k.gidx r) k.runId k.gidx c.members

theorem run_inv {s : Program.Sys K} (h : PInv c W P s) {r : Nat} {o : Registry.Obj} {u : Run Dto Obj (Data K)}
    (ho : s.node.reg.objs[r]? = some o) (hu : s.runs[r]? = some u) : Prot.Inv (runConf c r o.key) u := by
  obtain ⟨t0, hist, _, htr⟩ := h.u.trace r o u ho hu
  exact (agree_exec htr).inv

/-- What a section of a run is. -/
theorem section_step {s s1 : Program.Sys K} (h : PInv c W P s) {r : Nat} {e : Prot.Ev Dto} (hs : runEvent c s r e = .ok s1) :
    ∃ u o u' outs, s.runs[r]? = some u ∧ s.node.reg.objs[r]? = some o ∧
      Prot.Inv (runConf c r o.key) { u with now := s.node.fw.now } ∧ Prot.step (runConf c r o.key) { u with now := s.node.fw.now } e = .ok u' ∧
      s1 = { s with runs := s.runs.set r u', outs := outs } := by
  obtain ⟨u, o, u', outs, hr, ho, hx, _, rfl⟩ := run_ok hs
  rw [conf_dkg (h.n.objPc ho)] at hx
  have hinv := run_inv h ho hr
  rw [exec, Outcome.bind_eq_ok] at hx
  obtain ⟨u1, e1, hx⟩ := hx
  rw [exec, Outcome.bind_eq_ok] at hx
  obtain ⟨u2, e2, hx⟩ := hx
  rw [exec] at hx
  rw [Prot.step] at e1
  by_cases ht : u.now ≤ s.node.fw.now
  · rw [if_pos ht] at e1
    have e1 := (Outcome.ok.inj e1).symm
    have hu2 := Outcome.ok.inj hx
    subst hu2
    subst e1
    exact ⟨u, o, u2, outs, hr, ho, inv_now hinv _, e2, rfl⟩
  · rw [if_neg ht] at e1; cases e1

/-- Where the runs after a step come from. -/
theorem run_change {s s' : Program.Sys K} {e : Program.Ev} (h : PInv c W P s) (he : ∀ j, e ≠ .request j) (hs : Program.step c s e = .ok s') {r : Nat}
    {u' : Run Dto Obj (Data K)} (hu' : s'.runs[r]? = some u') :
    s.runs[r]? = some u' ∨ (r = s.runs.length ∧ ∃ k t0, u' = newRun Dto Obj (newData (c.gen k r)) t0) ∨
    ∃ u o pe, s.runs[r]? = some u ∧ s.node.reg.objs[r]? = some o ∧ (pe = .thread ∨ ∃ m, pe = .msg m) ∧
      Prot.Inv (runConf c r o.key) { u with now := s.node.fw.now } ∧ Prot.step (runConf c r o.key) { u with now := s.node.fw.now } pe = .ok u' := by
  have node : ∀ {s1 s2 : Program.Sys K} {ne : Node.Ev Dto}, s1.runs.length = s1.node.reg.objs.length → nodeEvent c s1 ne = .ok s2 → ∀ {u'},
      s2.runs[r]? = some u' → s1.runs[r]? = some u' ∨ (r = s1.runs.length ∧ ∃ k t0, u' = newRun Dto Obj (newData (c.gen k r)) t0) := by
    intro s1 s2 ne hlen h1 u' hu'
    obtain ⟨n, h2, rfl⟩ := node_ok h1
    obtain ⟨_, _, l3⟩ := runs_node (c := c) hlen (objs_step h2).len rfl
    rcases l3 r u' hu' with hu | ⟨hr, o, t0, _, e⟩
    · exact .inl hu
    · exact .inr ⟨hr, o.key.gidx, t0, e⟩
  have sec : ∀ {s1 : Program.Sys K} {r1 : Nat} {pe : Prot.Ev Dto}, (pe = .thread ∨ ∃ m, pe = .msg m) →
      runEvent c s r1 pe = .ok s1 → (s1.runs.length = s.runs.length ∧ s1.node = s.node) ∧ (s1.runs[r]? = some u' → s.runs[r]? = some u' ∨
      ∃ u o pe, s.runs[r]? = some u ∧ s.node.reg.objs[r]? = some o ∧ (pe = .thread ∨ ∃ m, pe = .msg m) ∧
      Prot.Inv (runConf c r o.key) { u with now := s.node.fw.now } ∧ Prot.step (runConf c r o.key) { u with now := s.node.fw.now } pe = .ok u') := by
    intro s1 r1 pe he h1
    obtain ⟨u, o, u1, outs, a1, a2, a4, a5, rfl⟩ := section_step h h1
    refine ⟨⟨List.length_set, rfl⟩, fun hu' => ?_⟩
    rcases Firewall.getElem?_set_some a1 hu' with ⟨rfl, rfl⟩ | ⟨_, hu'⟩
    · exact .inr ⟨u, o, pe, a1, a2, he, a4, a5⟩
    · exact .inl hu'
  cases step_kind hs with
  | node h1 _ _ _ f => exact (node h.u.len h1 hu').imp id .inl
  | thread h1 => exact ((sec (.inl rfl) h1).2 hu').imp id .inr
  | last h1 _ h3 =>
    obtain ⟨⟨l1, l2⟩, h4⟩ := sec (.inl rfl) h1
    rcases node (by rw [l1, l2]; exact h.u.len) h3 hu' with hu | hu
    · exact (h4 hu).imp id .inr
    · rw [l1] at hu; exact .inr (.inl hu)
  | give hq h1 h2 =>
    obtain ⟨⟨l1, l2⟩, h4⟩ := sec (.inr ⟨_, rfl⟩) h1
    rcases node (by rw [l1, l2]; exact h.u.len) h2 hu' with hu | hu
    · exact (h4 hu).imp id .inr
    · rw [l1] at hu; exact .inr (.inl hu)
  | job hb => rw [h.jobs] at hb; cases hb
  | launch hb => rw [h.jobs] at hb; cases hb
  | request => exact absurd rfl (he _)

end

variable {c : Cfg K}

/-- What an event of the main goroutine does to the rest. -/
structure Aside (c : Cfg K) (s s' : Sys K) : Prop where
  file : s.file = none
  node : ∃ l, (∀ u ∈ l, u.key.runId = ids c s.main.i ∧ u.allow = allowed c s.main.i) ∧
    s'.prog.node = { s.prog.node with runners := s.prog.node.runners ++ l }
  runs : s'.prog.runs = s.prog.runs
  found : s'.prog.found = s.prog.found
  i : s.main.i ≤ s'.main.i
  own : s'.main.pc = .waiting → s'.main.i = s.main.i ∧
    ∀ j ∈ s'.main.runners, ∃ u, s'.prog.node.runners[j]? = some u ∧ u.key.runId = ids c s.main.i
  es : ∃ es, Node.run s.prog.node es = .ok s'.prog.node

theorem aside_step {s s' : Sys K} {e : Ev} (hi : Inj c) (hgn : c.base.guests.Nodup) (hecho : ∀ g id, W (echo g id)) (h : Known c W s)
    (hs : step c s e = .ok s') (he : ∀ pe, e ≠ .prog pe) : Aside c s s' := by
  rw [Verif.KeyProgram.step.eq_def] at hs
  by_cases hf : s.file.isSome = true
  · rw [if_pos hf] at hs; cases hs
  rw [if_neg hf] at hs
  have hfile : s.file = none := by simpa using hf
  have same : ∀ {t : Sys K}, t.prog.node = s.prog.node → t.prog.runs = s.prog.runs → t.prog.found = s.prog.found → s.main.i ≤ t.main.i →
      t.main.pc ≠ .waiting → Aside c s t := fun h1 h2 h3 h4 h5 =>
    ⟨hfile, ⟨[], nofun, by rw [List.append_nil]; exact h1⟩, h2, h3, h4, fun h => absurd h h5, ⟨[], by rw [h1]; rfl⟩⟩
  cases e with
  | prog e => exact absurd rfl (he e)
  | main g =>
    dsimp only at hs
    rw [mainStep, runId_ids h.i.m] at hs
    dsimp only at hs
    cases hpc : s.main.pc with
    | launching =>
      rw [hpc] at hs
      dsimp only at hs
      rw [Outcome.bind_eq_ok] at hs
      obtain ⟨p, h1, hs⟩ := hs
      have hs := (Outcome.ok.inj hs).symm
      subst hs
      have hes := known_launch h1
      obtain ⟨_, e1⟩ := launchAll_inv hecho h.i.p.n h.i.p.u.len hgn (fun g _ => launch_fresh hi h.i.m hpc g) h1
      refine ⟨hfile, ⟨c.base.guests.map fun g => ⟨⟨0, g, ids c s.main.i⟩, c.allow s.main.time, 0, 0, 0⟩, fun u hu => ?_, ?_⟩, ?_, ?_, Nat.le_refl _,
        fun _ => ⟨rfl, fun j hj => ?_⟩, hes⟩
      · obtain ⟨g', _, rfl⟩ := List.mem_map.1 hu
        exact ⟨rfl, by dsimp only; rw [h.i.m.time]; rfl⟩
      · dsimp only; rw [e1]
      · dsimp only; rw [e1]
      · dsimp only; rw [e1]
      · dsimp only at hj ⊢
        obtain ⟨x, hx, rfl⟩ := List.mem_map.1 hj
        rw [List.mem_range] at hx
        rw [e1]
        dsimp only
        rw [List.getElem?_append_right (Nat.le_add_right _ _), Nat.add_sub_cancel_left, List.getElem?_map, List.getElem?_eq_getElem hx]
        exact ⟨_, rfl, rfl⟩
    | waiting =>
      rw [hpc] at hs
      dsimp only at hs
      by_cases ho : s.main.runners.all (released s.prog) = true
      · rw [if_pos ho] at hs
        rw [← Outcome.ok.inj hs]
        exact same rfl rfl rfl (Nat.le_refl _) nofun
      · rw [if_neg ho] at hs; cases hs
    | collecting =>
      rw [hpc] at hs
      dsimp only at hs
      by_cases ho : (c.base.guests.all fun g => decide (g ∈ s.main.done)) = true
      · rw [if_pos ho] at hs
        rw [← Outcome.ok.inj hs]
        exact same rfl rfl rfl (Nat.le_refl _) nofun
      · rw [if_neg ho] at hs
        by_cases hm : (decide (g ∈ c.base.guests) && decide (g ∉ s.main.done)) = true
        · rw [if_pos hm, Outcome.bind_eq_ok] at hs
          obtain ⟨_, _, hs⟩ := hs
          rw [Outcome.bind_eq_ok] at hs
          obtain ⟨_, _, hs⟩ := hs
          rw [← Outcome.ok.inj hs]
          exact same rfl rfl rfl (Nat.le_refl _) nofun
        · rw [if_neg hm] at hs; cases hs
    | checking => rw [hpc] at hs; cases hs
  | check order =>
    dsimp only at hs
    rw [checkStep] at hs
    by_cases hc : s.main.pc = .checking ∧ order.Perm s.main.lts.keys
    · rw [if_pos hc, Outcome.bind_eq_ok] at hs
      obtain ⟨cv, _, hs⟩ := hs
      cases cv with
      | true =>
        rw [if_pos rfl, Outcome.bind_eq_ok] at hs
        obtain ⟨_, _, hs⟩ := hs
        rw [← Outcome.ok.inj hs]
        exact same rfl rfl rfl (Nat.le_refl _) (by dsimp only; rw [hc.1]; exact nofun)
      | false =>
        rw [if_neg (by decide)] at hs
        rw [← Outcome.ok.inj hs]
        exact same rfl rfl rfl (Nat.le_succ _) nofun
    · rw [if_neg hc] at hs; cases hs

theorem prog_ok {s s' : Sys K} {e : Program.Ev} (hs : step c s (.prog e) = .ok s') : s.file = none ∧ (∀ j, e ≠ .request j) ∧
    ∃ p, Program.step c.base s.prog e = .ok p ∧ s' = { s with prog := p } := by
  rw [Verif.KeyProgram.step.eq_def] at hs
  by_cases hf : s.file.isSome = true
  · rw [if_pos hf] at hs; cases hs
  rw [if_neg hf] at hs
  dsimp only at hs
  rw [Outcome.bind_eq_ok] at hs
  obtain ⟨p, h1, h2⟩ := hs
  obtain ⟨h3, h4⟩ := prog_step h1
  exact ⟨by simpa using hf, h4, p, h3, (Outcome.ok.inj h2).symm⟩

/-- What else is known of a state that was reached: which allowances the runners have, and that no run is before its start. -/
structure Side (c : Cfg K) (s : Sys K) : Prop where
  allow : ∀ u ∈ s.prog.node.runners, ∃ i, u.key.runId = ids c i ∧ u.allow = allowed c i
  timely : Node.Timely s.prog.node
  own : s.main.pc = .waiting → ∀ j ∈ s.main.runners, ∃ u, s.prog.node.runners[j]? = some u ∧ u.key.runId = ids c s.main.i
  stages : s.prog.node.stages = Program.stageCount
  drop : s.prog.node.fw.dropUntil = c.base.dropUntil

theorem side_step {s s' : Sys K} {e : Ev} (hi : Inj c) (hgn : c.base.guests.Nodup) (hecho : ∀ g id, W (echo g id)) (h : Known c W s)
    (hS : Side c s) (hs : step c s e = .ok s') : Side c s' := by
  by_cases he : ∃ pe, e = .prog pe
  · obtain ⟨pe, rfl⟩ := he
    obtain ⟨_, hr, p, h1, rfl⟩ := prog_ok hs
    obtain ⟨es, h2, h3⟩ := Program.through_step h1
    have hjobs : Program.reqs p = [] := by
      have : p.jobs = s.prog.jobs := by
        cases step_kind h1 with
        | node k1 => obtain ⟨_, _, rfl⟩ := node_ok k1; rfl
        | thread k1 => obtain ⟨_, _, _, _, _, _, _, _, rfl⟩ := run_ok k1; rfl
        | last k1 _ k2 =>
          obtain ⟨_, _, _, _, _, _, _, _, rfl⟩ := run_ok k1
          obtain ⟨_, _, rfl⟩ := node_ok k2; rfl
        | give _ k1 k2 =>
          obtain ⟨_, _, _, _, _, _, _, _, rfl⟩ := run_ok k1
          obtain ⟨_, _, rfl⟩ := node_ok k2; rfl
        | job hb => rw [h.i.p.jobs] at hb; cases hb
        | launch hb => rw [h.i.p.jobs] at hb; cases hb
        | request => exact absurd rfl (hr _)
      rw [Program.reqs, this, h.i.p.jobs]; rfl
    refine ⟨fun u hu => ?_, Node.timely_run (h.i.p.n.good ⟨0, 0, ""⟩) hS.timely h2, fun hw j hj => ?_, (Node.const_run h2).1.trans hS.stages,
      (Node.const_run h2).2.trans hS.drop⟩
    · rcases Node.runners_run h2 u hu with ⟨v, hv, e1, e2⟩ | hl
      · obtain ⟨i, a1, a2⟩ := hS.allow v hv
        exact ⟨i, by rw [← e1, a1], by rw [← e2, a2]⟩
      · obtain ⟨j, hj, _⟩ := h3 _ _ hl
        rw [hjobs] at hj; cases hj
    · obtain ⟨u, hu, hk⟩ := hS.own hw j hj
      have hpre := Program.keys_prefix h1
      obtain ⟨l, hl⟩ := hpre
      have h4 : (p.node.runners.map Node.Runner.key)[j]? = some u.key := by
        rw [← hl, List.getElem?_append_left (by rw [List.length_map]; exact lt_of_some hu), List.getElem?_map, hu]; rfl
      rw [List.getElem?_map, Option.map_eq_some_iff] at h4
      obtain ⟨u', hu', e⟩ := h4
      exact ⟨u', hu', by rw [e]; exact hk⟩
  · have hA := aside_step hi hgn hecho h hs fun pe h => he ⟨pe, h⟩
    obtain ⟨es, h2⟩ := hA.es
    obtain ⟨l, hl, e1⟩ := hA.node
    refine ⟨fun u hu => ?_, Node.timely_run (h.i.p.n.good ⟨0, 0, ""⟩) hS.timely h2, fun hw j hj => ?_, (Node.const_run h2).1.trans hS.stages,
      (Node.const_run h2).2.trans hS.drop⟩
    · rw [e1] at hu
      rcases List.mem_append.1 hu with hu | hu
      · exact hS.allow u hu
      · exact ⟨_, hl u hu⟩
    · obtain ⟨e2, h3⟩ := hA.own hw
      rw [e2]; exact h3 j hj

/-- A state of a history. -/
def Reach (c : Cfg K) (s : Sys K) : Prop := ∃ h, run c (init c) h = .ok s

theorem run_append (s : Sys K) (h g : List Ev) : run c s (h ++ g) = (run c s h >>= fun s' => run c s' g) := by
  induction h generalizing s with
  | nil => rfl
  | cons e h ih =>
    rw [List.cons_append, run, run]
    cases step c s e with
    | ok s' => exact ih s'
    | err => rfl
    | panic => rfl

theorem run_append_ok {s s' : Sys K} {h g : List Ev} (hs : run c s (h ++ g) = .ok s') : ∃ s1, run c s h = .ok s1 ∧ run c s1 g = .ok s' := by
  rw [run_append, Outcome.bind_eq_ok] at hs
  exact hs

theorem run_snoc {s s1 s' : Sys K} {h : List Ev} {e : Ev} (h1 : run c s h = .ok s1) (h2 : step c s1 e = .ok s') : run c s (h ++ [e]) = .ok s' := by
  rw [run_append, h1, Outcome.bind_ok, run, h2]; rfl

/-- The run identifiers are distinct and no guest is there twice. -/
structure Fit (c : Cfg K) : Prop where
  inj : Inj c
  guests : c.base.guests.Nodup

theorem Reach.known {s : Sys K} (h : Reach c s) (hc : Fit c) : Known c (fun _ => True) s := by
  obtain ⟨h, hr⟩ := h
  exact known_run hc.inj hc.guests (fun _ _ => trivial) (known_init c _) (fun _ _ => trivial) hr

theorem Reach.side {s : Sys K} (h : Reach c s) (hc : Fit c) : Side c s := by
  obtain ⟨h, hr⟩ := h
  induction h using List.reverseRecOn generalizing s with
  | nil =>
    rw [run] at hr
    rw [← Outcome.ok.inj hr]
    exact ⟨nofun, Node.timely_make .., nofun, rfl, rfl⟩
  | append_singleton h e ih =>
    obtain ⟨s1, h1, h2⟩ := run_append_ok hr
    rw [run, Outcome.bind_eq_ok] at h2
    obtain ⟨s2, h2, h3⟩ := h2
    rw [run] at h3
    rw [← Outcome.ok.inj h3]
    have hR1 : Reach c s1 := ⟨h, h1⟩
    exact side_step hc.inj hc.guests (fun _ _ => trivial) (hR1.known hc) (ih h1) h2

theorem Reach.step {s s' : Sys K} {e : Ev} (h : Reach c s) (hs : step c s e = .ok s') : Reach c s' := by
  obtain ⟨h, hr⟩ := h
  exact ⟨_, run_snoc hr hs⟩

/-- The allowance of a runner. -/
theorem Reach.allow {s : Sys K} (h : Reach c s) (hc : Fit c) {v : Node.Runner} (hv : v ∈ s.prog.node.runners) {i : Nat}
    (hk : v.key.runId = ids c i) : v.allow = allowed c i := by
  obtain ⟨i', h1, h2⟩ := (h.side hc).allow v hv
  rw [h2, hc.inj _ _ (h1.symm.trans hk)]

/-- No run is there before the start of its attempt. -/
theorem Reach.start {s : Sys K} (h : Reach c s) (hc : Fit c) {o : Registry.Obj} (ho : o ∈ s.prog.node.reg.objs) {i : Nat}
    (hk : o.key.runId = ids c i) : (allowed c i).start ≤ s.prog.node.fw.now := by
  obtain ⟨u, hu, h1, h2⟩ := (h.side hc).timely.obj o ho
  rw [← h.allow hc hu (by rw [h1]; exact hk)]
  exact h2

/-- The state at another time. -/
def at_ (s : Sys K) (t : Int) : Sys K := { s with prog := Program.at_ s.prog t }

theorem tick_eq {s : Sys K} (hlen : s.prog.runs.length = s.prog.node.reg.objs.length) (hf : s.file = none) (t : Int) :
    step c s (.prog (.tick t)) = if s.prog.node.fw.now ≤ t then .ok (at_ s t) else .err := by
  rw [Verif.KeyProgram.step.eq_def, if_neg (by rw [hf]; simp)]
  show (Program.step c.base s.prog (.tick t) >>= fun p => .ok { s with prog := p }) = _
  rw [Program.tick_eq hlen]
  by_cases ht : s.prog.node.fw.now ≤ t
  · rw [if_pos ht, if_pos ht]; rfl
  · rw [if_neg ht, if_neg ht]; rfl

/-- An invariant of a process in which nothing is late. -/
theorem prompt_induct {Q : Sys K → Prop} (hc : Fit c) {h0 : List Ev} {s0 : Sys K} (hr : run c (init c) h0 = .ok s0) (hp : Q s0)
    {h : List Ev} {s : Sys K} (hs : run c s0 h = .ok s) (hpr : Prompt c (h0 ++ h))
    (hstep : ∀ s e s', Reach c s → Reach c s' → Q s → step c s e = .ok s' → (∀ t, e ≠ .prog (.tick t)) → Q s')
    (hwait : ∀ s t, s.file = none → Reach c s → Reach c (at_ s (t - 1)) → Q s → s.prog.node.fw.now < t → Quiet c (at_ s (t - 1)) → Q (at_ s t)) :
    Q s := by
  induction h using List.reverseRecOn generalizing s with
  | nil => rw [run] at hs; rw [← Outcome.ok.inj hs]; exact hp
  | append_singleton h e ih =>
    obtain ⟨s1, h1, h2⟩ := run_append_ok hs
    rw [run, Outcome.bind_eq_ok] at h2
    obtain ⟨s2, h2, h3⟩ := h2
    rw [run] at h3
    have := Outcome.ok.inj h3
    subst this
    rw [← List.append_assoc] at hpr
    have hP1 := ih h1 (fun a t b hab => hpr a t (b ++ [e]) (by rw [hab]; simp))
    have hrun : run c (init c) (h0 ++ h) = .ok s1 := by rw [run_append, hr, Outcome.bind_ok]; exact h1
    have hR1 : Reach c s1 := ⟨_, hrun⟩
    by_cases he : ∃ t, e = .prog (.tick t)
    · obtain ⟨t, rfl⟩ := he
      have hf := (prog_ok h2).1
      have hlen := (hR1.known hc).i.p.u.len
      rw [tick_eq hlen hf] at h2
      by_cases ht : s1.prog.node.fw.now ≤ t
      · rw [if_pos ht] at h2
        have h2 := Outcome.ok.inj h2
        rw [← h2]
        by_cases hlt : s1.prog.node.fw.now < t
        · have htk : step c s1 (.prog (.tick (t - 1))) = .ok (at_ s1 (t - 1)) := by rw [tick_eq hlen hf, if_pos (by omega)]
          exact hwait s1 t hf hR1 (hR1.step htk) hP1 hlt (hpr (h0 ++ h) t [] rfl s1 hrun hlt _ htk)
        · have : t = s1.prog.node.fw.now := by omega
          rw [this]; exact hP1
      · rw [if_neg ht] at h2; cases h2
    · exact hstep s1 e s2 hR1 (hR1.step h2) hP1 h2 fun t h => he ⟨t, h⟩

theorem at_now (s : Sys K) (t : Int) : (at_ s t).prog.node.fw.now = t := rfl

/-- The starts of the attempts come one after the other. -/
theorem apart_mono (h : Apart c) {i k : Nat} (hik : i < k) : (allowed c i).start + 525 ≤ (allowed c k).start := by
  induction k with
  | zero => omega
  | succ k ih =>
    have h1 := h.next k
    by_cases e : i = k
    · rw [e]; exact h1
    · have := ih (by omega); omega

theorem apart_first (h : Apart c) (i : Nat) : (allowed c 0).start ≤ (allowed c i).start := by
  cases i with
  | zero => exact Int.le_refl _
  | succ i => have : _ ≤ (allowed c (i + 1)).start := apart_mono h (Nat.succ_pos i); omega

/-- The runs of the attempts keep to their schedule. -/
structure Sched (c : Cfg K) (s : Sys K) : Prop where
  made : ∀ i, ∀ x ∈ c.base.guests, s.prog.node.fw.now ≤ (allowed c i).start ∨ ((∃ o ∈ s.prog.node.reg.objs, o.key = ⟨0, x, ids c i⟩) ∧
    Node.Opened s.prog.node ⟨0, x, ids c i⟩ (allowed c i) ∧ s.prog.node.fw.dropAll = false)
  time : ∀ (i : Nat) (x : Int) (r : Nat) (o : Registry.Obj) (u : Run Dto Obj (Data K)), x ∈ c.base.guests → s.prog.node.reg.objs[r]? = some o →
    o.key = ⟨0, x, ids c i⟩ → s.prog.runs[r]? = some u → OnTime 525 (allowed c i).start s.prog.node.fw.now u
  over : ∀ i, (allowed c i).start + 525 < s.prog.node.fw.now → s.file.isSome = true ∨ i < s.main.i

theorem sched_init (ha : Apart c) : Sched c (init c) := by
  have key : ∀ i, (init c).prog.node.fw.now ≤ (allowed c i).start := by
    intro i
    have h1 : (init c).prog.node.fw.now = c.base.started := rfl
    have := apart_first ha i
    have := ha.begun
    omega
  refine ⟨fun i x _ => .inl (key i), fun i x r o u _ ho => ?_, fun i h => ?_⟩
  · cases ho
  · have := key i; omega

theorem sched_step {s s' : Sys K} {e : Ev} (hc : Fit c) (hR : Reach c s) (hR' : Reach c s') (h : Sched c s)
    (hs : step c s e = .ok s') (he : ∀ t, e ≠ .prog (.tick t)) : Sched c s' := by
  have hK := hR.known hc
  have hK' := hR'.known hc
  by_cases hpe : ∃ pe, e = .prog pe
  · obtain ⟨pe, rfl⟩ := hpe
    obtain ⟨hfile, hreq, p, hst, rfl⟩ := prog_ok hs
    obtain ⟨hnow, hop, hda⟩ := Program.node_step hst fun t h => he t (by rw [h])
    refine ⟨fun i x hx => ?_, fun i x r o u hx ho hk hu => ?_, fun i ht => ?_⟩
    · dsimp only
      rw [hnow]
      rcases h.made i x hx with h1 | ⟨⟨o, ho, hk⟩, h2, h3⟩
      · exact .inl h1
      · obtain ⟨r, hr⟩ := List.mem_iff_getElem?.1 ho
        obtain ⟨o', ho', hk'⟩ := Program.objs_fwd hst hr
        exact .inr ⟨⟨o', List.mem_of_getElem? ho', hk'.trans hk⟩, hop _ _ h2, hda h3⟩
    · dsimp only at ho hu ⊢
      have old : ∀ {u0 : Run Dto Obj (Data K)}, s.prog.runs[r]? = some u0 →
          ∃ o0, s.prog.node.reg.objs[r]? = some o0 ∧ o0.key = ⟨0, x, ids c i⟩ := by
        intro u0 hu0
        have hlt : r < s.prog.node.reg.objs.length := by rw [← hK.i.p.u.len]; exact lt_of_some hu0
        obtain ⟨o', ho', hk'⟩ := Program.objs_fwd hst (List.getElem?_eq_getElem hlt)
        have := Option.some.inj (ho'.symm.trans ho)
        exact ⟨_, List.getElem?_eq_getElem hlt, by rw [← hk', this, hk]⟩
      rw [hnow]
      rcases run_change hK.i.p hreq hst hu with hu0 | ⟨hr, _, _, rfl⟩ | ⟨u0, o1, pe, hu0, ho1, hpe, hinv, hst'⟩
      · obtain ⟨o0, ho0, hk0⟩ := old hu0
        exact h.time i x r o0 u hx ho0 hk0 hu0
      · have h1 := hR'.start hc (List.mem_of_getElem? ho) (i := i) (by rw [hk])
        have h1 : _ ≤ p.node.fw.now := h1
        rw [hnow] at h1
        show s.prog.node.fw.now = _
        rcases h.made i x hx with h2 | ⟨⟨o0, ho0, hk0⟩, _⟩
        · omega
        · obtain ⟨r0, hr0⟩ := List.mem_iff_getElem?.1 ho0
          obtain ⟨o0', ho0', hk0'⟩ := Program.objs_fwd hst hr0
          have := hK'.i.p.n.one ho ho0' (by rw [hk0', hk0, hk])
          have hlt := lt_of_some hr0
          rw [hK.i.p.u.len] at hr
          omega
      · obtain ⟨o0, ho0, hk0⟩ := old hu0
        have h1 := h.time i x r o0 u0 hx ho0 hk0 hu0
        rcases hpe with rfl | ⟨m, rfl⟩
        · exact onTime_thread (keeps_dkg ..) hinv h1 hst'
        · exact onTime_msg hinv h1 hst'
    · exact h.over i (by dsimp only at ht; rw [hnow] at ht; exact ht)
  · have hA := aside_step hc.inj hc.guests (fun _ _ => trivial) hK hs fun pe h => hpe ⟨pe, h⟩
    obtain ⟨l, _, hn⟩ := hA.node
    have hfw : s'.prog.node.fw = s.prog.node.fw := by rw [hn]
    have hob : s'.prog.node.reg = s.prog.node.reg := by rw [hn]
    refine ⟨fun i x hx => ?_, fun i x r o u hx ho hk hu => ?_, fun i ht => ?_⟩
    · rw [Node.Opened, hfw, hob]; exact h.made i x hx
    · rw [hob] at ho
      rw [hA.runs] at hu
      rw [hfw]
      exact h.time i x r o u hx ho hk hu
    · rw [hfw] at ht
      rcases h.over i ht with h1 | h1
      · rw [hA.file] at h1; cases h1
      · exact .inr (Nat.lt_of_lt_of_le h1 hA.i)

theorem sched_wait {s : Sys K} {t : Int} (hc : Fit c) (ha : Apart c) (hf : s.file = none) (hR' : Reach c (at_ s (t - 1))) (h : Sched c s)
    (ht : s.prog.node.fw.now < t) (hq : Quiet c (at_ s (t - 1))) : Sched c (at_ s t) := by
  have hK' := hR'.known hc
  have hQ := quiet_prog (s := at_ s (t - 1)) hf hq
  obtain ⟨hpc, hrel⟩ := quiet_main (s := at_ s (t - 1)) hf hq
  have hnow := at_now s (t - 1)
  have hdue : ∀ {n : Nat} {v : Node.Runner} {i : Nat}, (at_ s (t - 1)).prog.node.runners[n]? = some v → v.key.runId = ids c i →
      (allowed c i).start ≤ t - 1 → v.allow = allowed c i ∧ v.allow.buf ≤ (at_ s (t - 1)).prog.node.fw.now ∧
      v.allow.start ≤ (at_ s (t - 1)).prog.node.fw.now ∧ 5 ≤ v.pos := by
    intro n v i hv hid hst
    have hal := hR'.allow hc (List.mem_of_getElem? hv) hid
    have := ha.buf i
    have h1 : v.allow.buf ≤ (at_ s (t - 1)).prog.node.fw.now := by rw [hal, hnow]; omega
    have h2 : v.allow.start ≤ (at_ s (t - 1)).prog.node.fw.now := by rw [hal, hnow]; omega
    exact ⟨hal, h1, h2, Program.quiet_due hK'.whole hQ hv h1 h2⟩
  have htime : ∀ (i : Nat) (x : Int) (r : Nat) (o : Registry.Obj) (u : Run Dto Obj (Data K)), x ∈ c.base.guests →
      (at_ s t).prog.node.reg.objs[r]? = some o → o.key = ⟨0, x, ids c i⟩ → (at_ s t).prog.runs[r]? = some u →
      OnTime 525 (allowed c i).start (at_ s t).prog.node.fw.now u := by
    intro i x r o u hx ho hk hu
    have h1 := h.time i x r o u hx ho hk hu
    by_cases hd : u.phase = .done
    · rw [OnTime] at h1 ⊢
      rw [hd] at h1 ⊢
      have h1 : (allowed c i).start + 525 ≤ s.prog.node.fw.now := h1
      show (allowed c i).start + 525 ≤ t
      omega
    · by_contra hn
      exact Program.quiet_thread hK'.whole hQ (r := r) (o := o) (u := u) ho hu hd fun cf hq => hn (onTime_wait h1 ht hq)
  have hover : ∀ i, (allowed c i).start + 525 < t → i < s.main.i := by
    intro i hi
    by_contra hn
    have hmi : (allowed c s.main.i).start + 525 < t := by
      by_cases e : s.main.i = i
      · rw [e]; exact hi
      · have := apart_mono ha (i := s.main.i) (k := i) (by omega); omega
    rw [List.all_eq_false] at hrel
    obtain ⟨n, hn, hr⟩ := hrel
    obtain ⟨v, hv, hid⟩ := (hR'.side hc).own hpc n hn
    have hid : v.key.runId = ids c s.main.i := hid
    obtain ⟨_, _, _, h5⟩ := hdue hv hid (by omega)
    have h6 : v.pos ≠ 5 := by
      refine Program.quiet_recv hK'.whole hQ hv fun o ho hok => ?_
      obtain ⟨r, hr⟩ := List.mem_iff_getElem?.1 ho
      obtain ⟨j, g, hg, hkey, _⟩ := hK'.i.m.owner v (List.mem_of_getElem? hv)
      have hj : j = s.main.i := hc.inj _ _ (by rw [← hid, hkey])
      have hlt : r < (at_ s (t - 1)).prog.runs.length := by rw [hK'.i.p.u.len]; exact lt_of_some hr
      have hu := List.getElem?_eq_getElem hlt
      have hT := htime s.main.i g r o _ hg hr (by rw [hok, hkey, hj]) hu
      exact hK'.l.over r o _ hr hu (onTime_done (keeps_dkg ..) (run_inv hK'.i.p hr hu) hT hmi)
    rw [released, hv, Option.map_some, Option.getD_some, decide_eq_true_eq] at hr
    omega
  refine ⟨fun i x hx => ?_, htime, fun i h => .inr (hover i h)⟩
  by_cases hts : t ≤ (allowed c i).start
  · exact .inl hts
  · right
    have hle : i ≤ s.main.i := by
      cases i with
      | zero => exact Nat.zero_le _
      | succ i => have := ha.next i; exact hover i (by omega)
    have hl : Launched (at_ s (t - 1)).main i := by
      by_cases e : i = s.main.i
      · exact .inr ⟨e, by rw [hpc]; exact nofun⟩
      · exact .inl (by show i < s.main.i; omega)
    obtain ⟨n, v, hv, hvk, _⟩ := hK'.i.m.mine i x hx hl
    obtain ⟨hal, h2, h1, h5⟩ := hdue hv (i := i) (by rw [hvk]) (by omega)
    obtain ⟨o, ho, hok⟩ := hK'.made v (List.mem_of_getElem? hv) h5
    obtain ⟨cl, k1, k2, k3, k4⟩ := hK'.held v (List.mem_of_getElem? hv) (by omega)
    have h3 := Program.quiet_section hK'.whole hQ k1 k4 (by rw [k3]; exact h2) (by rw [k3]; exact h1)
    have hdu := (hR'.side hc).drop
    have := ha.drop
    have := apart_first ha i
    have h4 := Program.quiet_latched hQ (by rw [hdu, hnow]; omega)
    exact ⟨⟨o, ho, hok.trans hvk⟩, ⟨v.call, cl, k1, k2.trans hvk, k3.trans hal, k4, h3⟩, h4⟩

/-- In a process in which nothing is late the runs keep to their schedule. -/
theorem sched {h : List Ev} {s : Sys K} (hc : Fit c) (ha : Apart c) (hr : run c (init c) h = .ok s) (hp : Prompt c h) : Sched c s :=
  prompt_induct hc (h0 := []) rfl (sched_init ha) hr hp (fun _ _ _ hR hR' hP hs he => sched_step hc hR hR' hP hs he)
    fun _ _ hf _ hR' hP ht hq => sched_wait hc ha hf hR' hP ht hq

end Verif.KeyProgram
