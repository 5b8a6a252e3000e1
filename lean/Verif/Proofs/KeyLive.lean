import Verif.Proofs.ProgramBound
import Verif.Proofs.KeySafe

/-! What keeps the tool going as it makes long-term keys, and a bound on what can still happen by itself in an attempt. -/
namespace Verif.KeyProgram
open Verif.Prot Verif.Dto Verif.Dss Verif.Dkg Verif.Tables Verif.Signode Verif.Props Verif.Spec.Prot Verif.Spec.Signode
open Verif.Spec.KeyProgram
open Verif.Registry (lt_of_some total total_set total_append)
open Verif.Program (nodeEvent runEvent released node_ok run_ok phaseOf LInv Kind step_kind linv_node linv_set linv_last Whole Late Measured
  runCost runs_cost cost_node cost_moves cost_set objs_le filter_less nodeEvent_err)
variable {K : Type} {W : Message Dto → Prop} {P : Int → String → Prop}

section
variable {c : Program.Cfg K}

/-- What a section of a run does to its thread and its clock. -/
theorem section_moves {s : Program.Sys K} (h : PInv c W P s) {r : Nat} {e : Prot.Ev Dto} (he : e = .thread ∨ ∃ m, e = .msg m) {o : Registry.Obj}
    {u u' : Run Dto Obj (Data K)} {doc : Option Int} (ho : s.node.reg.objs[r]? = some o) (hr : s.runs[r]? = some u)
    (hx : exec (Program.conf c r o.key doc) u [.tick s.node.fw.now, e] = .ok u') :
    u'.now = s.node.fw.now ∧ ∃ cf : Conf Dto Obj (Data K), cf.stages.length ≤ 12 ∧ Prot.Inv cf u ∧
      ((e = .thread ∧ Moves cf { u with now := s.node.fw.now } u') ∨ (e ≠ .thread ∧ u'.phase = u.phase ∧ u'.state = u.state)) := by
  rw [conf_dkg (h.n.objPc ho)] at hx
  obtain ⟨t0, hist, _, htr⟩ := h.u.trace r o u ho hr
  have hinv := (agree_exec htr).inv
  rw [exec, Outcome.bind_eq_ok] at hx
  obtain ⟨u1, e1, hx⟩ := hx
  rw [exec, Outcome.bind_eq_ok] at hx
  obtain ⟨u2, e2, hx⟩ := hx
  rw [exec] at hx
  rw [Prot.step] at e1
  by_cases ht : u.now ≤ s.node.fw.now
  · rw [if_pos ht] at e1
    have e1 := (Outcome.ok.inj e1).symm
    have hinv1 : Prot.Inv (dkgConf (c.y o.key.gidx r) o.key.runId o.key.gidx c.members) u1 := by
      subst e1
      exact ⟨hinv.core.other rfl rfl rfl rfl rfl rfl rfl, hinv.fresh, hinv.staged, hinv.pausing, hinv.done, hinv.term⟩
    have hu2 := Outcome.ok.inj hx
    subst hu2
    have hlen : (dkgConf (c.y o.key.gidx r) o.key.runId o.key.gidx c.members).stages.length ≤ 12 :=
      (by decide : 9 ≤ 12)
    rcases he with rfl | ⟨m, rfl⟩
    · obtain ⟨_, g2, g3, _⟩ := thread_ok hinv1 e2
      subst e1
      exact ⟨g3, _, hlen, hinv, .inl ⟨rfl, g2⟩⟩
    · obtain ⟨_, g2, g3, _, g4, _⟩ := receive_ok hinv1 e2
      subst e1
      exact ⟨g4, _, hlen, hinv, .inr ⟨nofun, g2, g3⟩⟩
  · rw [if_neg ht] at e1; cases e1

theorem linv_run {s s' : Program.Sys K} (h : PInv c W P s) (hl : LInv s) {r : Nat} {e : Prot.Ev Dto} (he : e = .thread ∨ ∃ m, e = .msg m)
    (hs : runEvent c s r e = .ok s') (hd : e = .thread → phaseOf s' r ≠ some .done) : LInv s' := by
  obtain ⟨u, o, u', outs, hr, ho, hx, _, rfl⟩ := run_ok hs
  obtain ⟨h2, cf, _, _, h3⟩ := section_moves h he ho hr hx
  refine linv_set hl hr h2 fun hd1 => ?_
  rcases h3 with ⟨rfl, _⟩ | ⟨_, h3, _⟩
  · exact absurd (by rw [phaseOf, List.getElem?_set_self (lt_of_some hr)]; exact congrArg some hd1) (hd rfl)
  · exact h3.symm.trans hd1

theorem linv_step {s s' : Program.Sys K} {e : Program.Ev} (h : PInv c W P s) (hl : LInv s) (he : ∀ j, e ≠ .request j)
    (hs : Program.step c s e = .ok s') : LInv s' := by
  cases step_kind hs with
  | node h1 _ _ _ f =>
    have := linv_node h.u.len (h.n.good _) hl h1
    exact ⟨this.own, this.over, this.clock⟩
  | thread h1 h2 => exact linv_run h hl (.inl rfl) h1 (fun _ => h2)
  | last h1 h2 h3 =>
    obtain ⟨u, o, u', outs, hr, ho, hx, _, es1⟩ := run_ok h1
    obtain ⟨g2, _⟩ := section_moves h (.inl rfl) ho hr hx
    subst es1
    exact linv_last h.u.len hl hr g2 h3
  | @give q m s1 _ hq h1 h2 =>
    have hl1 := linv_run h hl (.inr ⟨m, rfl⟩) h1 (fun x => (by cases x))
    obtain ⟨_, _, _, _, _, _, _, _, e1⟩ := run_ok h1
    have en : s1.node = s.node := by rw [e1]
    refine linv_node ?_ (by rw [en]; exact h.n.good _) hl1 h2
    rw [en, e1]
    dsimp only
    rw [List.length_set]
    exact h.u.len
  | job hb => rw [h.jobs] at hb; cases hb
  | launch hb => rw [h.jobs] at hb; cases hb
  | request => exact absurd rfl (he _)

end

variable {c : Cfg K}

theorem prog_step {p p' : Program.Sys K} {e : Program.Ev} (hs : progStep c p e = .ok p') :
    Program.step c.base p e = .ok p' ∧ ∀ j, e ≠ .request j := by
  cases e with
  | request j => cases hs
  | _ => exact ⟨hs, nofun⟩

/-- What is known of a state that was reached. -/
structure Known (c : Cfg K) (W : Message Dto → Prop) (s : Sys K) : Prop where
  i : SInv c W s
  l : LInv s.prog
  own : ∀ j ∈ s.main.runners, j < s.prog.node.runners.length
  held : Node.Held s.prog.node
  made : Node.Made s.prog.node
  loc : Node.Loc s.prog.node

theorem Known.whole {s : Sys K} (h : Known c W s) : Whole s.prog :=
  ⟨h.i.p.n.good, h.i.p.n.orig, fun k => Node.uniq_of_count (List.nodup_iff_count_le_one.1 h.i.p.n.keys k), h.i.p.n.one, h.i.p.u.len, h.i.p.u.term,
    h.i.p.f, h.l.over, h.l.clock, h.held, h.made, h.loc⟩

theorem known_launch {id : String} {t : Int} {gs : List Int} {p p' : Program.Sys K} (hs : launchAll c id t gs p = .ok p') :
    ∃ es, Node.run p.node es = .ok p'.node := by
  induction gs generalizing p with
  | nil => rw [launchAll] at hs; rw [← Outcome.ok.inj hs]; exact ⟨[], rfl⟩
  | cons g gs ih =>
    rw [launchAll, Outcome.bind_eq_ok] at hs
    obtain ⟨s1, h1, h2⟩ := hs
    obtain ⟨n, h3, e⟩ := node_ok h1
    obtain ⟨es, h4⟩ := ih h2
    refine ⟨.launch ⟨0, g, id⟩ (c.allow t) :: es, ?_⟩
    rw [Node.run, h3]
    rw [e] at h4
    exact h4

theorem known_step {s s' : Sys K} {e : Ev} (hi : Inj c) (hgn : c.base.guests.Nodup) (hecho : ∀ g id, W (echo g id)) (h : Known c W s)
    (hw : ∀ m, e = .prog (.net m) → W m) (hs : step c s e = .ok s') : Known c W s' := by
  have hI := sinv_step hi hgn hecho h.i hw hs
  have node : (∃ es, Node.run s.prog.node es = .ok s'.prog.node) → Node.Held s'.prog.node ∧ Node.Made s'.prog.node ∧ Node.Loc s'.prog.node := by
    rintro ⟨es, h1⟩
    exact ⟨Node.held_run (h.i.p.n.good ⟨0, 0, ""⟩) h.held h1 hI.p.n.keys, Node.made_run h.i.p.n.orig.runs h.made h1,
      Node.loc_run (h.i.p.n.good ⟨0, 0, ""⟩) h.loc h1⟩
  rw [Verif.KeyProgram.step.eq_def] at hs
  by_cases hf : s.file.isSome = true
  · rw [if_pos hf] at hs; cases hs
  rw [if_neg hf] at hs
  have hfile : s.file = none := by simpa using hf
  cases e with
  | prog e =>
    dsimp only at hs
    rw [Outcome.bind_eq_ok] at hs
    obtain ⟨p, h1, h2⟩ := hs
    have h2 := (Outcome.ok.inj h2).symm
    subst h2
    obtain ⟨h3, h4⟩ := prog_step h1
    obtain ⟨es, h5, _⟩ := Program.through_step h3
    obtain ⟨a1, a2, a3⟩ := node ⟨es, h5⟩
    refine ⟨hI, linv_step h.i.p h.l h4 h3, fun j hj => ?_, a1, a2, a3⟩
    obtain ⟨_, ha⟩ := pinv_progStep hecho h.i.p (made h.i) (fun m he => hw m (by rw [he])) h1
    obtain ⟨u', hu', _⟩ := ha.le j _ (List.getElem?_eq_getElem (h.own j hj))
    exact lt_of_some hu'
  | main g =>
    dsimp only at hs
    rw [mainStep, runId_ids h.i.m] at hs
    dsimp only at hs
    cases hpc : s.main.pc with
    | launching =>
      rw [hpc] at hs
      dsimp only at hs
      rw [Outcome.bind_eq_ok] at hs
      obtain ⟨p, h1, hs⟩ := hs
      have hs := (Outcome.ok.inj hs).symm
      subst hs
      obtain ⟨_, e1⟩ := launchAll_inv hecho h.i.p.n h.i.p.u.len hgn (fun g _ => launch_fresh hi h.i.m hpc g) h1
      obtain ⟨a1, a2, a3⟩ := node (known_launch h1)
      refine ⟨hI, ?_, ?_, a1, a2, a3⟩
      · dsimp only
        rw [e1]
        refine ⟨fun b hb => ?_, h.l.over, h.l.clock⟩
        rw [h.i.p.jobs] at hb
        exact absurd hb List.not_mem_nil
      · intro j hj
        dsimp only at hj ⊢
        obtain ⟨x, hx, rfl⟩ := List.mem_map.1 hj
        rw [List.mem_range] at hx
        rw [e1]
        dsimp only
        rw [List.length_append, List.length_map]
        omega
    | waiting =>
      rw [hpc] at hs
      dsimp only at hs
      by_cases ho : s.main.runners.all (released s.prog) = true
      · rw [if_pos ho] at hs
        have hs := (Outcome.ok.inj hs).symm
        subst hs
        exact ⟨hI, h.l, h.own, h.held, h.made, h.loc⟩
      · rw [if_neg ho] at hs; cases hs
    | collecting =>
      rw [hpc] at hs
      dsimp only at hs
      by_cases ho : (c.base.guests.all fun g => decide (g ∈ s.main.done)) = true
      · rw [if_pos ho] at hs
        have hs := (Outcome.ok.inj hs).symm
        subst hs
        exact ⟨hI, h.l, h.own, h.held, h.made, h.loc⟩
      · rw [if_neg ho] at hs
        by_cases hm : (decide (g ∈ c.base.guests) && decide (g ∉ s.main.done)) = true
        · rw [if_pos hm, Outcome.bind_eq_ok] at hs
          obtain ⟨_, _, hs⟩ := hs
          rw [Outcome.bind_eq_ok] at hs
          obtain ⟨_, _, hs⟩ := hs
          have hs := (Outcome.ok.inj hs).symm
          subst hs
          exact ⟨hI, ⟨h.l.own, h.l.over, h.l.clock⟩, h.own, h.held, h.made, h.loc⟩
        · rw [if_neg hm] at hs; cases hs
    | checking => rw [hpc] at hs; cases hs
  | check order =>
    dsimp only at hs
    rw [checkStep] at hs
    by_cases hc : s.main.pc = .checking ∧ order.Perm s.main.lts.keys
    · rw [if_pos hc, Outcome.bind_eq_ok] at hs
      obtain ⟨cv, _, hs⟩ := hs
      cases cv with
      | true =>
        rw [if_pos rfl, Outcome.bind_eq_ok] at hs
        obtain ⟨_, _, hs⟩ := hs
        have hs := (Outcome.ok.inj hs).symm
        subst hs
        exact ⟨hI, h.l, h.own, h.held, h.made, h.loc⟩
      | false =>
        rw [if_neg (by decide)] at hs
        have hs := (Outcome.ok.inj hs).symm
        subst hs
        exact ⟨hI, h.l, h.own, h.held, h.made, h.loc⟩
    · rw [if_neg hc] at hs; cases hs

theorem known_init (c : Cfg K) (W : Message Dto → Prop) : Known c W (init c) := by
  refine ⟨sinv_init c W, ⟨?_, ?_, ?_⟩, ?_, ?_, ?_, nofun⟩
  · intro b hb; exact absurd hb List.not_mem_nil
  · intro r o u ho; cases ho
  · intro u hu; exact absurd hu List.not_mem_nil
  · intro u hu; exact absurd hu List.not_mem_nil
  · intro u hu; exact absurd hu List.not_mem_nil
  · intro u hu; exact absurd hu List.not_mem_nil

theorem known_run {s s' : Sys K} {h : List Ev} (hi : Inj c) (hgn : c.base.guests.Nodup) (hecho : ∀ g id, W (echo g id)) (hI : Known c W s)
    (hw : ∀ m, .prog (.net m) ∈ h → W m) (hs : run c s h = .ok s') : Known c W s' := by
  induction h generalizing s with
  | nil => rw [run] at hs; rw [← Outcome.ok.inj hs]; exact hI
  | cons e h ih =>
    rw [run, Outcome.bind_eq_ok] at hs
    obtain ⟨s1, h1, h2⟩ := hs
    exact ih (known_step hi hgn hecho hI (fun m he => hw m (by rw [← he]; exact List.mem_cons_self ..)) h1)
      (fun m hm => hw m (List.mem_cons_of_mem _ hm)) h2

/-! Nothing waits for ever. -/

theorem allValid_ne_err (ds : List KeyShare) (cv : Bool) : allValid ds cv ≠ .err := by
  induction ds generalizing cv with
  | nil => exact nofun
  | cons d ds ih =>
    rw [allValid]
    refine Outcome.bind_ne_err ?_ fun b _ => ih b
    cases cv with
    | false => exact nofun
    | true =>
      rw [if_pos rfl]
      refine Outcome.bind_ne_err ?_ fun _ _ => nofun
      rw [public'.eq_def]
      cases d.commits <;> exact nofun

/-- Nothing is left to do. -/
def Quiet (c : Cfg K) (s : Sys K) : Prop := ∀ e, Spec.KeyProgram.own e = true → step c s e = .err

/-- When nothing is left to do, the main goroutine waits for its runners. -/
theorem quiet_main {s : Sys K} (hfile : s.file = none) (hq : Quiet c s) :
    s.main.pc = .waiting ∧ s.main.runners.all (released s.prog) = false := by
  have st : ∀ e, step c s e = (match e with
      | .prog e => progStep c s.prog e >>= fun p => .ok { s with prog := p }
      | .main g => mainStep c s g
      | .check order => checkStep c s order) := by
    intro e
    rw [Verif.KeyProgram.step.eq_def, if_neg (by rw [hfile]; simp)]
    cases e <;> rfl
  have hm : ∀ g, mainStep c s g = .err := fun g => (st (.main g)).symm.trans (hq _ rfl)
  cases hpc : s.main.pc with
  | launching =>
    exfalso
    have := hm 0
    rw [mainStep] at this
    dsimp only at this
    rw [hpc] at this
    dsimp only at this
    refine Outcome.bind_ne_err ?_ (fun _ _ => Outcome.ok_ne_err _) this
    have key : ∀ (id : String) (t : Int) (gs : List Int) (p : Program.Sys K), launchAll c id t gs p ≠ .err := by
      intro id t gs
      induction gs with
      | nil => exact fun t => nofun
      | cons g gs ih => exact fun t => Outcome.bind_ne_err (fun hx => (by cases nodeEvent_err hx)) fun t' _ => ih t'
    exact key _ _ _ _
  | waiting =>
    refine ⟨rfl, ?_⟩
    have := hm 0
    rw [mainStep] at this
    dsimp only at this
    rw [hpc] at this
    dsimp only at this
    cases hr : s.main.runners.all (released s.prog) with
    | false => rfl
    | true => rw [if_pos hr] at this; cases this
  | collecting =>
    exfalso
    cases ha : c.base.guests.all fun g => decide (g ∈ s.main.done) with
    | true =>
      have := hm 0
      rw [mainStep] at this
      dsimp only at this
      rw [hpc] at this
      dsimp only at this
      rw [if_pos ha] at this
      cases this
    | false =>
      have ho := ha
      rw [List.all_eq_false] at ha
      obtain ⟨g, hg, hd⟩ := ha
      have := hm g
      rw [mainStep] at this
      dsimp only at this
      rw [hpc] at this
      dsimp only at this
      rw [if_neg (by rw [ho]; decide), if_pos (by simpa using ⟨hg, by simpa using hd⟩)] at this
      refine Outcome.bind_ne_err ?_ (fun x _ => Outcome.bind_ne_err ?_ fun _ _ => Outcome.ok_ne_err _) this
      · rw [popOutput]
        cases s.prog.outs.get? (0, g) <;> exact nofun
      · rw [takeKey.eq_def]
        cases x.2 with
        | none => exact nofun
        | some v =>
          cases v with
          | sig _ => exact nofun
          | key sh q =>
            dsimp only
            by_cases hl : q.length < c.base.members
            · rw [if_pos hl]; exact nofun
            · rw [if_neg hl]; exact nofun
  | checking =>
    exfalso
    have := hq (.check s.main.lts.keys) rfl
    rw [st] at this
    dsimp only at this
    rw [checkStep] at this
    rw [if_pos ⟨hpc, List.Perm.refl _⟩] at this
    refine Outcome.bind_ne_err ?_ (fun cv _ => ?_) this
    · exact allValid_ne_err _ _
    · cases cv with
      | true =>
        rw [if_pos rfl]
        exact Outcome.bind_ne_err (Outcome.orPanic_ne_err _) fun _ _ => nofun
      | false => rw [if_neg (by decide)]; exact nofun

/-- When nothing is left to do, nothing is left to do for the rest of the program. -/
theorem quiet_prog {s : Sys K} (hfile : s.file = none) (hq : Quiet c s) : Program.Quiet c.base s.prog := by
  intro e he
  have := hq (.prog e) he
  rw [Verif.KeyProgram.step.eq_def, if_neg (by rw [hfile]; simp)] at this
  dsimp only at this
  by_contra hn
  refine Outcome.bind_ne_err ?_ (fun _ _ => Outcome.ok_ne_err _) this
  cases e with
  | request j => cases he
  | _ => exact hn

/-- As long as the file is not written, something can happen when it is late. -/
theorem not_quiet {s : Sys K} (h : Known c W s) (hL : Late s.prog) (hfile : s.file = none) (hq : Quiet c s) : False := by
  have hr := (quiet_main hfile hq).2
  rw [List.all_eq_false] at hr
  obtain ⟨j, hj, hr⟩ := hr
  have hu := List.getElem?_eq_getElem (h.own j hj)
  have := Program.quiet_runners h.whole hL (quiet_prog hfile hq) hu
  rw [released, hu, Option.map_some, Option.getD_some, decide_eq_true_eq] at hr
  omega

/-! A bound on what can still happen by itself. -/

/-- What the main goroutine may still do in this attempt, with its runners. -/
def mainCost (guests : List Int) (m : Main) : Nat :=
  let n := guests.length
  match m.pc with
  | .launching => n + 4 + n * 90032
  | .waiting => n + 3
  | .collecting => (guests.filter fun g => decide (g ∉ m.done)).length + 2
  | .checking => 1

/-- What the tool may still do by itself in this attempt. -/
def cost (c : Cfg K) (s : Sys K) : Nat :=
  Node.nodeCost 0 c.base.guests s.prog.node + total runCost s.prog.runs + if s.file.isSome then 0 else mainCost c.base.guests s.main

/-- What an attempt may cost. -/
def attemptCost (c : Cfg K) : Nat := c.base.guests.length + 4 + c.base.guests.length * 90032

theorem busy_guest {s : Sys K} (h : Known c W s) (q : Int × Int) (hq : s.prog.node.cons q ≠ .idle ∨ s.prog.node.queues q ≠ []) :
    ∃ g ∈ c.base.guests, q = (0, g) := by
  have key : ∀ k : RunKey, (∃ u ∈ s.prog.node.runners, u.key = k) → q = (k.pc, k.gidx) → ∃ g ∈ c.base.guests, q = (0, g) := by
    rintro k ⟨u, hu, hk⟩ e
    obtain ⟨_, g, hg, e1, _⟩ := h.i.m.owner u hu
    rw [← hk, e1] at e
    exact ⟨g, hg, e⟩
  have seq : ∀ m ∈ Node.seq s.prog.node q, ∃ g ∈ c.base.guests, q = (0, g) := by
    intro m hm
    obtain ⟨_, h2⟩ := (h.i.p.n.good ⟨0, 0, ""⟩).q.at_ q m hm
    by_cases hn : m.pc < 0
    · obtain ⟨u, hu, _, hk⟩ := (h.i.p.n.good ⟨0, 0, ""⟩).q.sig q m hm hn
      exact key _ ⟨u, hu, hk⟩ h2
    · obtain ⟨u, hu, _, hk⟩ := h.i.p.n.orig.way q m hm hn
      rw [Node.target_nonneg hn] at h2
      exact key _ ⟨u, hu, hk⟩ h2
  cases hc : s.prog.node.cons q with
  | got m => exact seq m (by rw [Node.seq, hc]; exact List.mem_cons_self ..)
  | found m =>
    obtain ⟨o, ho, hk⟩ := h.i.p.f q m hc
    obtain ⟨u, hu, _, huk⟩ := h.i.p.n.orig.obj _ o ho
    exact key m.key ⟨u, hu, huk.trans hk⟩ (h.loc q m hc)
  | idle =>
    cases hqq : s.prog.node.queues q with
    | nil => exact absurd hqq (hq.resolve_left fun x => x hc)
    | cons m ms => exact seq m (by rw [Node.seq, hc, hqq]; exact List.mem_cons_self ..)

/-- The rest of the program has less to do after each of its events. -/
theorem cost_prog {s : Sys K} {e : Program.Ev} {p : Program.Sys K} (hgn : c.base.guests.Nodup) (h : Known c W s) (h' : Known c W { s with prog := p })
    (he : Spec.Program.own e = true) (hs : Program.step c.base s.prog e = .ok p) :
    Node.nodeCost 0 c.base.guests p.node + total runCost p.runs + 1 ≤ Node.nodeCost 0 c.base.guests s.prog.node + total runCost s.prog.runs := by
  have hle : p.node.reg.objs.length ≤ p.node.runners.length := by have := objs_le h'.whole; exact this
  have thread : ∀ {r : Nat} {s1 : Program.Sys K}, runEvent c.base s.prog r .thread = .ok s1 → s1.node = s.prog.node ∧
      s1.runs.length = s.prog.runs.length ∧ total runCost s1.runs + 1 ≤ total runCost s.prog.runs ∧
      (phaseOf s1 r = some .done → total runCost s1.runs + 3 ≤ total runCost s.prog.runs) := by
    intro r s1 h1
    obtain ⟨u, o, u', outs, hr, ho, hx, _, rfl⟩ := run_ok h1
    obtain ⟨_, cf, hlen, hinv, h3⟩ := section_moves h.i.p (.inl rfl) ho hr hx
    rcases h3 with ⟨_, hm⟩ | ⟨h3, _⟩
    · exact ⟨rfl, List.length_set, cost_set hr (cost_moves hlen hinv hm)⟩
    · exact absurd rfl h3
  cases step_kind hs with
  | node h1 _ _ hm f =>
    obtain ⟨a1, _⟩ := cost_node hgn h.whole (busy_guest h) (hm he) h1 hle
    exact a1
  | thread h1 h2 =>
    obtain ⟨a1, _, a2, _⟩ := thread h1
    rw [a1]
    omega
  | @last r s1 _ h1 h2 h3 =>
    obtain ⟨a1, a2, _, a3⟩ := thread h1
    have a3 := a3 h2
    obtain ⟨n, g1, rfl⟩ := node_ok h3
    obtain ⟨g2, g3⟩ := Node.cost_finish (pc := 0) (G := c.base.guests) g1
    have h5 := runs_cost (c := c.base) (n := n) (s := s1) (by rw [a1, a2]; exact h.i.p.u.len)
    rw [g3, Nat.sub_self] at h5
    dsimp only
    rw [h5, g2, a1]
    omega
  | @give q m s1 _ hq h1 h2 =>
    have hs1 := h1
    obtain ⟨u, o, u', outs, hr, ho, hx, _, e1⟩ := run_ok h1
    obtain ⟨_, cf, _, _, h3⟩ := section_moves h.i.p (.inr ⟨m, rfl⟩) ho hr hx
    obtain ⟨hW, hop⟩ := h.i.p.n.carry.hold q m hq
    obtain ⟨o1, ho1, hk1⟩ := h.i.p.f q m hq
    have hl1 := linv_run h.i.p h.l (.inr ⟨m, rfl⟩) h1 (fun x => (by cases x))
    obtain ⟨hu, _, n1, n2, n3⟩ := uinv_run h.i.p.n h.i.p.u (.inr ⟨m, rfl, hW, hop.1, fun o' ho' => by
      rw [ho1] at ho'; rw [← Option.some.inj ho', hk1]⟩) h1
    have hw : Whole s1 := by
      have w := h.whole
      refine ⟨?_, ?_, ?_, ?_, hu.len, hu.term, ?_, hl1.over, hl1.clock, ?_, ?_, ?_⟩
      · rw [n1]; exact w.good
      · rw [n1]; exact w.orig
      · rw [n1]; exact w.uniq
      · rw [n1]; exact w.one
      · intro q m; rw [n1, n3]; exact w.f q m
      · rw [n1]; exact w.held
      · rw [n1]; exact w.made
      · rw [n1]; exact w.loc
    obtain ⟨a1, _⟩ := cost_node hgn hw (by rw [n1]; exact busy_guest h) (e := .cons q) trivial h2 hle
    rcases h3 with ⟨h3, _⟩ | ⟨_, h3, h4⟩
    · cases h3
    · have hset := total_set runCost u' hr
      rw [runCost, runCost, h3, h4] at hset
      rw [n1, e1] at a1
      dsimp only at a1
      omega
  | job hb => rw [h.i.p.jobs] at hb; cases hb
  | launch hb => rw [h.i.p.jobs] at hb; cases hb
  | request => cases he

theorem cost_launch {id : String} {t : Int} {gs : List Int} {p p' : Program.Sys K} (hlen : p.runs.length = p.node.reg.objs.length)
    (hs : launchAll c id t gs p = .ok p') :
    Node.nodeCost 0 c.base.guests p'.node ≤ Node.nodeCost 0 c.base.guests p.node + gs.length * 90032 ∧ p'.runs = p.runs := by
  induction gs generalizing p with
  | nil => rw [launchAll] at hs; rw [← Outcome.ok.inj hs]; exact ⟨Nat.le_refl _, rfl⟩
  | cons g gs ih =>
    rw [launchAll, Outcome.bind_eq_ok] at hs
    obtain ⟨s1, h1, h2⟩ := hs
    obtain ⟨n, g1, rfl⟩ := node_ok h1
    rw [Node.step] at g1
    have g1 := (Outcome.ok.inj g1).symm
    subst g1
    have hrun : p.runs ++ (p.node.reg.objs.drop p.runs.length).map (fun o =>
        newRun Dto Obj (newData (c.base.gen o.key.gidx p.runs.length)) p.node.fw.now) = p.runs := by
      rw [hlen, List.drop_length, List.map_nil, List.append_nil]
    obtain ⟨i1, i2⟩ := ih (by dsimp only; rw [hrun]; exact hlen) h2
    dsimp only at i1 i2
    refine ⟨Nat.le_trans i1 ?_, i2.trans hrun⟩
    rw [List.length_cons, Node.nodeCost, Node.nodeCost]
    dsimp only
    have e : Node.queueCost 0 c.base.guests { p.node with runners := p.node.runners ++ [⟨⟨0, g, id⟩, c.allow t, 0, 0, 0⟩] } =
      Node.queueCost 0 c.base.guests p.node := Node.queueCost_same rfl rfl
    rw [e, total_append, List.length_append, List.length_singleton]
    simp only [total, Node.runnerCost]
    omega

/-- Each event that happens by itself makes the bound smaller, except that another attempt may begin. -/
theorem cost_own {s s' : Sys K} {e : Ev} (hgn : c.base.guests.Nodup) (h : Known c W s) (h' : Known c W s') (he : Spec.KeyProgram.own e = true)
    (hs : step c s e = .ok s') : (s'.main.i = s.main.i ∧ cost c s' + 1 ≤ cost c s) ∨
      (s'.main.i = s.main.i + 1 ∧ s'.main.pc = .launching ∧ s'.file = none ∧ cost c s' + 1 ≤ cost c s + attemptCost c) := by
  rw [Verif.KeyProgram.step.eq_def] at hs
  by_cases hf : s.file.isSome = true
  · rw [if_pos hf] at hs; cases hs
  rw [if_neg hf] at hs
  have hcost : cost c s = Node.nodeCost 0 c.base.guests s.prog.node + total runCost s.prog.runs + mainCost c.base.guests s.main := by
    rw [cost, if_neg hf]
  cases e with
  | prog e =>
    dsimp only at hs
    rw [Outcome.bind_eq_ok] at hs
    obtain ⟨p, h1, h2⟩ := hs
    have h2 := (Outcome.ok.inj h2).symm
    subst h2
    have := cost_prog hgn h h' he (prog_step h1).1
    refine .inl ⟨rfl, ?_⟩
    rw [hcost, cost, if_neg hf]
    dsimp only
    omega
  | main g =>
    left
    dsimp only at hs
    rw [mainStep] at hs
    dsimp only at hs
    cases hpc : s.main.pc with
    | launching =>
      rw [hpc] at hs
      dsimp only at hs
      rw [Outcome.bind_eq_ok] at hs
      obtain ⟨p, h1, hs⟩ := hs
      have hs := (Outcome.ok.inj hs).symm
      subst hs
      obtain ⟨a1, a2⟩ := cost_launch h.i.p.u.len h1
      refine ⟨rfl, ?_⟩
      rw [hcost, cost, if_neg hf]
      dsimp only
      rw [a2, mainCost, mainCost, hpc]
      dsimp only
      omega
    | waiting =>
      rw [hpc] at hs
      dsimp only at hs
      by_cases ho : s.main.runners.all (released s.prog) = true
      · rw [if_pos ho] at hs
        have hs := (Outcome.ok.inj hs).symm
        subst hs
        refine ⟨rfl, ?_⟩
        rw [hcost, cost, if_neg hf, mainCost, mainCost, hpc]
        dsimp only
        have := List.length_filter_le (fun g => decide (g ∉ ([] : List Int))) c.base.guests
        omega
      · rw [if_neg ho] at hs; cases hs
    | collecting =>
      rw [hpc] at hs
      dsimp only at hs
      by_cases ho : (c.base.guests.all fun g => decide (g ∈ s.main.done)) = true
      · rw [if_pos ho] at hs
        have hs := (Outcome.ok.inj hs).symm
        subst hs
        refine ⟨rfl, ?_⟩
        rw [hcost, cost, if_neg hf, mainCost, mainCost, hpc]
        dsimp only
        omega
      · rw [if_neg ho] at hs
        by_cases hm : (decide (g ∈ c.base.guests) && decide (g ∉ s.main.done)) = true
        · rw [if_pos hm, Outcome.bind_eq_ok] at hs
          obtain ⟨_, _, hs⟩ := hs
          rw [Outcome.bind_eq_ok] at hs
          obtain ⟨_, _, hs⟩ := hs
          have hs := (Outcome.ok.inj hs).symm
          subst hs
          have hm : g ∈ c.base.guests ∧ g ∉ s.main.done := by simpa using hm
          have := filter_less hm.1 hm.2
          refine ⟨rfl, ?_⟩
          rw [hcost, cost, if_neg hf, mainCost, mainCost, hpc]
          dsimp only
          omega
        · rw [if_neg hm] at hs; cases hs
    | checking => rw [hpc] at hs; cases hs
  | check order =>
    dsimp only at hs
    rw [checkStep] at hs
    by_cases hc : s.main.pc = .checking ∧ order.Perm s.main.lts.keys
    · rw [if_pos hc, Outcome.bind_eq_ok] at hs
      obtain ⟨cv, _, hs⟩ := hs
      cases cv with
      | true =>
        rw [if_pos rfl, Outcome.bind_eq_ok] at hs
        obtain ⟨_, _, hs⟩ := hs
        have hs := (Outcome.ok.inj hs).symm
        subst hs
        refine .inl ⟨rfl, ?_⟩
        rw [hcost, cost, mainCost, hc.1]
        dsimp only
        rw [if_pos (by rfl)]
      | false =>
        rw [if_neg (by decide)] at hs
        have hs := (Outcome.ok.inj hs).symm
        subst hs
        refine .inr ⟨rfl, rfl, by simpa using hf, ?_⟩
        rw [hcost, cost, if_neg hf, mainCost, mainCost, hc.1, attemptCost]
        dsimp only
        omega
    · rw [if_neg hc] at hs; cases hs

/-- The passing of time leaves the bound. -/
theorem cost_tick {s s' : Sys K} (hgn : c.base.guests.Nodup) (h : Known c W s) {t : Int} (hs : step c s (.prog (.tick t)) = .ok s') :
    cost c s' ≤ cost c s ∧ s'.main = s.main ∧ s'.file = s.file := by
  rw [Verif.KeyProgram.step.eq_def] at hs
  by_cases hf : s.file.isSome = true
  · rw [if_pos hf] at hs; cases hs
  rw [if_neg hf] at hs
  dsimp only at hs
  rw [Outcome.bind_eq_ok] at hs
  obtain ⟨p, h1, h2⟩ := hs
  have h2 := (Outcome.ok.inj h2).symm
  subst h2
  have h1 : Program.step c.base s.prog (.tick t) = .ok p := h1
  rw [Verif.Program.step] at h1
  obtain ⟨n, h3, rfl⟩ := node_ok h1
  obtain ⟨h4, h5⟩ := Node.cost_tick (pc := 0) hgn h3
  have h6 := runs_cost (c := c.base) (n := n) h.i.p.u.len
  rw [h5, Nat.sub_self] at h6
  refine ⟨?_, rfl, rfl⟩
  rw [cost, cost]
  dsimp only
  rw [h5, h6]
  omega

end Verif.KeyProgram
