import Verif.Proofs.ProgramTime

/-! What keeps the program going: invariants about what runners, runs and requests wait for. -/
namespace Verif.Node
open Verif.Registry (lt_of_some)
variable {D : Type}

/-- A runner that waits for the end of its run has seen to it that there is one. -/
def Made (s : Sys D) : Prop :=
  ∀ u ∈ s.runners, 5 ≤ u.pos → ∃ o ∈ s.reg.objs, o.key = u.key

theorem objs_stay {r r' : Registry.Reg} {re : Registry.Ev} (hr : Registry.step r re = .ok r') {k : RunKey}
    (h : ∃ o ∈ r.objs, o.key = k) : ∃ o ∈ r'.objs, o.key = k := by
  obtain ⟨o, ho, hk⟩ := h
  obtain ⟨i, hi⟩ := List.mem_iff_getElem?.1 ho
  obtain ⟨o', h1, h2, _⟩ := (Registry.frame_step hr).fwd i o hi
  exact ⟨o', List.mem_of_getElem? h1, h2.trans hk⟩

theorem ensured {r r' : Registry.Reg} (h : Registry.RunsInv r) {k : RunKey} (hr : Registry.step r (.ensure k) = .ok r') :
    ∃ o ∈ r'.objs, o.key = k := by
  rw [Registry.step] at hr
  rw [← Outcome.ok.inj hr, Registry.ensure]
  cases hk : r.runs.get? k with
  | some i =>
    obtain ⟨o, ho, e⟩ := h.reg k i hk
    exact ⟨o, List.mem_of_getElem? ho, e⟩
  | none => exact ⟨_, List.mem_append_right _ (List.mem_singleton.2 rfl), rfl⟩

theorem made_step {s s' : Sys D} (hR : Registry.RunsInv s.reg) (h : Made s) {e : Ev D} (hs : step s e = .ok s') : Made s' := by
  have hset : ∀ {j : Nat} {u u' : Runner}, s.runners[j]? = some u → u'.key = u.key → (5 ≤ u'.pos → 5 ≤ u.pos) →
      ∀ v ∈ s.runners.set j u', 5 ≤ v.pos → ∃ o ∈ s.reg.objs, o.key = v.key := by
    intro j u u' hu hk hp v hv h5
    rcases List.mem_or_eq_of_mem_set hv with hm | rfl
    · exact h v hm h5
    · rw [hk]; exact h u (List.mem_of_getElem? hu) (hp h5)
  have reg : ∀ {re : Registry.Ev} {r' : Registry.Reg} {l : List Runner}, Registry.step s.reg re = .ok r' →
      (∀ v ∈ l, 5 ≤ v.pos → ∃ o ∈ s.reg.objs, o.key = v.key) → ∀ v ∈ l, 5 ≤ v.pos → ∃ o ∈ r'.objs, o.key = v.key :=
    fun hr hl v hv h5 => objs_stay hr (hl v hv h5)
  cases step_shape hs with
  | fw => exact h
  | reg he hr => exact reg hr h
  | launch =>
    intro u hu h5
    rcases List.mem_append.1 hu with hm | hm
    · exact h u hm h5
    · rw [List.mem_singleton.1 hm] at h5; cases h5
  | take => exact h
  | give => exact h
  | delete _ _ _ hr => exact reg hr h
  | find _ _ _ hr => exact reg hr h
  | observe hu h0 _ hr => exact reg hr (hset hu rfl (by dsimp only; omega))
  | allow hu h1 => exact hset hu rfl (by dsimp only; omega)
  | sleep hu h3 => exact hset hu rfl (by dsimp only; omega)
  | @ensure j u r' hu h4 _ hr =>
    intro v hv h5
    rcases List.mem_or_eq_of_mem_set hv with hm | rfl
    · exact objs_stay hr (h v hm h5)
    · exact ensured hR hr
  | recv hu h5 hr => exact reg hr (hset hu rfl (by dsimp only; omega))
  | read hu h2 => exact hset hu rfl (by dsimp only; omega)
  | signal hu h8 => exact hset hu rfl (by dsimp only; omega)

theorem made_run {s s' : Sys D} (hR : Registry.RunsInv s.reg) (h : Made s) {es : List (Ev D)} (hs : run s es = .ok s') : Made s' := by
  induction es generalizing s with
  | nil => have := Outcome.ok.inj hs; subst this; exact h
  | cons e es ih =>
    rw [run, Outcome.bind_eq_ok] at hs
    obtain ⟨s1, h1, h2⟩ := hs
    exact ih (reg_step hR h1) (made_step hR h h1) h2

/-- A consumer gives a message of its own queue. -/
def Loc (s : Sys D) : Prop := ∀ q m, s.cons q = .found m → q = (m.pc, m.rcpt)

theorem loc_step {s s' : Sys D} (hQ : QInv s) (h : Loc s) {e : Ev D} (hs : step s e = .ok s') : Loc s' := by
  have upd : ∀ {q0 : Int × Int} {x : Cons D}, (∀ m, x = .found m → q0 = (m.pc, m.rcpt)) → ∀ q m, update s.cons q0 x q = .found m →
      q = (m.pc, m.rcpt) := by
    intro q0 x hx q m hq
    rw [update] at hq
    by_cases e : q = q0
    · rw [if_pos e] at hq; rw [e]; exact hx m hq
    · rw [if_neg e] at hq; exact h q m hq
  cases step_shape hs with
  | take => exact upd nofun
  | give => exact upd nofun
  | delete => exact upd nofun
  | @find q m r' hc hn _ _ =>
    refine upd fun m' e => ?_
    injection e with e
    subst e
    obtain ⟨_, h2⟩ := hQ.at_ q m (by rw [seq, hc]; exact List.mem_cons_self ..)
    rw [h2, target_nonneg hn]; rfl
  | _ => exact h

theorem loc_run {k : RunKey} {s s' : Sys D} (hG : Good k s) (h : Loc s) {es : List (Ev D)} (hs : run s es = .ok s') : Loc s' := by
  induction es generalizing s with
  | nil => have := Outcome.ok.inj hs; subst this; exact h
  | cons e es ih =>
    rw [run, Outcome.bind_eq_ok] at hs
    obtain ⟨s1, h1, h2⟩ := hs
    exact ih (good_step hG h1) (loc_step hG.q h h1) h2

theorem now_step {s s' : Sys D} (hF : Firewall.Inv s.fw) {e : Ev D} (hs : step s e = .ok s') : s.fw.now ≤ s'.fw.now := by
  cases step_shape hs with
  | fw _ hd => exact (Firewall.step_timely hF hd.1).1
  | allow _ _ hd => exact (Firewall.step_timely hF hd.1).1
  | read _ _ hd => exact (Firewall.step_timely hF hd.1).1
  | _ => exact Int.le_refl _

end Verif.Node

namespace Verif.Program
open Verif.Prot Verif.Dto Verif.Dss Verif.Dkg Verif.Tables Verif.Signode Verif.Props Verif.Spec.Prot Verif.Spec.Program
open Verif.Registry (lt_of_some)
variable {K : Type} {c : Cfg K} {W : Message Dto → Prop}

/-- The events of the node that happen by themselves, apart from those that belong to a request or to the end of a run. -/
def Measured : Node.Ev Dto → Prop
  | .latch => True
  | .fwStep _ => True
  | .cons _ => True
  | .task _ => True
  | .runner _ => True
  | _ => False

/-- The steps of the program. -/
inductive Kind (c : Cfg K) (s : Sys K) : Ev → Sys K → Prop
  /-- a section of the node alone -/
  | node {e : Ev} {ne : Node.Ev Dto} {s' : Sys K} : nodeEvent c s ne = .ok s' → (∀ k a, ne ≠ .launch k a) → (∀ r, ne ≠ .finish r) →
      (own e = true → Measured ne) → (f : Int × Int → Nat) → Kind c s e { s' with found := f }
  /-- a section of a stepping thread, not the last -/
  | thread {r : Nat} {s' : Sys K} : runEvent c s r .thread = .ok s' → phaseOf s' r ≠ some .done → Kind c s (.thread r) s'
  /-- the last section of a stepping thread -/
  | last {r : Nat} {s1 s' : Sys K} : runEvent c s r .thread = .ok s1 → phaseOf s1 r = some .done → nodeEvent c s1 (.finish r) = .ok s' →
      Kind c s (.thread r) s'
  /-- a message is given to a run -/
  | give {q : Int × Int} {m : Message Dto} {s1 s' : Sys K} : s.node.cons q = .found m → runEvent c s (s.found q) (.msg m) = .ok s1 →
      nodeEvent c s1 (.cons q) = .ok s' → Kind c s (.cons q) s'
  /-- a section of a request that starts no runners -/
  | job {i : Nat} {g : Int} {b b' : JobSt} {d : Docs} {o : Outputs Output} : s.jobs[i]? = some b → b'.runners = b.runners →
      (b'.pc = b.pc ∧ g ∈ c.guests ∧ g ∉ b.done ∧ b'.done = g :: b.done ∧ (b.pc = .registering ∨ b.pc = .deregistering ∨ b.pc = .printing) ∨
        b.pc = .registering ∧ b'.pc = .launching ∨
        b.pc = .waiting ∧ b'.pc = .deregistering ∧ b'.done = b.done ∧ b.runners.all (released s) = true ∨
        b.pc = .deregistering ∧ b'.pc = .printing ∧ b'.done = [] ∨ b.pc = .printing ∧ b'.pc = .ended) →
      Kind c s (.job i g) { s with docs := d, outs := o, jobs := s.jobs.set i b' }
  /-- the start of the runners of a request -/
  | launch {i : Nat} {g : Int} {b : JobSt} {s1 : Sys K} : s.jobs[i]? = some b → b.pc = .launching → launchAll c s b.job c.guests = .ok s1 →
      Kind c s (.job i g) { s1 with jobs := s1.jobs.set i { b with
        pc := .waiting, runners := (List.range c.guests.length).map (s.node.runners.length + ·) } }
  | request {j : Job} : Kind c s (.request j) { s with jobs := s.jobs ++ [⟨j, .registering, [], [], []⟩] }

theorem step_kind {s s' : Sys K} {e : Ev} (hs : step c s e = .ok s') : Kind c s e s' := by
  have node : ∀ {ne : Node.Ev Dto}, nodeEvent c s ne = .ok s' → (∀ k a, ne ≠ .launch k a) → (∀ r, ne ≠ .finish r) →
      (own e = true → Measured ne) → Kind c s e s' := fun h h1 h2 h3 => .node h h1 h2 h3 s'.found
  cases e with
  | request j => rw [step] at hs; rw [← Outcome.ok.inj hs]; exact .request
  | tick t => exact node hs nofun nofun nofun
  | latch => exact node hs nofun nofun fun _ => trivial
  | net m => exact node hs nofun nofun nofun
  | fwStep i => exact node hs nofun nofun fun _ => trivial
  | task i => exact node hs nofun nofun fun _ => trivial
  | runner j => exact node hs nofun nofun fun _ => trivial
  | cons q =>
    rw [step, consStep] at hs
    cases hq : s.node.cons q with
    | idle => rw [hq] at hs; exact node hs nofun nofun fun _ => trivial
    | got x =>
      rw [hq] at hs
      dsimp only at hs
      rw [Outcome.bind_eq_ok] at hs
      obtain ⟨s1, h1, h2⟩ := hs
      rw [← Outcome.ok.inj h2]
      exact .node h1 nofun nofun (fun _ => trivial) _
    | found x =>
      rw [hq] at hs
      dsimp only at hs
      rw [Outcome.bind_eq_ok] at hs
      obtain ⟨s1, h1, h2⟩ := hs
      exact .give hq h1 h2
  | thread r =>
    rw [step, threadStep] at hs
    cases ho : s.node.reg.objs[r]? with
    | none => rw [ho] at hs; cases hs
    | some o =>
      rw [ho] at hs
      dsimp only at hs
      by_cases hst : o.started = 0
      · rw [if_pos hst] at hs; cases hs
      · rw [if_neg hst, Outcome.bind_eq_ok] at hs
        obtain ⟨s1, h1, h2⟩ := hs
        by_cases hp : phaseOf s1 r = some .done
        · rw [if_pos hp] at h2; exact .last h1 hp h2
        · rw [if_neg hp] at h2; rw [← Outcome.ok.inj h2]; exact .thread h1 hp
  | job i g =>
    rw [step, jobStep] at hs
    cases hb : s.jobs[i]? with
    | none => rw [hb] at hs; cases hs
    | some b =>
      rw [hb] at hs
      dsimp only at hs
      have mine : (decide (g ∈ c.guests) && decide (g ∉ b.done)) = true → g ∈ c.guests ∧ g ∉ b.done := by
        rw [Bool.and_eq_true, decide_eq_true_eq, decide_eq_true_eq]; exact fun h => h
      cases hpc : b.pc with
      | registering =>
        rw [hpc] at hs
        dsimp only at hs
        split at hs
        · rw [← Outcome.ok.inj hs]; exact .job hb rfl (.inr (.inl ⟨hpc, rfl⟩))
        · split at hs
          · rename_i hm
            rw [Outcome.bind_eq_ok] at hs
            obtain ⟨_, _, hs⟩ := hs
            rw [← Outcome.ok.inj hs]
            exact .job hb rfl (.inl ⟨by rw [hpc], (mine hm).1, (mine hm).2, rfl, .inl hpc⟩)
          · cases hs
      | launching =>
        rw [hpc] at hs
        dsimp only at hs
        rw [Outcome.bind_eq_ok] at hs
        obtain ⟨s1, h1, hs⟩ := hs
        rw [← Outcome.ok.inj hs]
        exact .launch hb hpc h1
      | waiting =>
        rw [hpc] at hs
        dsimp only at hs
        split at hs
        · rename_i hrel
          rw [← Outcome.ok.inj hs]; exact .job hb rfl (.inr (.inr (.inl ⟨hpc, rfl, rfl, hrel⟩)))
        · cases hs
      | deregistering =>
        rw [hpc] at hs
        dsimp only at hs
        split at hs
        · rw [← Outcome.ok.inj hs]; exact .job hb rfl (.inr (.inr (.inr (.inl ⟨hpc, rfl, rfl⟩))))
        · split at hs
          · rename_i hm
            rw [Outcome.bind_eq_ok] at hs
            obtain ⟨_, _, hs⟩ := hs
            rw [← Outcome.ok.inj hs]
            exact .job hb rfl (.inl ⟨by rw [hpc], (mine hm).1, (mine hm).2, rfl, .inr (.inl hpc)⟩)
          · cases hs
      | printing =>
        rw [hpc] at hs
        dsimp only at hs
        split at hs
        · rw [← Outcome.ok.inj hs]; exact .job hb rfl (.inr (.inr (.inr (.inr ⟨hpc, rfl⟩))))
        · split at hs
          · rename_i hm
            rw [Outcome.bind_eq_ok] at hs
            obtain ⟨_, _, hs⟩ := hs
            rw [Outcome.bind_eq_ok] at hs
            obtain ⟨_, _, hs⟩ := hs
            rw [← Outcome.ok.inj hs]
            exact .job hb rfl (.inl ⟨by rw [hpc], (mine hm).1, (mine hm).2, rfl, .inr (.inr hpc)⟩)
          · cases hs
      | ended => rw [hpc] at hs; cases hs

/-- What the requests and the runs wait for is there. -/
structure LInv (s : Sys K) : Prop where
  own : ∀ b ∈ s.jobs, ∀ j ∈ b.runners, j < s.node.runners.length
  over : ∀ (r : Nat) (o : Registry.Obj) (u : Run Dto Obj (Data K)), s.node.reg.objs[r]? = some o → s.runs[r]? = some u →
    u.phase = .done → o.terminated = true
  clock : ∀ u ∈ s.runs, u.now ≤ s.node.fw.now

/-- A run in the state it has was reached by a history of its protocol. -/
theorem run_inv {s : Sys K} (h : PInv c W s) {r : Nat} {o : Registry.Obj} {u : Run Dto Obj (Data K)} (ho : s.node.reg.objs[r]? = some o)
    (hu : s.runs[r]? = some u) : ∃ b ∈ s.jobs, Prot.Inv (dssConf (c.y o.key.gidx r) c.H c.SH (env c r o.key.gidx (some b.job.doc)) o.key.runId
      o.key.gidx c.members) u := by
  obtain ⟨b, hb, _, _, hk⟩ := job_of h.n h.j ho
  obtain ⟨t0, hist, _, hx⟩ := h.u.trace r o u ho hu b hb (by rw [hk])
  exact ⟨b, hb, (agree_exec hx).inv⟩

/-- What a section of a run does to its thread and its clock. -/
theorem section_moves {s : Sys K} (h : PInv c W s) {r : Nat} {e : Prot.Ev Dto}
    (he : e = .thread ∨ ∃ m, e = .msg m ∧ W m ∧ 0 ≤ m.op ∧ ∀ o, s.node.reg.objs[r]? = some o → m.key = o.key) {o : Registry.Obj}
    {u u' : Run Dto Obj (Data K)} (ho : s.node.reg.objs[r]? = some o) (hr : s.runs[r]? = some u)
    (hx : exec (conf c r o.key (docFor s.docs o.key.gidx o.key.runId)) u [.tick s.node.fw.now, e] = .ok u') :
    u.now ≤ s.node.fw.now ∧ u'.now = s.node.fw.now ∧ ∃ b ∈ s.jobs,
      let cf := dssConf (c.y o.key.gidx r) c.H c.SH (env c r o.key.gidx (some b.job.doc)) o.key.runId o.key.gidx c.members
      Prot.Inv cf u ∧ ((e = .thread ∧ Moves cf { u with now := s.node.fw.now } u') ∨ (e ≠ .thread ∧ u'.phase = u.phase ∧ u'.state = u.state)) := by
  obtain ⟨b, sec⟩ := section_of h.n h.j h.u he ho hr hx
  have hinv : Prot.Inv (dssConf (c.y o.key.gidx r) c.H c.SH (env c r o.key.gidx (some b.job.doc)) o.key.runId o.key.gidx c.members) u := by
    obtain ⟨t0, hist, _, htr⟩ := h.u.trace r o u ho hr b sec.job (by rw [sec.key])
    exact (agree_exec htr).inv
  have hrun := sec.run
  rw [exec, Outcome.bind_eq_ok] at hrun
  obtain ⟨u1, e1, hrun⟩ := hrun
  rw [exec, Outcome.bind_eq_ok] at hrun
  obtain ⟨u2, e2, hrun⟩ := hrun
  rw [exec] at hrun
  rw [Prot.step] at e1
  by_cases ht : u.now ≤ s.node.fw.now
  · rw [if_pos ht] at e1
    have e1 := (Outcome.ok.inj e1).symm
    have hinv1 : Prot.Inv (dssConf (c.y o.key.gidx r) c.H c.SH (env c r o.key.gidx (some b.job.doc)) o.key.runId o.key.gidx c.members) u1 := by
      subst e1
      exact ⟨hinv.core.other rfl rfl rfl rfl rfl rfl rfl, hinv.fresh, hinv.staged, hinv.pausing, hinv.done, hinv.term⟩
    have hu2 := Outcome.ok.inj hrun
    subst hu2
    rcases he with rfl | ⟨m, rfl, _⟩
    · obtain ⟨_, g2, g3, _⟩ := thread_ok hinv1 e2
      subst e1
      exact ⟨ht, g3, b, sec.job, hinv, .inl ⟨rfl, g2⟩⟩
    · obtain ⟨_, g2, g3, _, g4, _⟩ := receive_ok hinv1 e2
      subst e1
      exact ⟨ht, g4, b, sec.job, hinv, .inr ⟨nofun, g2, g3⟩⟩
  · rw [if_neg ht] at e1; cases e1

theorem linv_node {s s' : Sys K} {e : Node.Ev Dto} (hlen : s.runs.length = s.node.reg.objs.length)
    (hg : Node.Good ⟨0, 0, ""⟩ s.node) (hl : LInv s) (hs : nodeEvent c s e = .ok s') : LInv s' := by
  obtain ⟨n, h1, e1⟩ := node_ok hs
  obtain ⟨l1, l2, l3⟩ := runs_node (c := c) hlen (objs_step h1).len rfl
  subst e1
  have hnow := Node.now_step hg.r.fw h1
  refine ⟨fun b hb j hj => ?_, fun r o u ho hu hd => ?_, fun u hu => ?_⟩
  · have hlt := hl.own b hb j hj
    obtain ⟨u', hu', _⟩ := (Node.aside_step h1).1 j _ (List.getElem?_eq_getElem hlt)
    exact lt_of_some hu'
  · rcases l3 r u hu with hu | ⟨_, _, _, _, rfl⟩
    · have hlt : r < s.node.reg.objs.length := by rw [← hlen]; exact lt_of_some hu
      have ho0 := List.getElem?_eq_getElem hlt
      have ht := hl.over r _ u ho0 hu hd
      rcases Node.reg_event h1 with e | ⟨re, hre, _⟩
      · have ho' : s.node.reg.objs[r]? = some o := by rw [← e]; exact ho
        have := Option.some.inj (ho0.symm.trans ho')
        rw [← this]; exact ht
      · obtain ⟨o', h2, _, h3, _⟩ := (Registry.frame_step hre).fwd r _ ho0
        have := Option.some.inj (h2.symm.trans ho)
        rw [← this]; exact h3 ht
    · cases hd
  · obtain ⟨r, hr⟩ := List.mem_iff_getElem?.1 hu
    by_cases hlt : r < s.runs.length
    · rw [List.getElem?_append_left hlt] at hr
      exact Int.le_trans (hl.clock u (List.mem_of_getElem? hr)) hnow
    · rw [List.getElem?_append_right (by omega), List.getElem?_map] at hr
      obtain ⟨o, _, rfl⟩ := Option.map_eq_some_iff.1 hr
      exact Int.le_refl _

/-- A section of a run that does not end it. -/
theorem linv_set {s : Sys K} (hl : LInv s) {r : Nat} {u u' : Run Dto Obj (Data K)} {outs : Outputs Output} (hr : s.runs[r]? = some u)
    (hn : u'.now = s.node.fw.now) (hd : u'.phase = .done → u.phase = .done) : LInv { s with runs := s.runs.set r u', outs := outs } := by
  refine ⟨hl.own, fun r1 o1 u1 ho1 hu1 hd1 => ?_, fun u1 hu1 => ?_⟩
  · rcases Firewall.getElem?_set_some hr hu1 with ⟨rfl, rfl⟩ | ⟨_, hu1⟩
    · exact hl.over r1 o1 u ho1 hr (hd hd1)
    · exact hl.over r1 o1 u1 ho1 hu1 hd1
  · rcases List.mem_or_eq_of_mem_set hu1 with hu1 | rfl
    · exact hl.clock u1 hu1
    · exact Int.le_of_eq hn

/-- The last section of a run. -/
theorem linv_last {s s' : Sys K} (hlen : s.runs.length = s.node.reg.objs.length) (hl : LInv s) {r : Nat} {u u' : Run Dto Obj (Data K)}
    {outs : Outputs Output} (hr : s.runs[r]? = some u) (hn : u'.now = s.node.fw.now)
    (h3 : nodeEvent c { s with runs := s.runs.set r u', outs := outs } (.finish r) = .ok s') : LInv s' := by
  obtain ⟨n, k1, e5⟩ := node_ok h3
  obtain ⟨l1, l2, l3⟩ := runs_node (c := c) (s := { s with runs := s.runs.set r u', outs := outs })
    (by dsimp only; rw [List.length_set]; exact hlen) (objs_step k1).len rfl
  have hn1 : n = { s.node with reg := n.reg } ∧ Registry.step s.node.reg (.finish r) = .ok n.reg := by
    rw [Node.step, Node.regEvent, Outcome.bind_eq_ok] at k1
    obtain ⟨rr, k2, k3⟩ := k1
    rw [← Outcome.ok.inj k3]
    exact ⟨rfl, k2⟩
  obtain ⟨hn1, hn2⟩ := hn1
  have hfr := Registry.frame_step hn2
  subst e5
  refine ⟨fun b hb j hj => ?_, fun r1 o1 u1 ho1 hu1 hd1 => ?_, fun u1 hu1 => ?_⟩
  · dsimp only at hb ⊢
    rw [hn1]
    exact hl.own b hb j hj
  · dsimp only at ho1 hu1
    rcases l3 r1 u1 hu1 with hu1 | ⟨_, _, _, _, rfl⟩
    · by_cases hrr : r1 = r
      · subst hrr
        obtain ⟨o', q1, q2⟩ := hfr.fin r1 rfl
        have := Option.some.inj (q1.symm.trans ho1)
        rw [← this]; exact q2
      · dsimp only at hu1
        rw [Firewall.getElem?_set_other _ hrr] at hu1
        have hlt : r1 < s.node.reg.objs.length := by rw [← hlen]; exact lt_of_some hu1
        have ho0 := List.getElem?_eq_getElem hlt
        have ht := hl.over r1 _ u1 ho0 hu1 hd1
        obtain ⟨o', q1, _, q2, _⟩ := hfr.fwd r1 _ ho0
        have := Option.some.inj (q1.symm.trans ho1)
        rw [← this]; exact q2 ht
    · cases hd1
  · dsimp only at hu1 ⊢
    obtain ⟨r1, hr1⟩ := List.mem_iff_getElem?.1 hu1
    have hfw : n.fw = s.node.fw := by rw [hn1]
    rw [hfw]
    by_cases hlt : r1 < (s.runs.set r u').length
    · rw [List.getElem?_append_left hlt] at hr1
      rcases Firewall.getElem?_set_some hr hr1 with ⟨_, rfl⟩ | ⟨_, hr1⟩
      · exact Int.le_of_eq hn
      · exact hl.clock u1 (List.mem_of_getElem? hr1)
    · rw [List.getElem?_append_right (by omega), List.getElem?_map] at hr1
      obtain ⟨o, _, rfl⟩ := Option.map_eq_some_iff.1 hr1
      exact Int.le_of_eq (by rw [hfw]; rfl)

theorem linv_run {s s' : Sys K} (h : PInv c W s) (hl : LInv s) {r : Nat} {e : Prot.Ev Dto}
    (he : e = .thread ∨ ∃ m, e = .msg m ∧ W m ∧ 0 ≤ m.op ∧ ∀ o, s.node.reg.objs[r]? = some o → m.key = o.key)
    (hs : runEvent c s r e = .ok s') (hd : e = .thread → phaseOf s' r ≠ some .done) : LInv s' := by
  obtain ⟨u, o, u', outs, hr, ho, hx, _, rfl⟩ := run_ok hs
  obtain ⟨_, h2, b, _, _, h3⟩ := section_moves h he ho hr hx
  refine linv_set hl hr h2 fun hd1 => ?_
  rcases h3 with ⟨rfl, _⟩ | ⟨_, h3, _⟩
  · exact absurd (by rw [phaseOf, List.getElem?_set_self (lt_of_some hr)]; exact congrArg some hd1) (hd rfl)
  · exact h3.symm.trans hd1

/-- What a consumer gives to the run it has found. -/
theorem give_ok {s : Sys K} (h : PInv c W s) {q : Int × Int} {m : Message Dto} (hq : s.node.cons q = .found m) :
    W m ∧ 0 ≤ m.op ∧ ∀ o, s.node.reg.objs[s.found q]? = some o → m.key = o.key := by
  obtain ⟨hW, hr⟩ := h.n.carry.hold q m hq
  obtain ⟨o, ho, hk⟩ := h.f q m hq
  exact ⟨hW, hr.1, fun o' ho' => by rw [ho] at ho'; rw [← Option.some.inj ho', hk]⟩

theorem linv_launch {j : Job} {gs : List Int} {s s' : Sys K} (hs : launchAll c s j gs = .ok s') :
    s'.node.runners.length = s.node.runners.length + gs.length ∧ s'.node.reg = s.node.reg ∧ s'.node.fw = s.node.fw ∧
    (s.runs.length = s.node.reg.objs.length → s'.runs = s.runs) ∧ s'.jobs = s.jobs := by
  induction gs generalizing s with
  | nil => rw [launchAll] at hs; rw [← Outcome.ok.inj hs]; exact ⟨rfl, rfl, rfl, fun _ => rfl, rfl⟩
  | cons g gs ih =>
    rw [launchAll, Outcome.bind_eq_ok] at hs
    obtain ⟨s1, h1, h2⟩ := hs
    obtain ⟨n, g1, rfl⟩ := node_ok h1
    rw [Node.step] at g1
    have g1 := (Outcome.ok.inj g1).symm
    subst g1
    obtain ⟨i1, i2, i3, i4, i5⟩ := ih h2
    dsimp only at i1 i2 i3 i4 i5
    refine ⟨by rw [i1, List.length_append, List.length_singleton, List.length_cons]; omega, i2, i3, fun hlen => ?_, i5⟩
    have e : s.runs ++ (s.node.reg.objs.drop s.runs.length).map (fun o =>
        newRun Dto Obj (newData (c.gen o.key.gidx s.runs.length)) s.node.fw.now) = s.runs := by
      rw [hlen, List.drop_length, List.map_nil, List.append_nil]
    rw [i4 (by rw [e]; exact hlen), e]

theorem linv_step {s s' : Sys K} {e : Ev} (h : PInv c W s) (hd : Distinct s.jobs) (hl : LInv s) (hs : step c s e = .ok s') : LInv s' := by
  cases step_kind hs with
  | node h1 _ _ _ f =>
    have := linv_node h.u.len (h.n.good _) hl h1
    exact ⟨this.own, this.over, this.clock⟩
  | thread h1 h2 => exact linv_run h hl (.inl rfl) h1 (fun _ => h2)
  | last h1 h2 h3 =>
    obtain ⟨u, o, u', outs, hr, ho, hx, _, es1⟩ := run_ok h1
    obtain ⟨_, g2, _⟩ := section_moves h (.inl rfl) ho hr hx
    subst es1
    exact linv_last h.u.len hl hr g2 h3
  | @give q m s1 _ hq h1 h2 =>
    have he := give_ok h hq
    have hl1 := linv_run h hl (.inr ⟨m, rfl, he⟩) h1 (fun x => (by cases x))
    obtain ⟨hu, e1, e2, e3, e4⟩ := uinv_run h.n h.j h.u hd (.inr ⟨m, rfl, he⟩) h1
    have h' : PInv c W s1 := ⟨by rw [e1]; exact h.n, jinv_same h.j e1 e2 e3, hu, by intro q m; rw [e1, e4]; exact h.f q m⟩
    exact linv_node h'.u.len (h'.n.good _) hl1 h2
  | @job i g b b' _ _ hb hr _ =>
    refine ⟨fun b1 hb1 j hj => ?_, hl.over, hl.clock⟩
    rcases List.mem_or_eq_of_mem_set hb1 with hb1 | rfl
    · exact hl.own b1 hb1 j hj
    · rw [hr] at hj; exact hl.own b (List.mem_of_getElem? hb) j hj
  | @launch i g b s1 hb hpc h1 =>
    obtain ⟨i1, i2, i3, i4, i5⟩ := linv_launch h1
    refine ⟨fun b1 hb1 j hj => ?_, ?_, ?_⟩
    · dsimp only at hb1 ⊢
      rw [i1]
      rw [i5] at hb1
      rcases List.mem_or_eq_of_mem_set hb1 with hb1 | rfl
      · have := hl.own b1 hb1 j hj; omega
      · obtain ⟨x, hx, rfl⟩ := List.mem_map.1 hj
        rw [List.mem_range] at hx
        omega
    · dsimp only
      rw [i2, i4 h.u.len]; exact hl.over
    · dsimp only
      rw [i3, i4 h.u.len]; exact hl.clock
  | request =>
    refine ⟨fun b hb j hj => ?_, hl.over, hl.clock⟩
    rcases List.mem_append.1 hb with hb | hb
    · exact hl.own b hb j hj
    · rw [List.mem_singleton.1 hb] at hj; exact absurd hj List.not_mem_nil

/-- What is known of a state that was reached. -/
structure Known (c : Cfg K) (W : Message Dto → Prop) (s : Sys K) : Prop where
  p : PInv c W s
  d : Distinct s.jobs
  l : LInv s
  held : Node.Held s.node
  made : Node.Made s.node
  loc : Node.Loc s.node

theorem known_step {s s' : Sys K} {e : Ev} (h : Known c W s) (hd : Distinct s'.jobs) (hgn : c.guests.Nodup) (hw : ∀ m, e = .net m → W m)
    (hs : step c s e = .ok s') : Known c W s' := by
  have hp := pinv_step h.p hd hgn hw hs
  obtain ⟨es, h1, _⟩ := through_step hs
  exact ⟨hp, hd, linv_step h.p h.d h.l hs, Node.held_run (h.p.n.good ⟨0, 0, ""⟩) h.held h1 hp.n.keys, Node.made_run h.p.n.orig.runs h.made h1,
    Node.loc_run (h.p.n.good ⟨0, 0, ""⟩) h.loc h1⟩

theorem known_run {s s' : Sys K} {h : List Ev} (hk : Known c W s) (hd : Distinct s'.jobs) (hgn : c.guests.Nodup)
    (hw : ∀ m, .net m ∈ h → W m) (hs : run c s h = .ok s') : Known c W s' := by
  induction h generalizing s with
  | nil => rw [run] at hs; rw [← Outcome.ok.inj hs]; exact hk
  | cons e h ih =>
    rw [run, Outcome.bind_eq_ok] at hs
    obtain ⟨s1, h1, h2⟩ := hs
    exact ih (known_step hk (distinct_of_reqs (reqs_run h2) hd) hgn (fun m x => hw m (by rw [x]; exact List.mem_cons_self ..)) h1)
      (fun m x => hw m (List.mem_cons_of_mem _ x)) h2

theorem known_init (c : Cfg K) (W : Message Dto → Prop) : Known c W (init c) := by
  refine ⟨pinv_init c W, List.nodup_nil, ⟨?_, ?_, ?_⟩, ?_, ?_, nofun⟩
  · intro b hb; exact absurd hb List.not_mem_nil
  · intro r o u ho; cases ho
  · intro u hu; exact absurd hu List.not_mem_nil
  · intro u hu; exact absurd hu List.not_mem_nil
  · intro u hu; exact absurd hu List.not_mem_nil

end Verif.Program
