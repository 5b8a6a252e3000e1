import Verif.Proofs.ProgramEnds
import Verif.Proofs.ProtSent

/-! In a process in which nothing is late, a run is given in time what arrives in time. -/
namespace Verif.Program
open Verif.Prot Verif.Dto Verif.Dss Verif.Dkg Verif.Tables Verif.Signode Verif.Props Verif.Spec.Prot Verif.Spec.Program
open Verif.Registry (lt_of_some)
variable {K : Type} {c : Cfg K} {W : Message Dto → Prop}

theorem prompt_prefix {h g : List Ev} (hp : Prompt c (h ++ g)) : Prompt c h :=
  fun a t b hab => hp a t (b ++ g) (by rw [hab]; simp)

theorem nodup_prefix {h g : List Ev} (hd : ((requests (h ++ g)).map jobId).Nodup) : ((requests h).map jobId).Nodup := by
  rw [requests_append, List.map_append] at hd
  exact (List.nodup_append.1 hd).1

theorem clock_step {s s' : Sys K} {e : Ev} (hs : step c s e = .ok s') : s.node.fw.now ≤ s'.node.fw.now := by
  by_cases he : ∃ t, e = .tick t
  · obtain ⟨t, rfl⟩ := he
    rw [step] at hs
    obtain ⟨n, h1, rfl⟩ := node_ok hs
    rw [Node.step, Node.fwEvent, Firewall.step] at h1
    by_cases ht : s.node.fw.now ≤ t
    · rw [if_pos ht, Outcome.bind_ok] at h1
      have h1 := Outcome.ok.inj h1
      dsimp only at h1
      rw [List.drop_length, List.foldl_nil] at h1
      rw [← h1]; exact ht
    · rw [if_neg ht] at h1; cases h1
  · exact Int.le_of_eq (node_step hs fun t h => he ⟨t, h⟩).1.symm

theorem clock_run {h : List Ev} {s s' : Sys K} (hs : run c s h = .ok s') : s.node.fw.now ≤ s'.node.fw.now := by
  induction h generalizing s with
  | nil => rw [run] at hs; rw [← Outcome.ok.inj hs]
  | cons e h ih =>
    rw [run, Outcome.bind_eq_ok] at hs
    obtain ⟨s1, h1, h2⟩ := hs
    exact (clock_step h1).trans (ih h2)

/-- A run stays, and its trace only grows. -/
theorem run_fwd {s s' : Sys K} {e : Ev} (hK : Known c W s) (hK' : Known c W s') (hs : step c s e = .ok s') {r : Nat} {o : Registry.Obj}
    {u : Run Dto Obj (Data K)} (ho : s.node.reg.objs[r]? = some o) (hu : s.runs[r]? = some u) :
    ∃ o' u', s'.node.reg.objs[r]? = some o' ∧ o'.key = o.key ∧ s'.runs[r]? = some u' ∧ u.log <+: u'.log := by
  obtain ⟨o', ho', hk'⟩ := objs_fwd hs ho
  have hlt : r < s'.runs.length := by rw [hK'.p.u.len]; exact lt_of_some ho'
  have hu' := List.getElem?_eq_getElem hlt
  refine ⟨o', _, ho', hk', hu', ?_⟩
  rcases run_change hK hs hu' with h | ⟨hr, _⟩ | ⟨u0, o1, b, pe, hu0, _, _, _, _, hst⟩
  · rw [Option.some.inj (hu.symm.trans h)]
  · have := lt_of_some hu; omega
  · have e := Option.some.inj (hu.symm.trans hu0)
    subst e
    have := step_log hst
    exact this

/-- A section of a request changes nothing in the node, except when it starts the runners. -/
theorem job_node {s s' : Sys K} {i : Nat} {g : Int} (hs : step c s (.job i g) = .ok s') :
    s'.node = s.node ∨ ∃ j s1, launchAll c s j c.guests = .ok s1 ∧ s'.node = s1.node := by
  rw [step, jobStep.eq_def] at hs
  cases hb : s.jobs[i]? with
  | none => rw [hb] at hs; cases hs
  | some b =>
    rw [hb] at hs
    dsimp only at hs
    cases hpc : b.pc with
    | launching =>
      rw [hpc] at hs
      dsimp only at hs
      rw [Outcome.bind_eq_ok] at hs
      obtain ⟨s1, h1, hs⟩ := hs
      rw [← Outcome.ok.inj hs]
      exact .inr ⟨b.job, s1, h1, rfl⟩
    | ended => rw [hpc] at hs; cases hs
    | waiting =>
      rw [hpc] at hs
      dsimp only at hs
      split at hs
      · rw [← Outcome.ok.inj hs]; exact .inl rfl
      · cases hs
    | printing =>
      rw [hpc] at hs
      dsimp only at hs
      split at hs
      · rw [← Outcome.ok.inj hs]; exact .inl rfl
      · split at hs
        · rw [Outcome.bind_eq_ok] at hs
          obtain ⟨_, _, hs⟩ := hs
          rw [Outcome.bind_eq_ok] at hs
          obtain ⟨_, _, hs⟩ := hs
          rw [← Outcome.ok.inj hs]; exact .inl rfl
        · cases hs
    | _ =>
      rw [hpc] at hs
      dsimp only at hs
      split at hs
      · rw [← Outcome.ok.inj hs]; exact .inl rfl
      · split at hs
        · rw [Outcome.bind_eq_ok] at hs
          obtain ⟨_, _, hs⟩ := hs
          rw [← Outcome.ok.inj hs]; exact .inl rfl
        · cases hs

/-- A message that has come through the firewall is given to its run or still carried. -/
theorem carried_prog {s s' : Sys K} {e : Ev} {m : Message Dto} (hm : 0 ≤ m.pc) (hs : step c s e = .ok s') (he : ∀ t, e ≠ .tick t)
    (h : Node.Carried m s.node) (hn : ¬ (s.node.cons (m.pc, m.rcpt) = .found m ∧ e = .cons (m.pc, m.rcpt))) : Node.Carried m s'.node := by
  have node : ∀ {s s' : Sys K} {ne : Node.Ev Dto}, nodeEvent c s ne = .ok s' → Node.Carried m s.node →
      ¬ (s.node.cons (m.pc, m.rcpt) = .found m ∧ ne = .cons (m.pc, m.rcpt)) → Node.Carried m s'.node := by
    intro s s' ne h1 h2 h3
    obtain ⟨n, h4, rfl⟩ := node_ok h1
    exact Node.carried_step hm h4 h2 h3
  have not_cons : ∀ {s : Sys K} {ne : Node.Ev Dto}, (∀ q, ne ≠ .cons q) → ¬ (s.node.cons (m.pc, m.rcpt) = .found m ∧ ne = .cons (m.pc, m.rcpt)) :=
    fun h ⟨_, e⟩ => h _ e
  cases e with
  | tick t => exact absurd rfl (he t)
  | latch => exact node hs h (not_cons fun _ => nofun)
  | net m' => exact node hs h (not_cons fun _ => nofun)
  | fwStep i => exact node hs h (not_cons fun _ => nofun)
  | task i => exact node hs h (not_cons fun _ => nofun)
  | runner i => exact node hs h (not_cons fun _ => nofun)
  | request j => rw [step] at hs; rw [← Outcome.ok.inj hs]; exact h
  | thread r =>
    rw [step, threadStep.eq_def] at hs
    cases ho : s.node.reg.objs[r]? with
    | none => rw [ho] at hs; cases hs
    | some o =>
      rw [ho] at hs
      dsimp only at hs
      by_cases h0 : o.started = 0
      · rw [if_pos h0] at hs; cases hs
      rw [if_neg h0, Outcome.bind_eq_ok] at hs
      obtain ⟨s1, h1, h2⟩ := hs
      obtain ⟨_, _, _, _, _, _, _, _, rfl⟩ := run_ok h1
      split at h2
      · exact node h2 h (not_cons fun _ => nofun)
      · rw [← Outcome.ok.inj h2]; exact h
  | cons q =>
    rw [step, consStep] at hs
    have hn' : ¬ (s.node.cons (m.pc, m.rcpt) = .found m ∧ Node.Ev.cons q = (.cons (m.pc, m.rcpt) : Node.Ev Dto)) := by
      rintro ⟨h1, h2⟩
      injection h2 with h2
      exact hn ⟨h1, by rw [h2]⟩
    cases hq : s.node.cons q with
    | idle => rw [hq] at hs; exact node hs h hn'
    | got m' =>
      rw [hq] at hs
      dsimp only at hs
      rw [Outcome.bind_eq_ok] at hs
      obtain ⟨s1, h1, h2⟩ := hs
      rw [← Outcome.ok.inj h2]
      have := node h1 h hn'
      exact this
    | found m' =>
      rw [hq] at hs
      dsimp only at hs
      rw [Outcome.bind_eq_ok] at hs
      obtain ⟨s1, h1, h2⟩ := hs
      obtain ⟨_, _, _, _, _, _, _, _, rfl⟩ := run_ok h1
      exact node h2 h hn'
  | job i g =>
    rcases job_node hs with e | ⟨b, s1, h1, e⟩
    · rw [e]; exact h
    · rw [e]
      have key : ∀ (gs : List Int) (s0 : Sys K), Node.Carried m s0.node → launchAll c s0 b gs = .ok s1 → Node.Carried m s1.node := by
        intro gs
        induction gs with
        | nil => intro s0 h0 h1; rw [launchAll] at h1; rw [← Outcome.ok.inj h1]; exact h0
        | cons g gs ih =>
          intro s0 h0 h1
          rw [launchAll, Outcome.bind_eq_ok] at h1
          obtain ⟨s2, h2, h3⟩ := h1
          exact ih s2 (node h2 h0 (not_cons fun _ => nofun)) h3
      exact key _ _ h h1

/-- The run of the request for guest `x` has been given `m` in time. -/
def Given (j : Job) (x : Int) (m : Message Dto) (s : Sys K) : Prop :=
  ∃ (r : Nat) (o : Registry.Obj) (u : Run Dto Obj (Data K)), s.node.reg.objs[r]? = some o ∧ o.key = ⟨1, x, jobId j⟩ ∧ s.runs[r]? = some u ∧
    m ∈ early m.op u.log ++ inTime m.op u.log

theorem given_fwd {j : Job} {x : Int} {m : Message Dto} {s s' : Sys K} {e : Ev} (hK : Known c W s) (hK' : Known c W s') (hs : step c s e = .ok s')
    (h : Given j x m s) : Given j x m s' := by
  obtain ⟨r, o, u, h1, h2, h3, h4⟩ := h
  obtain ⟨o', u', g1, g2, g3, g4⟩ := run_fwd hK hK' hs h1 h3
  exact ⟨r, o', u', g1, g2.trans h2, g3, given_mono g4 h4⟩

/-- What is given to a run on its schedule before the end of its stage is given in time. -/
theorem given_cons {j : Job} {x : Int} {m : Message Dto} {s s' : Sys K} (hK : Known c W s) (hK' : Known c W s') (hS : Sched c j x s)
    (hk : m.key = ⟨1, x, jobId j⟩) (h0 : 0 ≤ m.op) (h12 : m.op < 12) (ht : s.node.fw.now < (c.allow j).start + ends m.op)
    (hf : s.node.cons (m.pc, m.rcpt) = .found m) (hs : step c s (.cons (m.pc, m.rcpt)) = .ok s') : Given j x m s' := by
  rw [step, consStep, hf] at hs
  dsimp only at hs
  rw [Outcome.bind_eq_ok] at hs
  obtain ⟨s1, h1, h2⟩ := hs
  obtain ⟨o, ho, hok⟩ := hK.p.f _ _ hf
  obtain ⟨u, o1, u', b, outs, hu, ho1, _, hinv, hst, rfl⟩ := section_step hK.p (.inr ⟨m, rfl, give_ok hK.p hf⟩) h1
  have := Option.some.inj (ho.symm.trans ho1)
  subst this
  have hT := hS.time _ o u ho (hok.trans hk) hu
  have hT' : OnTime 650 (c.allow j).start s.node.fw.now { u with now := s.node.fw.now } := hT
  obtain ⟨e1, e2⟩ := onTime_stage (keeps_dss ..) hinv hT' h0 h12 ht
  have hg := given_mono (receive_log hst).1 (given_now hinv rfl e1 e2)
  obtain ⟨n, hn, rfl⟩ := node_ok h2
  obtain ⟨o', ho', hk'⟩ := (objs_step hn).fwd _ o ho
  refine ⟨s.found (m.pc, m.rcpt), o', u', ho', by rw [hk', hok, hk], ?_, hg⟩
  dsimp only
  rw [List.getElem?_append_left (by rw [List.length_set]; exact lt_of_some hu)]
  exact List.getElem?_set_self (lt_of_some hu)

/-- A message that arrives after the start of its run and before the allowance stops goes to the queue, if there is room. -/
theorem opened_net {s s' : Sys K} (hw : Whole s) (hstages : s.node.stages = stageCount) {m : Message Dto} {a : Firewall.Allowance} (h0 : 0 ≤ m.op)
    (h12 : m.op < (stageCount m.pc : Int)) (hop : Node.Opened s.node m.key a) (hda : s.node.fw.dropAll = false) (hstop : s.node.fw.now < a.stop)
    (hroom : (s.node.queues (m.pc, m.rcpt)).length < Node.rcvBufMax) (hs : step c s (.net m) = .ok s') : Node.Carried m s'.node := by
  have hF := (hw.good ⟨0, 0, ""⟩).r.fw
  obtain ⟨i, x, hx, hk, ha, hl, h3⟩ := hop
  have hsec : x.sections = 3 := by
    have := (hF.loaded i x hx).2.2.2
    by_contra hc
    have := this (by omega)
    rw [ha] at this
    omega
  have hst := (hF.act i x ⟨hx, hl, by omega⟩).2
  rw [hk] at hst
  have hval : Firewall.messageValid s.node.fw m = true := by
    rw [Firewall.messageValid_eq, ← hk]; exact hF.keys i x hx
  have hopen : (s.node.fw.dropAll || !Firewall.messageValid s.node.fw m) = false := by rw [hda, hval]; rfl
  have hproc : Firewall.process s.node.fw m = { s.node.fw with out := s.node.fw.out ++ [m] } := by
    rw [Firewall.process, hopen, if_neg Bool.false_ne_true, hst, hsec]
    dsimp only
    rw [if_neg (by decide), if_pos (by decide)]
  obtain ⟨n, h1, rfl⟩ := node_ok hs
  rw [Node.step, Node.fwEvent, Firewall.step, Outcome.bind_ok, hproc] at h1
  have h1 := Outcome.ok.inj h1
  dsimp only at h1
  rw [List.drop_left, List.foldl_cons, List.foldl_nil, Node.receiveMsg, hstages, if_neg, if_pos hroom] at h1
  · left
    rw [← h1]
    show m ∈ Node.update _ _ _ _
    rw [Node.update, if_pos rfl]
    exact List.mem_append_right _ (List.mem_singleton.2 rfl)
  · simp [h0, h12]

/-- In a process in which nothing is late, the run of a request that came in time is given what arrives while it goes on and before the end
of the stage that the message is for. -/
theorem given_prompt {h1 h2 g1 g2 : List Ev} {j : Job} {x : Int} {m : Message Dto} {s1 t s : Sys K} (hg : c.guests.Nodup) (hx : x ∈ c.guests)
    (hbuf : (c.allow j).buf ≤ (c.allow j).start) (hdrop : c.dropUntil ≤ (c.allow j).start) (hstop : (c.allow j).start + 650 ≤ (c.allow j).stop)
    (hr1 : run c (init c) h1 = .ok s1) (hin : s1.node.fw.now ≤ (c.allow j).start) (hr : run c (init c) (h1 ++ .request j :: h2) = .ok s)
    (hd : ((requests (h1 ++ .request j :: h2)).map jobId).Nodup) (hp : Prompt c (h1 ++ .request j :: h2))
    (he : h1 ++ .request j :: h2 = g1 ++ .net m :: g2) (ht : run c (init c) g1 = .ok t) (hk : m.key = ⟨1, x, jobId j⟩) (h0 : 0 ≤ m.op)
    (h12 : m.op < 12) (hlo : (c.allow j).start < t.node.fw.now) (hhi : t.node.fw.now < (c.allow j).start + ends m.op)
    (hroom : (t.node.queues (1, x)).length < Node.rcvBufMax) (hend : t.node.fw.now < s.node.fw.now) : Given j x m s := by
  have hpc : m.pc = 1 := congrArg RunKey.pc hk
  have hrc : m.rcpt = x := congrArg RunKey.gidx hk
  -- the request came before the message
  obtain ⟨k, rfl⟩ : ∃ k, g1 = h1 ++ .request j :: k := by
    rcases List.append_eq_append_iff.1 he with ⟨as, e1, e2⟩ | ⟨as, e1, e2⟩
    · cases as with
      | nil => simp at e2
      | cons a as =>
        rw [List.cons_append] at e2
        injection e2 with e2 e3
        exact ⟨as, by rw [e1, ← e2]⟩
    · exfalso
      rw [e1] at hr1
      obtain ⟨t', f1, f2⟩ := run_append_ok hr1
      have := Outcome.ok.inj (ht.symm.trans f1)
      subst this
      have := clock_run f2
      omega
  have e : h1 ++ .request j :: h2 = ((h1 ++ .request j :: k) ++ [.net m]) ++ g2 := by rw [he]; simp
  rw [e] at hr hd hp
  have hp1 := prompt_prefix (prompt_prefix hp)
  have hd1 := nodup_prefix (nodup_prefix hd)
  have hS := sched hg hx hbuf hdrop hr1 hin ht hd1 hp1
  obtain ⟨t', a1, a2⟩ := run_append_ok hr
  obtain ⟨t1, b1, b2⟩ := run_append_ok a1
  have := Outcome.ok.inj (ht.symm.trans b1)
  subst this
  rw [run, Outcome.bind_eq_ok] at b2
  obtain ⟨t2, b2, b3⟩ := b2
  rw [run] at b3
  have := Outcome.ok.inj b3
  subst this
  have hRt : Reach c t := ⟨_, ht, hd1⟩
  have hRt' : Reach c t2 := ⟨_, a1, nodup_prefix hd⟩
  have hnow : t2.node.fw.now = t.node.fw.now := (node_step b2 fun _ => nofun).1
  have key := prompt_induct (P := fun s => Sched c j x s ∧ (Given j x m s ∨ (s.node.fw.now = t.node.fw.now ∧ Node.Carried m s.node))) hg a1 ?_ a2 hd hp
    ?_ ?_
  · rcases key.2 with h | ⟨h, _⟩
    · exact h
    · omega
  · refine ⟨sched_step hg hRt hRt' hS b2 fun _ => nofun, .inr ⟨hnow, ?_⟩⟩
    rcases hS.made with h | ⟨_, h3, h4⟩
    · omega
    · have e650 := ends_mono (show m.op ≤ 11 by omega)
      have e11 : ends 11 = 650 := rfl
      have hstages : t.node.stages = stageCount := by
        obtain ⟨es, r1, _⟩ := through_run ht
        exact (Node.const_run r1).1
      have h12' : m.op < (stageCount m.pc : Int) := by rw [hpc]; exact h12
      exact opened_net (hRt.known hg).whole hstages h0 h12' (by rw [hk]; exact h3) h4 (by omega) (by rw [hpc, hrc]; exact hroom) b2
  · intro s e s' hR hR' ⟨hS, hc⟩ hs he
    refine ⟨sched_step hg hR hR' hS hs he, ?_⟩
    rcases hc with h | ⟨h, hc⟩
    · exact .inl (given_fwd (hR.known hg) (hR'.known hg) hs h)
    · by_cases hn : s.node.cons (m.pc, m.rcpt) = .found m ∧ e = .cons (m.pc, m.rcpt)
      · obtain ⟨hf, rfl⟩ := hn
        exact .inl (given_cons (hR.known hg) (hR'.known hg) hS hk h0 h12 (by omega) hf hs)
      · exact .inr ⟨(node_step hs he).1.trans h, carried_prog (by omega) hs he hc hn⟩
  · intro s t' hR hR' ⟨hS, hc⟩ ht hq
    refine ⟨sched_wait hg hx hbuf hdrop hR' hS ht hq, .inl ?_⟩
    rcases hc with h | ⟨_, hc⟩
    · exact h
    · exfalso
      obtain ⟨q1, q2⟩ := quiet_cons (hR'.known hg).whole hq (m.pc, m.rcpt)
      have q1 : s.node.cons (m.pc, m.rcpt) = .idle := q1
      have q2 : s.node.queues (m.pc, m.rcpt) = [] := q2
      rcases hc with h | h | h
      · rw [q2] at h; cases h
      · rw [q1] at h; cases h
      · rw [q1] at h; cases h

end Verif.Program
