import Verif.Proofs.KeyPrompt
import Verif.Proofs.DkgSent

/-! In a process in which nothing is late, a run of an attempt is given in time what arrives in time, and sends its messages at fixed times. -/
namespace Verif.KeyProgram
open Verif.Prot Verif.Dto Verif.Dss Verif.Dkg Verif.Tables Verif.Signode Verif.Props Verif.Spec.Prot Verif.Spec.Signode
open Verif.Spec.KeyProgram
open Verif.Spec.Program (ends)
open Verif.Registry (lt_of_some)
open Verif.Program (nodeEvent runEvent released node_ok run_ok objs_step)
variable {K : Type} {c : Cfg K} {W : Message Dto → Prop}

theorem prompt_prefix {h g : List Ev} (hp : Prompt c (h ++ g)) : Prompt c h :=
  fun a t b hab => hp a t (b ++ g) (by rw [hab]; simp)

/-- The clock only changes in a tick. -/
theorem clock_same {s s' : Sys K} {e : Ev} (hc : Fit c) (hR : Reach c s) (hs : step c s e = .ok s') (he : ∀ t, e ≠ .prog (.tick t)) :
    s'.prog.node.fw.now = s.prog.node.fw.now := by
  by_cases hpe : ∃ pe, e = .prog pe
  · obtain ⟨pe, rfl⟩ := hpe
    obtain ⟨_, _, p, hst, rfl⟩ := prog_ok hs
    exact (Program.node_step hst fun t h => he t (by rw [h])).1
  · obtain ⟨_, _, hn⟩ := (aside_step hc.inj hc.guests (fun _ _ => trivial) (hR.known hc) hs fun pe h => hpe ⟨pe, h⟩).node
    rw [hn]

/-- A run stays, and its trace only grows. -/
theorem run_fwd {s s' : Sys K} {e : Ev} (hc : Fit c) (hR : Reach c s) (hs : step c s e = .ok s') {r : Nat} {o : Registry.Obj}
    {u : Run Dto Obj (Data K)} (ho : s.prog.node.reg.objs[r]? = some o) (hu : s.prog.runs[r]? = some u) :
    ∃ o' u', s'.prog.node.reg.objs[r]? = some o' ∧ o'.key = o.key ∧ s'.prog.runs[r]? = some u' ∧ u.log <+: u'.log := by
  have hK := hR.known hc
  have hK' := (hR.step hs).known hc
  by_cases hpe : ∃ pe, e = .prog pe
  · obtain ⟨pe, rfl⟩ := hpe
    obtain ⟨_, hreq, p, hst, rfl⟩ := prog_ok hs
    obtain ⟨o', ho', hk'⟩ := Program.objs_fwd hst ho
    have hlt : r < p.runs.length := by rw [hK'.i.p.u.len]; exact lt_of_some ho'
    have hu' := List.getElem?_eq_getElem hlt
    refine ⟨o', _, ho', hk', hu', ?_⟩
    rcases run_change hK.i.p hreq hst hu' with h | ⟨hr, _⟩ | ⟨u0, o1, pe, hu0, _, _, _, hst'⟩
    · rw [Option.some.inj (hu.symm.trans h)]
    · have := lt_of_some hu; omega
    · have e := Option.some.inj (hu.symm.trans hu0)
      subst e
      have := step_log hst'
      exact this
  · have hA := aside_step hc.inj hc.guests (fun _ _ => trivial) hK hs fun pe h => hpe ⟨pe, h⟩
    obtain ⟨_, _, hn⟩ := hA.node
    exact ⟨o, u, by rw [hn]; exact ho, rfl, by rw [hA.runs]; exact hu, List.prefix_refl _⟩

/-- The run of the i-th attempt for guest `x` has been given `m` in time. -/
def Given (c : Cfg K) (i : Nat) (x : Int) (m : Message Dto) (s : Sys K) : Prop :=
  ∃ (r : Nat) (o : Registry.Obj) (u : Run Dto Obj (Data K)), s.prog.node.reg.objs[r]? = some o ∧ o.key = ⟨0, x, ids c i⟩ ∧
    s.prog.runs[r]? = some u ∧ m ∈ early m.op u.log ++ inTime m.op u.log

/-- What is given to a run on its schedule before the end of its stage is given in time. -/
theorem given_cons {i : Nat} {x : Int} {m : Message Dto} {s s' : Sys K} (hc : Fit c) (hx : x ∈ c.base.guests) (hR : Reach c s) (hS : Sched c s)
    (hk : m.key = ⟨0, x, ids c i⟩) (h0 : 0 ≤ m.op) (h9 : m.op < 9) (ht : s.prog.node.fw.now < (allowed c i).start + ends m.op)
    (hf : s.prog.node.cons (m.pc, m.rcpt) = .found m) (hs : step c s (.prog (.cons (m.pc, m.rcpt))) = .ok s') : Given c i x m s' := by
  have hK := hR.known hc
  obtain ⟨_, _, p, hst, rfl⟩ := prog_ok hs
  clear hs
  have hs : Program.consStep c.base s.prog (m.pc, m.rcpt) = .ok p := hst
  rw [Verif.Program.consStep, hf] at hs
  dsimp only at hs
  rw [Outcome.bind_eq_ok] at hs
  obtain ⟨s1, h1, h2⟩ := hs
  obtain ⟨o, ho, hok⟩ := hK.i.p.f _ _ hf
  obtain ⟨u, o1, u', outs, hu, ho1, hinv, hst, rfl⟩ := section_step hK.i.p h1
  have := Option.some.inj (ho.symm.trans ho1)
  subst this
  have hT := hS.time i x _ o u hx ho (hok.trans hk) hu
  have hT' : OnTime 525 (allowed c i).start s.prog.node.fw.now { u with now := s.prog.node.fw.now } := hT
  obtain ⟨e1, e2⟩ := onTime_stage (keeps_dkg ..) hinv hT' h0 h9 ht
  have hg := given_mono (receive_log hst).1 (given_now hinv rfl e1 e2)
  obtain ⟨n, hn, rfl⟩ := node_ok h2
  obtain ⟨o', ho', hk'⟩ := (objs_step hn).fwd _ o ho
  refine ⟨s.prog.found (m.pc, m.rcpt), o', u', ho', by rw [hk', hok, hk], ?_, hg⟩
  dsimp only
  rw [List.getElem?_append_left (by rw [List.length_set]; exact lt_of_some hu)]
  exact List.getElem?_set_self (lt_of_some hu)

/-- In a process in which nothing is late, a run of an attempt is given what arrives while it goes on and before the end of the stage that
the message is for. -/
theorem given_prompt {g1 g2 : List Ev} {i : Nat} {x : Int} {m : Message Dto} {t s : Sys K} (hc : Fit c) (ha : Apart c) (hx : x ∈ c.base.guests)
    (hr : run c (init c) (g1 ++ .prog (.net m) :: g2) = .ok s) (hp : Prompt c (g1 ++ .prog (.net m) :: g2))
    (ht : run c (init c) g1 = .ok t) (hk : m.key = ⟨0, x, ids c i⟩) (h0 : 0 ≤ m.op)
    (h9 : m.op < 9) (hlo : (allowed c i).start < t.prog.node.fw.now) (hhi : t.prog.node.fw.now < (allowed c i).start + ends m.op)
    (hroom : (t.prog.node.queues (0, x)).length < Node.rcvBufMax) (hend : t.prog.node.fw.now < s.prog.node.fw.now) : Given c i x m s := by
  have hpc : m.pc = 0 := congrArg RunKey.pc hk
  have hrc : m.rcpt = x := congrArg RunKey.gidx hk
  have e : g1 ++ .prog (.net m) :: g2 = (g1 ++ [.prog (.net m)]) ++ g2 := by simp
  rw [e] at hr hp
  have hS := sched hc ha ht (prompt_prefix (prompt_prefix hp))
  obtain ⟨t', a1, a2⟩ := run_append_ok hr
  obtain ⟨t1, b1, b2⟩ := run_append_ok a1
  have := Outcome.ok.inj (ht.symm.trans b1)
  subst this
  rw [run, Outcome.bind_eq_ok] at b2
  obtain ⟨t2, b2, b3⟩ := b2
  rw [run] at b3
  have := Outcome.ok.inj b3
  subst this
  have hRt : Reach c t := ⟨_, ht⟩
  have hRt' : Reach c t2 := ⟨_, a1⟩
  have hnow : t2.prog.node.fw.now = t.prog.node.fw.now := clock_same hc hRt b2 fun _ => nofun
  have key := prompt_induct (Q := fun s => Sched c s ∧ (Given c i x m s ∨ (s.prog.node.fw.now = t.prog.node.fw.now ∧ Node.Carried m s.prog.node))) hc a1
    ?_ a2 hp ?_ ?_
  · rcases key.2 with h | ⟨h, _⟩
    · exact h
    · omega
  · refine ⟨sched_step hc hRt hRt' hS b2 fun _ => nofun, .inr ⟨hnow, ?_⟩⟩
    rcases hS.made i x hx with h | ⟨_, h3, h4⟩
    · omega
    · have e525 := ends_mono (show m.op ≤ 8 by omega)
      have e8 : ends 8 = 525 := rfl
      have h12' : m.op < (Program.stageCount m.pc : Int) := by rw [hpc]; exact h9
      have := ha.stop i
      obtain ⟨_, _, p, hst, e⟩ := prog_ok b2
      rw [e]
      exact Program.opened_net (hRt.known hc).whole (hRt.side hc).stages h0 h12' (by rw [hk]; exact h3) h4 (by omega) (by rw [hpc, hrc]; exact hroom) hst
  · intro s e s' hR hR' ⟨hS, hcr⟩ hs he
    refine ⟨sched_step hc hR hR' hS hs he, ?_⟩
    rcases hcr with ⟨r, o, u, h1, h2, h3, h4⟩ | ⟨h, hcr⟩
    · obtain ⟨o', u', g1, g2, g3, g4⟩ := run_fwd hc hR hs h1 h3
      exact .inl ⟨r, o', u', g1, g2.trans h2, g3, given_mono g4 h4⟩
    · by_cases hn : s.prog.node.cons (m.pc, m.rcpt) = .found m ∧ e = .prog (.cons (m.pc, m.rcpt))
      · obtain ⟨hf, rfl⟩ := hn
        exact .inl (given_cons hc hx hR hS hk h0 h9 (by omega) hf hs)
      · refine .inr ⟨(clock_same hc hR hs he).trans h, ?_⟩
        by_cases hpe : ∃ pe, e = .prog pe
        · obtain ⟨pe, rfl⟩ := hpe
          obtain ⟨_, _, p, hst, rfl⟩ := prog_ok hs
          exact Program.carried_prog (by omega) hst (fun t h => he t (by rw [h])) hcr fun ⟨h1, h2⟩ => hn ⟨h1, by rw [h2]⟩
        · obtain ⟨_, _, hn⟩ := (aside_step hc.inj hc.guests (fun _ _ => trivial) (hR.known hc) hs fun pe h => hpe ⟨pe, h⟩).node
          rw [hn]; exact hcr
  · intro s t' hf hR hR' ⟨hS, hcr⟩ ht hq
    refine ⟨sched_wait hc ha hf hR' hS ht hq, .inl ?_⟩
    rcases hcr with h | ⟨_, hcr⟩
    · exact h
    · exfalso
      obtain ⟨q1, q2⟩ := Program.quiet_cons (hR'.known hc).whole (quiet_prog (s := at_ s (t' - 1)) hf hq) (m.pc, m.rcpt)
      have q1 : s.prog.node.cons (m.pc, m.rcpt) = .idle := q1
      have q2 : s.prog.node.queues (m.pc, m.rcpt) = [] := q2
      rcases hcr with h | h | h
      · rw [q2] at h; cases h
      · rw [q1] at h; cases h
      · rw [q1] at h; cases h

theorem run_sent {s s' : Sys K} {h : List Ev} (hc : Fit c) (hR : Reach c s) (hr : run c s h = .ok s') {m : Message Dto} {r : Nat} {o : Registry.Obj}
    {u : Run Dto Obj (Data K)} (ho : s.prog.node.reg.objs[r]? = some o) (hu : s.prog.runs[r]? = some u) (hm : .sent m ∈ u.log) :
    ∃ v ∈ s'.prog.runs, .sent m ∈ v.log := by
  induction h generalizing s r o u with
  | nil => rw [run] at hr; rw [← Outcome.ok.inj hr]; exact ⟨u, List.mem_of_getElem? hu, hm⟩
  | cons e h ih =>
    rw [run, Outcome.bind_eq_ok] at hr
    obtain ⟨s1, h1, h2⟩ := hr
    obtain ⟨o', u', g1, _, g3, g4⟩ := run_fwd hc hR h1 ho hu
    exact ih (hR.step h1) h2 g1 g3 (g4.subset hm)

/-- A message of an attempt is sent when its stage is entered. -/
theorem sent_time {g1 g2 : List Ev} {e : Ev} {i : Nat} {m : Message Dto} {t t' s : Sys K} (hc : Fit c) (ha : Apart c)
    (hr : run c (init c) (g1 ++ e :: g2) = .ok s) (hp : Prompt c (g1 ++ e :: g2)) (ht : run c (init c) g1 = .ok t) (hs : step c t e = .ok t')
    (hid : m.runId = ids c i) (hold : ∀ u ∈ t.prog.runs, .sent m ∉ u.log) (hnew : ∃ u ∈ t'.prog.runs, .sent m ∈ u.log) :
    m.op ∈ [1, 2, 3, 5, 6, 7] ∧ t.prog.node.fw.now = (allowed c i).start + ends (m.op - 1) + 5 ∧ ∃ v ∈ s.prog.runs, .sent m ∈ v.log := by
  have hR : Reach c t := ⟨_, ht⟩
  have hR' := hR.step hs
  have hK := hR.known hc
  have hK' := hR'.known hc
  have hwhole : g1 ++ e :: g2 = (g1 ++ [e]) ++ g2 := by simp
  rw [hwhole] at hp hr
  have hS := sched hc ha ht (prompt_prefix (prompt_prefix hp))
  obtain ⟨u', hu', hm⟩ := hnew
  obtain ⟨r, hr'⟩ := List.mem_iff_getElem?.1 hu'
  have hops : m.op ∈ [1, 2, 3, 5, 6, 7] := by
    obtain ⟨_, _, _, hx'⟩ := hK'.i.p.u.trace r _ u' (List.getElem?_eq_getElem (by rw [← hK'.i.p.u.len]; exact lt_of_some hr')) hr'
    exact table_ops ((track_exec (dkg_keeps _ _ _ (P := fun _ => True) ⟨fun _ _ _ => trivial, fun _ _ _ => trivial, fun _ _ _ _ => trivial⟩)
      trivial hx').req m (Verif.Props.sent_requested hx' hm))
  have hpos : 1 ≤ m.op := by
    simp only [List.mem_cons, List.not_mem_nil, or_false] at hops
    omega
  refine ⟨hops, ?_, ?_⟩
  · by_cases hpe : ∃ pe, e = .prog pe
    · obtain ⟨pe, rfl⟩ := hpe
      obtain ⟨_, hreq, p, hst, rfl⟩ := prog_ok hs
      rcases run_change hK.i.p hreq hst hr' with h | ⟨_, k, t0, rfl⟩ | ⟨u, o, pe, hu, ho, _, hinv, hst'⟩
      · exact absurd hm (hold _ (List.mem_of_getElem? h))
      · exact absurd hm (by simp [newRun])
      · have hold' : .sent m ∉ ({ u with now := t.prog.node.fw.now } : Run Dto Obj (Data K)).log := hold u (List.mem_of_getElem? hu)
        obtain ⟨_, q1, q2⟩ := sent_entering dkg_ahead hinv hst' hold' hm
        have q1 : u.state = m.op - 1 := q1
        -- the run is one of the attempt
        obtain ⟨j, g, hg, hkey, _⟩ := obj_owner hK.i ho
        have hrun : o.key.runId = ids c i := by
          obtain ⟨o', ho', hk'⟩ := Program.objs_fwd hst ho
          obtain ⟨_, _, _, hx'⟩ := hK'.i.p.u.trace r o' u' ho' hr'
          obtain ⟨l1, l2, e⟩ := List.append_of_mem (Verif.Props.sent_requested hx' hm)
          obtain ⟨_, _, f3⟩ := (agree_exec hx').inv.core.legal l1 _ l2 e
          have f3 : m.runId = o'.key.runId := f3
          rw [← hk', ← f3, hid]
        have hT := hS.time i g r o u hg ho (by rw [← hrun, hkey]) hu
        rw [OnTime] at hT
        rcases q2 with q2 | ⟨q2, q3⟩
        · have q2 : u.phase = .started := q2
          rw [q2] at hT
          have := (hinv.fresh (.inr q2)).1
          have : u.state = -1 := this
          omega
        · have q2 : u.phase = .pausing := q2
          have q3 : u.pauseEnd ≤ t.prog.node.fw.now := q3
          rw [q2] at hT
          dsimp only at hT
          rw [← q1]
          omega
    · have hA := aside_step hc.inj hc.guests (fun _ _ => trivial) hK hs fun pe h => hpe ⟨pe, h⟩
      rw [hA.runs] at hu'
      exact absurd hm (hold _ hu')
  · have hlt : r < t'.prog.node.reg.objs.length := by rw [← hK'.i.p.u.len]; exact lt_of_some hr'
    obtain ⟨t2, f1, f2⟩ := run_append_ok hr
    have := Outcome.ok.inj ((run_snoc ht hs).symm.trans f1)
    subst this
    exact run_sent hc hR' f2 (List.getElem?_eq_getElem hlt) hr' hm

end Verif.KeyProgram
