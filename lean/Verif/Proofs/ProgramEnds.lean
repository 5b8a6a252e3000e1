import Verif.Proofs.ProgramPrompt

/-! In a process in which nothing is late every request ends after its last stage. -/
namespace Verif.Program
open Verif.Prot Verif.Dto Verif.Dss Verif.Dkg Verif.Tables Verif.Signode Verif.Props Verif.Spec.Prot Verif.Spec.Program
open Verif.Registry (lt_of_some)
variable {K : Type} {c : Cfg K} {W : Message Dto → Prop}

/-- When nothing is left to do, a runner whose run has ended has been told so. -/
theorem quiet_recv {s : Sys K} (h : Whole s) (hq : Quiet c s) {j : Nat} {u : Node.Runner}
    (hu : s.node.runners[j]? = some u) (hterm : ∀ o ∈ s.node.reg.objs, o.key = u.key → o.terminated = true) : u.pos ≠ 5 := by
  have hm := List.mem_of_getElem? hu
  have he := nodeEvent_err (hq (.runner j) rfl)
  intro h5
  rw [Node.step, Node.runnerStep, hu] at he
  dsimp only at he
  rw [if_neg (by omega), if_neg (by omega), if_neg (by omega), if_neg (by omega), if_pos h5] at he
  obtain ⟨ch, hch, hck, _⟩ := h.orig.chan j u hu (by omega)
  obtain ⟨o, ho, hok⟩ := h.made u hm (by omega)
  obtain ⟨r, hr⟩ := List.mem_iff_getElem?.1 ho
  have hnd : Registry.Entry.deleted u.key ∉ s.node.reg.log := by
    intro hx
    obtain ⟨_, v, hv, hv9, hvk⟩ := (h.good ⟨0, 0, ""⟩).q.del _ hx
    obtain ⟨j', hj'⟩ := List.mem_iff_getElem?.1 hv
    have e := h.uniq u.key j u j' v hu hj' rfl hvk
    subst e
    have := Option.some.inj (hu.symm.trans hj')
    subst this
    omega
  obtain ⟨r', hr'⟩ := Registry.registered h.orig.runs hr hok hnd
  obtain ⟨o', ho', hok'⟩ := h.orig.runs.reg _ _ hr'
  obtain ⟨_, hcl⟩ := Registry.notified h.orig.obs hr' ho' (hterm o' (List.mem_of_getElem? ho') hok') hch hck
    (by rw [quiet_tasks h hq]; exact nofun)
  rw [Node.regEvent, Registry.step, Registry.recv] at he
  dsimp only at he
  rw [hch] at he
  dsimp only at he
  by_cases hun : 0 < ch.unread
  · rw [if_pos hun] at he; cases he
  · rw [if_neg hun, if_pos hcl] at he; cases he

/-- When nothing is left to do, a request whose runners have all been told that their runs are over has ended. -/
theorem quiet_job {s : Sys K} (hq : Quiet c s) {b : JobSt} (hb : b ∈ s.jobs) (hrel : b.runners.all (released s) = true) : b.pc = .ended := by
  obtain ⟨i, hi⟩ := List.mem_iff_getElem?.1 hb
  have he : ∀ g, jobStep c s i g = .err := fun g => hq (.job i g) rfl
  have hl := quiet_launched hq hb
  -- in a loop over the guests there is a next one, or the loop is over
  have next : (c.guests.all fun g => decide (g ∈ b.done)) = true ∨
      ((c.guests.all fun g => decide (g ∈ b.done)) = false ∧ ∃ g, (decide (g ∈ c.guests) && decide (g ∉ b.done)) = true) := by
    cases ha : c.guests.all fun g => decide (g ∈ b.done) with
    | true => exact .inl rfl
    | false =>
      rw [List.all_eq_false] at ha
      obtain ⟨g, hg, hd⟩ := ha
      exact .inr ⟨rfl, g, by simpa using ⟨hg, by simpa using hd⟩⟩
  cases hpc : b.pc with
  | ended => rfl
  | registering => rw [hpc] at hl; cases hl
  | launching => rw [hpc] at hl; cases hl
  | waiting =>
    exfalso
    have := he 0
    rw [jobStep, hi] at this
    dsimp only at this
    rw [hpc] at this
    dsimp only at this
    rw [if_pos hrel] at this
    cases this
  | deregistering =>
    exfalso
    rcases next with ho | ⟨ho, g, hg⟩
    · have := he 0
      rw [jobStep, hi] at this
      dsimp only at this
      rw [hpc] at this
      dsimp only at this
      rw [if_pos ho] at this
      cases this
    · have := he g
      rw [jobStep, hi] at this
      dsimp only at this
      rw [hpc] at this
      dsimp only at this
      rw [if_neg (by rw [ho]; decide), if_pos hg] at this
      refine Outcome.bind_ne_err ?_ (fun _ _ => Outcome.ok_ne_err _) this
      rw [docStep]
      cases s.docs.get? g <;> exact nofun
  | printing =>
    exfalso
    rcases next with ho | ⟨ho, g, hg⟩
    · have := he 0
      rw [jobStep, hi] at this
      dsimp only at this
      rw [hpc] at this
      dsimp only at this
      rw [if_pos ho] at this
      cases this
    · have := he g
      rw [jobStep, hi] at this
      dsimp only at this
      rw [hpc] at this
      dsimp only at this
      rw [if_neg (by rw [ho]; decide), if_pos hg] at this
      refine Outcome.bind_ne_err ?_ (fun x _ => Outcome.bind_ne_err ?_ fun _ _ => Outcome.ok_ne_err _) this
      · rw [popOutput]
        cases s.outs.get? (1, g) <;> exact nofun
      · rw [printed.eq_def]
        cases x.2 with
        | none => exact nofun
        | some v => cases v <;> exact nofun

/-- A request that has ended stays so. -/
theorem ended_step {s s' : Sys K} {e : Ev} (hs : step c s e = .ok s') {b : JobSt} (hb : b ∈ s.jobs) (hpc : b.pc = .ended) : b ∈ s'.jobs := by
  have set : ∀ {i : Nat} {b0 b1 : JobSt} {l : List JobSt}, l = s.jobs → s.jobs[i]? = some b0 → b0.pc ≠ .ended → b ∈ l.set i b1 := by
    rintro i b0 b1 l rfl h0 hne
    obtain ⟨n, hn⟩ := List.mem_iff_getElem?.1 hb
    have : i ≠ n := by
      rintro rfl
      have := Option.some.inj (hn.symm.trans h0)
      subst this
      exact hne hpc
    exact List.mem_of_getElem? (i := n) (by rw [List.getElem?_set_ne this]; exact hn)
  cases step_kind hs with
  | node h1 _ _ _ f => obtain ⟨_, _, rfl⟩ := node_ok h1; exact hb
  | thread h1 => obtain ⟨_, _, _, _, _, _, _, _, rfl⟩ := run_ok h1; exact hb
  | last h1 _ h2 =>
    obtain ⟨_, _, _, _, _, _, _, _, rfl⟩ := run_ok h1
    obtain ⟨_, _, rfl⟩ := node_ok h2; exact hb
  | give _ h1 h2 =>
    obtain ⟨_, _, _, _, _, _, _, _, rfl⟩ := run_ok h1
    obtain ⟨_, _, rfl⟩ := node_ok h2; exact hb
  | job hi _ hk =>
    refine set rfl hi ?_
    rcases hk with ⟨_, _, _, _, h | h | h⟩ | ⟨h, _⟩ | ⟨h, _⟩ | ⟨h, _⟩ | ⟨h, _⟩ <;> rw [h] <;> exact nofun
  | launch hi hpc' h1 => exact set (linv_launch h1).2.2.2.2 hi (by rw [hpc']; exact nofun)
  | request => exact List.mem_append_left _ hb

/-- The runners of a request are for its runs. -/
def Owns (s : Sys K) : Prop := ∀ b ∈ s.jobs, ∀ i ∈ b.runners, ∃ k, (s.node.runners.map Node.Runner.key)[i]? = some k ∧ k.runId = jobId b.job

theorem launch_keys {j : Job} {gs : List Int} {s s' : Sys K} (hs : launchAll c s j gs = .ok s') :
    s'.node.runners.map Node.Runner.key = s.node.runners.map Node.Runner.key ++ gs.map fun g => ⟨1, g, jobId j⟩ := by
  induction gs generalizing s with
  | nil => rw [launchAll] at hs; rw [← Outcome.ok.inj hs]; simp
  | cons g gs ih =>
    rw [launchAll, Outcome.bind_eq_ok] at hs
    obtain ⟨s1, h1, h2⟩ := hs
    obtain ⟨n, g1, rfl⟩ := node_ok h1
    have e := Node.keys_step g1
    rw [ih h2]
    show n.runners.map Node.Runner.key ++ _ = _
    rw [e, List.append_assoc]
    rfl

theorem keys_prefix {s s' : Sys K} {e : Ev} (hs : step c s e = .ok s') :
    s.node.runners.map Node.Runner.key <+: s'.node.runners.map Node.Runner.key := by
  obtain ⟨es, h1, h2⟩ := through_step hs
  clear hs h2
  generalize s.node = n at h1
  induction es generalizing n with
  | nil => rw [Node.run] at h1; rw [← Outcome.ok.inj h1]
  | cons e es ih =>
    rw [Node.run, Outcome.bind_eq_ok] at h1
    obtain ⟨n1, h2, h3⟩ := h1
    refine List.IsPrefix.trans ?_ (ih n1 h3)
    rw [Node.keys_step h2]
    exact List.prefix_append _ _

theorem owns_step {s s' : Sys K} {e : Ev} (h : Owns s) (hs : step c s e = .ok s') : Owns s' := by
  have hpre := keys_prefix hs
  have keep : ∀ b ∈ s.jobs, ∀ i ∈ b.runners, ∃ k, (s'.node.runners.map Node.Runner.key)[i]? = some k ∧ k.runId = jobId b.job := by
    intro b hb i hi
    obtain ⟨k, hk, e⟩ := h b hb i hi
    obtain ⟨l, hl⟩ := hpre
    exact ⟨k, by rw [← hl, List.getElem?_append_left (lt_of_some hk)]; exact hk, e⟩
  cases step_kind hs with
  | node h1 _ _ _ f => obtain ⟨_, _, rfl⟩ := node_ok h1; exact keep
  | thread h1 => obtain ⟨_, _, _, _, _, _, _, _, rfl⟩ := run_ok h1; exact keep
  | last h1 _ h2 =>
    obtain ⟨_, _, _, _, _, _, _, _, rfl⟩ := run_ok h1
    obtain ⟨_, _, rfl⟩ := node_ok h2; exact keep
  | give _ h1 h2 =>
    obtain ⟨_, _, _, _, _, _, _, _, rfl⟩ := run_ok h1
    obtain ⟨_, _, rfl⟩ := node_ok h2; exact keep
  | @job i _ b0 b1 _ _ hi hrn hk =>
    intro b hb n hn
    obtain ⟨m, hm⟩ := List.mem_iff_getElem?.1 hb
    rcases Firewall.getElem?_set_some hi hm with ⟨rfl, rfl⟩ | ⟨_, hm⟩
    · have e := reqs_step hs
      rw [reqs, reqs] at e
      have e1 := congrArg (fun l => l[m]?) e
      dsimp only at e1
      rw [List.map_set, List.getElem?_append_left (by rw [List.length_map]; exact lt_of_some hi), List.getElem?_map, hi] at e1
      rw [List.getElem?_set_self (by rw [List.length_map]; exact lt_of_some hi)] at e1
      have e2 : b.job = b0.job := Option.some.inj e1
      rw [hrn] at hn
      rw [e2]
      exact keep b0 (List.mem_of_getElem? hi) n hn
    · exact keep b (List.mem_of_getElem? hm) n hn
  | @launch i _ b0 s1 hi hpc h1 =>
    intro b hb n hn
    obtain ⟨m, hm⟩ := List.mem_iff_getElem?.1 hb
    have hj : s1.jobs = s.jobs := (linv_launch h1).2.2.2.2
    dsimp only at hm
    rw [hj] at hm
    rcases Firewall.getElem?_set_some hi hm with ⟨rfl, rfl⟩ | ⟨_, hm⟩
    · dsimp only at hn ⊢
      rw [List.mem_map] at hn
      obtain ⟨a, ha, rfl⟩ := hn
      rw [List.mem_range] at ha
      rw [launch_keys h1, List.getElem?_append_right (by rw [List.length_map]; omega), List.length_map, Nat.add_sub_cancel_left, List.getElem?_map,
        List.getElem?_eq_getElem ha]
      exact ⟨_, rfl, rfl⟩
    · exact keep b (List.mem_of_getElem? hm) n hn
  | request =>
    intro b hb n hn
    rcases List.mem_append.1 hb with hb | hb
    · exact keep b hb n hn
    · rw [List.mem_singleton] at hb; subst hb; cases hn

theorem Reach.owns {s : Sys K} (h : Reach c s) : Owns s := by
  obtain ⟨h, hr, _⟩ := h
  have key : ∀ (h : List Ev) (s0 s : Sys K), Owns s0 → run c s0 h = .ok s → Owns s := by
    intro h
    induction h with
    | nil => intro s0 s h0 hr; rw [run] at hr; rw [← Outcome.ok.inj hr]; exact h0
    | cons e h ih =>
      intro s0 s h0 hr
      rw [run, Outcome.bind_eq_ok] at hr
      obtain ⟨s1, h1, h2⟩ := hr
      exact ih s1 s (owns_step h0 h1) h2
  exact key h _ s (fun b hb => absurd hb List.not_mem_nil) hr

/-- In a process in which nothing is late, a request that came in time has ended when its last stage is over. -/
theorem ends_prompt {h1 h2 : List Ev} {j : Job} {s1 s : Sys K} (hg : c.guests.Nodup)
    (hbuf : (c.allow j).buf ≤ (c.allow j).start) (hdrop : c.dropUntil ≤ (c.allow j).start) (hr1 : run c (init c) h1 = .ok s1)
    (hin : s1.node.fw.now ≤ (c.allow j).start) (hr : run c (init c) (h1 ++ .request j :: h2) = .ok s)
    (hd : ((requests (h1 ++ .request j :: h2)).map jobId).Nodup) (hp : Prompt c (h1 ++ .request j :: h2)) (ht : (c.allow j).start + 650 < s.node.fw.now) :
    ∃ b ∈ s.jobs, b.job = j ∧ b.pc = .ended := by
  have e : h1 ++ .request j :: h2 = (h1 ++ [.request j]) ++ h2 := by simp
  rw [e] at hr hd hp
  obtain ⟨s0, a1, a2⟩ := run_append_ok hr
  have h0 : s0 = { s1 with jobs := s1.jobs ++ [⟨j, .registering, [], [], []⟩] } := by
    have := run_snoc (e := .request j) hr1 rfl
    exact Outcome.ok.inj (a1.symm.trans this)
  have key := prompt_induct (P := fun s => (∀ x ∈ c.guests, Sched c j x s) ∧ (∃ b ∈ s.jobs, b.job = j) ∧
      ((c.allow j).start + 650 < s.node.fw.now → ∃ b ∈ s.jobs, b.job = j ∧ b.pc = .ended)) hg a1 ?_ a2 hd hp ?_ ?_
  · exact key.2.2 ht
  · refine ⟨fun x hx => ?_, ?_, fun h => ?_⟩
    · have hd0 : ((requests (h1 ++ .request j :: [])).map jobId).Nodup := by
        rw [requests_append, List.map_append] at hd
        exact (List.nodup_append.1 hd).1
      exact sched hg hx hbuf hdrop hr1 hin a1 hd0 fun a t b hab => hp a t (b ++ h2) (by rw [hab]; simp)
    · rw [h0]; exact ⟨_, List.mem_append_right _ (List.mem_singleton.2 rfl), rfl⟩
    · rw [h0] at h
      have h : (c.allow j).start + 650 < s1.node.fw.now := h
      omega
  · intro s e s' hR hR' ⟨hS, hJ, hE⟩ hs he
    refine ⟨fun x hx => sched_step hg hR hR' (hS x hx) hs he, jobs_fwd hs hJ, fun h => ?_⟩
    rw [(node_step hs he).1] at h
    obtain ⟨b, hb, h3, h4⟩ := hE h
    exact ⟨b, ended_step hs hb h4, h3, h4⟩
  · intro s t hR hR' ⟨hS, hJ, hE⟩ ht hq
    have hW := fun x hx => sched_wait hg hx hbuf hdrop hR' (hS x hx) ht hq
    refine ⟨hW, hJ, fun h => ?_⟩
    have h : (c.allow j).start + 650 < t := h
    have hK := hR'.known hg
    obtain ⟨b, hb, rfl⟩ := hJ
    refine ⟨b, hb, rfl, quiet_job hq hb ?_⟩
    rw [List.all_eq_true]
    intro n hn
    have hv := List.getElem?_eq_getElem (hK.l.own b hb n hn)
    generalize (at_ s (t - 1)).node.runners[n]'(hK.l.own b hb n hn) = v at hv
    obtain ⟨k, hk, hid⟩ := hR'.owns b hb n hn
    rw [List.getElem?_map, hv] at hk
    have hk : v.key = k := Option.some.inj hk
    have hid : v.key.runId = jobId b.job := by rw [hk]; exact hid
    have hal := hR'.allow hb (List.mem_of_getElem? hv) hid
    have hnow : (at_ s (t - 1)).node.fw.now = t - 1 := rfl
    have h5 := quiet_due hK.whole hq hv (by rw [hal, hnow]; omega) (by rw [hal, hnow]; omega)
    have h6 : v.pos ≠ 5 := by
      refine quiet_recv hK.whole hq hv fun o ho hok => ?_
      obtain ⟨r, hr⟩ := List.mem_iff_getElem?.1 ho
      obtain ⟨b', hb', _, hgu, hk'⟩ := job_of hK.p.n hK.p.j hr
      have hid' : o.key.runId = jobId b.job := by rw [hok, hid]
      have hkey : o.key = ⟨1, o.key.gidx, jobId b.job⟩ := by
        rw [← hid']; rw [hk']
      have hlt : r < (at_ s (t - 1)).runs.length := by rw [hK.p.u.len]; exact lt_of_some hr
      have hu := List.getElem?_eq_getElem hlt
      have hT := (hW _ hgu).time r o _ hr hkey hu
      obtain ⟨b2, hb2, hinv⟩ := run_inv hK.p hr hu
      exact hK.l.over r o _ hr hu (onTime_done (keeps_dss ..) hinv hT h)
    rw [released, hv, Option.map_some, Option.getD_some, decide_eq_true_eq]
    omega

end Verif.Program
