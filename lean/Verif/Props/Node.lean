import Verif.Proofs.NodeDrain

/-!
C50 (finished runs are removed), C51 (a removed run is not resurrected) and C71 (a repeated request hangs), for a node that
starts from nothing and for all histories of its events.
-/
namespace Verif.Props.Node
open Verif.Node Verif.Spec.Node
open Verif.Registry (Entry)
variable {D : Type} {stages : Int → Nat} {nil : D} {nprots : Nat} {guests : Int → Bool} {du now : Int}

/-- What is known of a node after a history in which run `k` was requested at most once. -/
theorem known {h : List (Ev D)} {s : Sys D} (hr : run (make stages nil nprots guests du now) h = .ok s) (k : RunKey) :
    Good k s ∧ ((launched h).count k ≤ 1 → Uniq k s.runners) := by
  refine ⟨good_run (good_make k stages nil nprots guests du now) hr, fun hc => uniq_of_count ?_⟩
  rw [keys_run hr]
  exact hc

/-- C51. Once the signal to delete run `k` has been processed, nothing recreates the run: not the messages that were received
before, and not those received later. Run ids must not be reused, as firewall.go:12-15 asks. -/
theorem C51_not_resurrected (h : List (Ev D)) (s : Sys D) (hr : run (make stages nil nprots guests du now) h = .ok s) (k : RunKey)
    (hone : (launched h).count k ≤ 1) (l1 l2 : List Entry) (hd : s.reg.log = l1 ++ .deleted k :: l2) :
    (∀ r, Entry.created k r ∉ l2) ∧ s.reg.runs.get? k = none := by
  obtain ⟨hg, hu⟩ := known hr k
  have hmem : Entry.deleted k ∈ s.reg.log := by rw [hd]; simp
  obtain ⟨hpc, hsent⟩ := hg.q.del k hmem
  obtain ⟨hK, hD⟩ := hg.k hpc (hu hone)
  refine ⟨fun r => hD l1 l2 r hd, ?_⟩
  rcases (hK hsent).2 with ⟨hn, _⟩ | ⟨hg, _⟩
  · exact absurd hmem hn
  · exact hg

/-- C51. When the signal is sent the firewall is closed for the run, and from then on nothing for the run gets into its queue behind
the signal. -/
theorem C51_signal_last (h : List (Ev D)) (s : Sys D) (hr : run (make stages nil nprots guests du now) h = .ok s) (k : RunKey)
    (hpc : 0 < k.pc) (hone : (launched h).count k ≤ 1) (u : Runner) (hu : u ∈ s.runners) (hk : u.key = k) (hp : 9 ≤ u.pos) :
    s.fw.state.get? k = none ∧ ∀ pre m post, s.queues (k.pc, k.gidx) = pre ++ m :: post → m.pc < 0 → m.rcpt = k.gidx → m.runId = k.runId →
      ∀ x ∈ post, x.key ≠ k := by
  obtain ⟨hg, huq⟩ := known hr k
  obtain ⟨hK, _⟩ := hg.k hpc (huq hone)
  obtain ⟨hst, hPG⟩ := hK ⟨u, hu, hp, hk⟩
  refine ⟨hst, ?_⟩
  intro pre m post e hm hrc hid x hx hxk
  have hxn : ¬ x.pc < 0 := by
    have : x.pc = k.pc := by rw [← hxk]; rfl
    omega
  have hxt : target x = k := by rw [target_nonneg hxn, hxk]
  have hseq : seq s (k.pc, k.gidx) = held (s.cons (k.pc, k.gidx)) ++ pre ++ m :: post := by rw [seq, e, List.append_assoc]
  have hmq : m ∈ seq s (k.pc, k.gidx) := by rw [hseq]; simp
  have hmt : target m = k := by
    have := (hg.q.at_ _ m hmq).2
    rw [target_neg hm] at this ⊢
    have h1 : k.pc = -m.pc := congrArg Prod.fst this
    cases k
    dsimp only at h1 hrc hid ⊢
    rw [h1, hrc, hid]
  rcases hPG with ⟨_, pre', m', post', e', hm', ht', hpre, hpost⟩ | ⟨_, hall⟩
  · rw [hseq] at e'
    rcases List.append_eq_append_iff.1 e' with ⟨a, h1, h2⟩ | ⟨a, h1, h2⟩
    · cases a with
      | nil =>
        rw [List.nil_append] at h2
        injection h2 with h2 h3
        subst h3
        exact hpost x hx hxt
      | cons y a =>
        rw [List.cons_append] at h2
        injection h2 with h2 h3
        subst h2
        exact hpre m (by rw [h1]; simp) hm hmt
    · cases a with
      | nil =>
        rw [List.nil_append] at h2
        injection h2 with h2 h3
        subst h3
        exact hpost x hx hxt
      | cons y a =>
        rw [List.cons_append] at h2
        injection h2 with h2 h3
        refine hpost x ?_ hxt
        rw [h3]; simp [hx]
  · exact hall m hmq hmt

/-- C50, the part that holds (protocols with a positive code, so signing): after the signal was sent and the queue has been worked off,
the run is not registered. -/
theorem C50_worked_off_partial (h : List (Ev D)) (s : Sys D) (hr : run (make stages nil nprots guests du now) h = .ok s) (k : RunKey)
    (hpc : 0 < k.pc) (hone : (launched h).count k ≤ 1) (u : Runner) (hu : u ∈ s.runners) (hk : u.key = k) (hp : 9 ≤ u.pos)
    (hi : s.cons (k.pc, k.gidx) = .idle) (hq : s.queues (k.pc, k.gidx) = []) : s.reg.runs.get? k = none := by
  obtain ⟨hg, huq⟩ := known hr k
  obtain ⟨hK, _⟩ := hg.k hpc (huq hone)
  rcases (hK ⟨u, hu, hp, hk⟩).2 with ⟨_, pre, m, post, e, _⟩ | ⟨hgone, _⟩
  · rw [seq, hi, hq] at e
    simp [held] at e
  · exact hgone

/-- C50, the part that holds: when the run has terminated (its observer was told) and the allowance has stopped, then the
runner and the consumer alone, whatever waits in the queue, get the run removed. -/
theorem C50_removed_partial (h : List (Ev D)) (s : Sys D) (hr : run (make stages nil nprots guests du now) h = .ok s) (j : Nat) (u : Runner)
    (hu : s.runners[j]? = some u) (hpc : 0 < u.key.pc) (hone : (launched h).count u.key ≤ 1) (hp : u.pos = 5)
    (ch : Registry.Chan) (hch : s.reg.chans[u.chan]? = some ch) (hterm : 0 < ch.unread ∨ ch.closed = true)
    (c : Firewall.Call) (hc : s.fw.calls[u.call]? = some c) (hstop : c.sections = 4) :
    ∃ (es : List (Ev D)) (s' : Sys D), (∀ e ∈ es, e = .runner j ∨ e = .cons (u.key.pc, u.key.gidx)) ∧ run s es = .ok s' ∧
      s'.reg.runs.get? u.key = none := by
  obtain ⟨hg0, _⟩ := known hr u.key
  obtain ⟨n1, s1, hr1, _, hq1, hsame1⟩ := drain hg0 (u.key.pc, u.key.gidx)
  have hrh1 := run_of_append hr hr1
  have hu1 : s1.runners[j]? = some u := by rw [hsame1.runners]; exact hu
  have hg1 := (known hrh1 u.key).1
  -- the receive from the termination channel
  obtain ⟨r2, hrecv⟩ : ∃ r2, Registry.step s1.reg (.recv u.chan) = .ok r2 := by
    rw [Registry.step, Registry.recv, hsame1.chans, hch]
    dsimp only
    by_cases h0 : 0 < ch.unread
    · rw [if_pos h0]; exact ⟨_, rfl⟩
    · rw [if_neg h0, if_pos (hterm.resolve_left h0)]; exact ⟨_, rfl⟩
  have hs2 : step s1 (.runner j) = .ok { s1 with runners := s1.runners.set j { u with pos := u.pos + 1 }, reg := r2 } := by
    rw [step, runnerStep, hu1]
    dsimp only
    rw [if_neg (by omega), if_neg (by omega), if_neg (by omega), if_neg (by omega), if_pos hp, regEvent]
    dsimp only
    rw [hrecv, Outcome.bind_ok]
  have hu2 : (s1.runners.set j { u with pos := u.pos + 1 })[j]? = some { u with pos := u.pos + 1 } :=
    List.getElem?_set_self (Registry.lt_of_some hu1)
  have hg2 := good_step hg1 hs2
  -- the two reads
  obtain ⟨s3, hs3, hu3, hq3, c3, hc3, h43⟩ := read_ok hg2.r hu2 (.inl (by dsimp only; omega)) (c := c)
    (by rw [hsame1.fw]; exact hc) hstop
  have hg3 := good_step hg2 hs3
  obtain ⟨s4, hs4, hu4, hq4, _⟩ := read_ok hg3.r hu3 (.inr (by dsimp only; omega)) hc3 h43
  have hg4 := good_step hg3 hs4
  -- the signal
  have hq4' : s4.queues (u.key.pc, u.key.gidx) = [] := by rw [hq4, hq3]; exact hq1
  obtain ⟨s5, hs5, hu5⟩ : ∃ s5, step s4 (.runner j) = .ok s5 ∧ ∃ u5 ∈ s5.runners, 9 ≤ u5.pos ∧ u5.key = u.key := by
    rw [step, runnerStep, hu4]
    dsimp only
    rw [if_neg (by omega), if_neg (by omega), if_neg (by omega), if_neg (by omega), if_neg (by omega), if_neg (by omega), if_pos (by omega),
      sendSignal]
    dsimp only
    rw [if_pos (by omega), if_pos (by rw [Int.neg_neg, hq4']; simp [rcvBufMax])]
    exact ⟨_, rfl, _, Registry.mem_set_new _ hu4, by dsimp only; omega, rfl⟩
  have hg5 := good_step hg4 hs5
  obtain ⟨n6, s6, hr6, hc6, hq6, hsame6⟩ := drain hg5 (u.key.pc, u.key.gidx)
  have hmid : run s1 [.runner j, .runner j, .runner j, .runner j] = .ok s5 := by
    rw [run, hs2, Outcome.bind_ok, run, hs3, Outcome.bind_ok, run, hs4, Outcome.bind_ok, run, hs5, Outcome.bind_ok, run]
  have hall := run_of_append (run_of_append hr1 hmid) hr6
  refine ⟨_, s6, ?_, hall, ?_⟩
  · intro e he
    simp only [List.mem_append, List.mem_replicate, List.mem_cons, List.not_mem_nil, or_false] at he
    rcases he with (⟨_, rfl⟩ | he) | ⟨_, rfl⟩
    · exact .inr rfl
    · left; rcases he with rfl | rfl | rfl | rfl <;> rfl
    · exact .inr rfl
  · obtain ⟨u5, hm5, hp5, hk5⟩ := hu5
    refine C50_worked_off_partial _ s6 (run_of_append hr hall) u.key hpc ?_ u5 ?_ hk5 hp5 hc6 hq6
    · rw [launched_append, List.count_append]
      have : launched ((List.replicate n1 (Ev.cons (u.key.pc, u.key.gidx)) ++ [Ev.runner j, Ev.runner j, Ev.runner j, Ev.runner j] ++
          List.replicate n6 (Ev.cons (u.key.pc, u.key.gidx)) : List (Ev D))) = [] := by
        have hrep : ∀ n, launched (List.replicate n (Ev.cons (u.key.pc, u.key.gidx) : Ev D)) = [] := by
          intro n
          induction n with
          | zero => rfl
          | succ n ih => exact ih
        rw [launched_append, launched_append, hrep, hrep]; rfl
      rw [this]
      simpa using hone
    · rw [hsame6.runners]; exact hm5

/-- C50 is false of the code for key generation, whose protocol code is 0: in no history is such a run ever removed, since its signal
has the code −0 = 0. -/
theorem C50_dkg_never_removed (h : List (Ev D)) (s : Sys D) (hr : run (make stages nil nprots guests du now) h = .ok s) (k : RunKey)
    (h0 : k.pc = 0) (r : Nat) (hcr : Entry.created k r ∈ s.reg.log) : s.reg.runs.get? k ≠ none := by
  obtain ⟨hg, _⟩ := known hr k
  have hd : Entry.deleted k ∉ s.reg.log := by
    intro hd
    have := (hg.q.del k hd).1
    omega
  have hinv := reg_run Registry.runsInv_init hr
  rw [hinv.live]
  obtain ⟨l1, l2, e⟩ := List.append_of_mem hcr
  rw [e] at hd ⊢
  exact Spec.Registry.live_of_created k r l1 l2 fun x => hd (by simp [x])

theorem live_step {f f' : Firewall.Fw D} {e : Firewall.Ev D} (hs : Firewall.step f e = .ok f') (i : Nat) (c : Firewall.Call)
    (hc : f.calls[i]? = some c) : ∃ c', f'.calls[i]? = some c' ∧ c'.live = c.live := by
  have upd : ∀ (l : List Firewall.Call) (j : Nat) (d d' : Firewall.Call), l = f.calls → f.calls[j]? = some d → d'.live = d.live →
      ∃ c', (l.set j d')[i]? = some c' ∧ c'.live = c.live := by
    intro l j d d' hl hd hlive
    subst hl
    by_cases e : i = j
    · subst e
      have := Option.some.inj (hd.symm.trans hc)
      subst this
      exact ⟨d', List.getElem?_set_self (Registry.lt_of_some hc), hlive⟩
    · exact ⟨c, by rw [List.getElem?_set_ne (Ne.symm e)]; exact hc, rfl⟩
  cases e with
  | tick t => obtain ⟨_, rfl⟩ := Firewall.step_tick_cases hs; exact ⟨c, hc, rfl⟩
  | latch =>
    rw [Firewall.step] at hs
    by_cases hcond : f.dropAll = true ∧ f.dropUntil ≤ f.now
    · rw [if_pos hcond] at hs
      have := Outcome.ok.inj hs
      subst this
      exact ⟨c, hc, rfl⟩
    · rw [if_neg hcond] at hs; cases hs
  | msg m =>
    have := Outcome.ok.inj hs
    subst this
    refine ⟨c, ?_, rfl⟩
    have : (Firewall.process f m).calls = f.calls := by
      rw [Firewall.process]
      by_cases h1 : (f.dropAll || !Firewall.messageValid f m) = true
      · rw [if_pos h1]
      · rw [if_neg h1]
        cases f.state.get? m.key with
        | none => rfl
        | some st =>
          dsimp only
          by_cases h2 : st = Firewall.buffering
          · rw [if_pos h2]
            by_cases h3 : ((f.buffer.get? m.key).getD []).length < Firewall.bufMax
            · rw [if_pos h3]
            · rw [if_neg h3]
          · rw [if_neg h2]
            by_cases h3 : st = Firewall.forwarding
            · rw [if_pos h3]
            · rw [if_neg h3]
    rw [this]; exact hc
  | allow k a =>
    rcases (Firewall.setAllowance_cases hs).2 with ⟨_, _, rfl⟩ | ⟨_, rfl⟩
    · exact ⟨c, Firewall.getElem?_concat_old _ hc, rfl⟩
    · exact ⟨c, Firewall.getElem?_concat_old _ hc, rfl⟩
  | step j =>
    rw [Firewall.step, Firewall.stateStep] at hs
    cases hd : f.calls[j]? with
    | none => rw [hd] at hs; cases hs
    | some d =>
      rw [hd] at hs
      dsimp only at hs
      by_cases hl : (!d.live) = true
      · rw [if_pos hl] at hs; cases hs
      rw [if_neg hl] at hs
      by_cases h0 : d.sections = 0
      · rw [if_pos h0] at hs
        have := Outcome.ok.inj hs
        subst this
        exact upd _ j d _ rfl hd rfl
      rw [if_neg h0] at hs
      by_cases h1 : d.sections = 1
      · rw [if_pos h1] at hs
        by_cases hb : d.loaded.buf ≤ f.now ∧ d.obs.length < Firewall.obsCap
        · rw [if_pos hb] at hs
          have := Outcome.ok.inj hs
          subst this
          exact upd _ j d _ rfl hd rfl
        · rw [if_neg hb] at hs; cases hs
      rw [if_neg h1] at hs
      by_cases h2 : d.sections = 2
      · rw [if_pos h2] at hs
        by_cases hb : d.loaded.start ≤ f.now ∧ d.obs.length < Firewall.obsCap
        · rw [if_pos hb] at hs
          have := Outcome.ok.inj hs
          subst this
          exact upd _ j d _ rfl hd rfl
        · rw [if_neg hb] at hs; cases hs
      rw [if_neg h2] at hs
      by_cases h3 : d.sections = 3
      · rw [if_pos h3] at hs
        by_cases hb : d.loaded.stop ≤ f.now ∧ d.obs.length < Firewall.obsCap
        · rw [if_pos hb] at hs
          have := Outcome.ok.inj hs
          subst this
          exact upd _ j d _ rfl hd rfl
        · rw [if_neg hb] at hs; cases hs
      rw [if_neg h3] at hs; cases hs
  | read j =>
    rw [Firewall.step] at hs
    cases hd : f.calls[j]? with
    | none => rw [hd] at hs; cases hs
    | some d =>
      rw [hd] at hs
      dsimp only at hs
      by_cases hb : d.obs = []
      · rw [if_pos hb] at hs; cases hs
      · rw [if_neg hb] at hs
        have := Outcome.ok.inj hs
        subst this
        exact upd _ j d _ rfl hd rfl

/-- What a node event does to the firewall and to the runners that have set their allowances. -/
theorem shape_step {s s' : Sys D} {e : Ev D} (hs : step s e = .ok s') :
    (s'.fw = s.fw ∨ ∃ fe, Firewall.step s.fw fe = .ok s'.fw) ∧
    ∀ (j : Nat) (u : Runner), s.runners[j]? = some u → 2 ≤ u.pos → ∃ u', s'.runners[j]? = some u' ∧ u'.call = u.call ∧ 2 ≤ u'.pos := by
  have hfw : ∀ (t : Sys D) (e : Firewall.Ev D), t.fw = s.fw → fwEvent t e = .ok s' →
      (s'.fw = s.fw ∨ ∃ fe, Firewall.step s.fw fe = .ok s'.fw) ∧ s'.runners = t.runners := by
    intro t e ht hs
    rw [fwEvent, Outcome.bind_eq_ok] at hs
    obtain ⟨f', hf, hs⟩ := hs
    have hs := (Outcome.ok.inj hs).symm
    obtain ⟨qs, h1, _⟩ := foldl_receiveMsg { t with fw := f' } (f'.out.drop t.fw.out.length)
    rw [hs, h1]
    rw [ht] at hf
    exact ⟨.inr ⟨e, hf⟩, rfl⟩
  have hreg : ∀ (t : Sys D) (e : Registry.Ev), t.fw = s.fw → regEvent t e = .ok s' →
      (s'.fw = s.fw ∨ ∃ fe, Firewall.step s.fw fe = .ok s'.fw) ∧ s'.runners = t.runners := by
    intro t e ht hs
    rw [regEvent, Outcome.bind_eq_ok] at hs
    obtain ⟨r, hr, hs⟩ := hs
    have := Outcome.ok.inj hs
    subst this
    exact ⟨.inl ht, rfl⟩
  have hregAt : ∀ (t : Sys D) (k : RunKey) (e : Registry.Ev), t.fw = s.fw → regEventAt t k e = .ok s' →
      (s'.fw = s.fw ∨ ∃ fe, Firewall.step s.fw fe = .ok s'.fw) ∧ s'.runners = t.runners := by
    intro t k e ht hs
    rw [regEventAt] at hs
    by_cases hv : Firewall.keyValid t.fw k = true
    · rw [if_pos hv] at hs; exact hreg t e ht hs
    · rw [if_neg hv] at hs; cases hs
  have same : (s'.fw = s.fw ∨ ∃ fe, Firewall.step s.fw fe = .ok s'.fw) ∧ s'.runners = s.runners →
      (s'.fw = s.fw ∨ ∃ fe, Firewall.step s.fw fe = .ok s'.fw) ∧
      ∀ (j : Nat) (u : Runner), s.runners[j]? = some u → 2 ≤ u.pos → ∃ u', s'.runners[j]? = some u' ∧ u'.call = u.call ∧ 2 ≤ u'.pos := by
    rintro ⟨h1, h2⟩
    exact ⟨h1, fun j u hu hp => ⟨u, by rw [h2]; exact hu, rfl, hp⟩⟩
  cases e with
  | tick t => exact same (hfw s (.tick t) rfl hs)
  | latch => exact same (hfw s .latch rfl hs)
  | net m => exact same (hfw s (.msg m) rfl hs)
  | fwStep i => exact same (hfw s (.step i) rfl hs)
  | finish r => exact same (hreg s (.finish r) rfl hs)
  | task i => exact same (hreg s (.task i) rfl hs)
  | launch k a =>
    have := Outcome.ok.inj hs
    subst this
    exact ⟨.inl rfl, fun j u hu hp => ⟨u, Firewall.getElem?_concat_old _ hu, rfl, hp⟩⟩
  | cons q =>
    rw [step, consume] at hs
    cases hc : s.cons q with
    | idle =>
      rw [hc] at hs
      dsimp only at hs
      cases hq : s.queues q with
      | nil => rw [hq] at hs; cases hs
      | cons m ms => rw [hq] at hs; have := Outcome.ok.inj hs; subst this; exact same ⟨.inl rfl, rfl⟩
    | found m => rw [hc] at hs; have := Outcome.ok.inj hs; subst this; exact same ⟨.inl rfl, rfl⟩
    | got m =>
      rw [hc] at hs
      dsimp only at hs
      by_cases hn : m.pc < 0
      · rw [if_pos hn] at hs
        have := hregAt _ _ _ (by rfl) hs
        exact same this
      · rw [if_neg hn] at hs
        have := hregAt _ _ _ (by rfl) hs
        exact same this
  | runner j =>
    rw [step, runnerStep] at hs
    cases hu : s.runners[j]? with
    | none => rw [hu] at hs; cases hs
    | some u =>
      rw [hu] at hs
      dsimp only at hs
      have fin : ∀ u' : Runner, (2 ≤ u.pos → u'.call = u.call) → u.pos ≤ u'.pos →
          (s'.fw = s.fw ∨ ∃ fe, Firewall.step s.fw fe = .ok s'.fw) ∧ s'.runners = s.runners.set j u' →
          (s'.fw = s.fw ∨ ∃ fe, Firewall.step s.fw fe = .ok s'.fw) ∧
          ∀ (j : Nat) (u : Runner), s.runners[j]? = some u → 2 ≤ u.pos → ∃ u', s'.runners[j]? = some u' ∧ u'.call = u.call ∧ 2 ≤ u'.pos := by
        rintro u' e1 e2 ⟨h1, h2⟩
        refine ⟨h1, fun i v hv hp => ?_⟩
        rw [h2]
        by_cases e : i = j
        · subst e
          have := Option.some.inj (hv.symm.trans hu)
          subst this
          exact ⟨u', List.getElem?_set_self (Registry.lt_of_some hu), e1 hp, by omega⟩
        · exact ⟨v, by rw [List.getElem?_set_ne (Ne.symm e)]; exact hv, rfl, hp⟩
      by_cases h0 : u.pos = 0
      · rw [if_pos h0] at hs
        exact fin { u with pos := u.pos + 1, chan := s.reg.chans.length } (fun _ => rfl) (Nat.le_succ _) (hregAt _ _ _ (by rfl) hs)
      rw [if_neg h0] at hs
      by_cases h1 : u.pos = 1
      · rw [if_pos h1] at hs
        exact fin { u with pos := u.pos + 1, call := s.fw.calls.length } (fun x => by omega) (Nat.le_succ _) (hfw _ _ (by rfl) hs)
      rw [if_neg h1] at hs
      by_cases h3 : u.pos = 3
      · rw [if_pos h3] at hs
        by_cases ht : u.allow.start ≤ s.fw.now
        · rw [if_pos ht] at hs
          have := Outcome.ok.inj hs
          subst this
          exact fin { u with pos := u.pos + 1 } (fun _ => rfl) (Nat.le_succ _) ⟨.inl rfl, rfl⟩
        · rw [if_neg ht] at hs; cases hs
      rw [if_neg h3] at hs
      by_cases h4 : u.pos = 4
      · rw [if_pos h4] at hs
        exact fin { u with pos := u.pos + 1 } (fun _ => rfl) (Nat.le_succ _) (hregAt _ _ _ (by rfl) hs)
      rw [if_neg h4] at hs
      by_cases h5 : u.pos = 5
      · rw [if_pos h5] at hs
        exact fin { u with pos := u.pos + 1 } (fun _ => rfl) (Nat.le_succ _) (hreg _ _ (by rfl) hs)
      rw [if_neg h5] at hs
      by_cases h2 : u.pos = 2 ∨ u.pos = 6 ∨ u.pos = 7
      · rw [if_pos h2] at hs
        exact fin { u with pos := u.pos + 1 } (fun _ => rfl) (Nat.le_succ _) (hfw _ _ (by rfl) hs)
      rw [if_neg h2] at hs
      by_cases h8 : u.pos = 8
      · rw [if_pos h8, sendSignal] at hs
        refine fin { u with pos := u.pos + 1 } (fun _ => rfl) (Nat.le_succ _) ?_
        dsimp only at hs
        by_cases hn : -u.key.pc < 0
        · rw [if_pos hn] at hs
          by_cases hlen : (s.queues (- -u.key.pc, u.key.gidx)).length < rcvBufMax
          · rw [if_pos hlen] at hs; have := Outcome.ok.inj hs; subst this; exact ⟨.inl rfl, rfl⟩
          · rw [if_neg hlen] at hs; cases hs
        · rw [if_neg hn] at hs
          have hs := (Outcome.ok.inj hs).symm
          obtain ⟨qs, e1, _⟩ := receiveMsg_eq { s with runners := s.runners.set j { u with pos := u.pos + 1 } }
            (⟨0, -u.key.pc, u.key.gidx, u.key.runId, 0, s.nil⟩ : Message D)
          rw [hs, e1]; exact ⟨.inl rfl, rfl⟩
      · rw [if_neg h8] at hs; cases hs

/-- Runner `j` waits for a channel that has no sender. -/
def Stuck (j : Nat) (s : Sys D) : Prop :=
  ∃ (u : Runner) (c : Firewall.Call), s.runners[j]? = some u ∧ 2 ≤ u.pos ∧ s.fw.calls[u.call]? = some c ∧ c.live = false

theorem stuck_run {j : Nat} {s s' : Sys D} {es : List (Ev D)} (h : Stuck j s) (hs : run s es = .ok s') : Stuck j s' := by
  induction es generalizing s with
  | nil => have := Outcome.ok.inj hs; subst this; exact h
  | cons e es ih =>
    rw [run, Outcome.bind_eq_ok] at hs
    obtain ⟨s1, h1, h2⟩ := hs
    refine ih ?_ h2
    obtain ⟨u, c, hu, hp, hc, hl⟩ := h
    obtain ⟨hf, hr⟩ := shape_step h1
    obtain ⟨u', hu', hcall, hp'⟩ := hr j u hu hp
    rcases hf with hf | ⟨fe, hf⟩
    · exact ⟨u', c, hu', hp', by rw [hf, hcall]; exact hc, hl⟩
    · obtain ⟨c', hc', hl'⟩ := live_step hf _ c hc
      exact ⟨u', c', hu', hp', by rw [hcall]; exact hc', hl'.trans hl⟩

/-- C71. A runner that asks for an allowance while the firewall has one for the same run gets a channel on which nothing is ever
sent: whatever happens next, it stays where it is, so its `WaitGroup` is never done and `run_sigs` never returns. -/
theorem C71_repeated_request_hangs (h es : List (Ev D)) (s s1 s' : Sys D) (hr : run (make stages nil nprots guests du now) h = .ok s)
    (j : Nat) (u : Runner) (hu : s.runners[j]? = some u) (hp : u.pos = 1) (b : Firewall.Allowance)
    (hb : s.fw.allowances.get? u.key = some b) (hs : step s (.runner j) = .ok s1) (hes : run s1 es = .ok s') :
    ∃ u', s'.runners[j]? = some u' ∧ u'.pos = 2 := by
  have hstuck : Stuck j s1 := by
    rw [step, runnerStep, hu] at hs
    dsimp only at hs
    rw [if_neg (by omega), if_pos hp, fwEvent, Outcome.bind_eq_ok] at hs
    obtain ⟨f', hf, hs⟩ := hs
    dsimp only at hf hs
    have hs := (Outcome.ok.inj hs).symm
    obtain ⟨qs, h1, _⟩ := foldl_receiveMsg { s with
      fw := f', runners := s.runners.set j { u with pos := u.pos + 1, call := s.fw.calls.length } } (f'.out.drop s.fw.out.length)
    rw [h1] at hs
    subst hs
    rcases (Firewall.setAllowance_cases hf).2 with ⟨_, _, rfl⟩ | ⟨hn, _⟩
    · exact ⟨{ u with pos := u.pos + 1, call := s.fw.calls.length }, _, List.getElem?_set_self (Registry.lt_of_some hu), by dsimp only; omega,
        Firewall.getElem?_concat_new _ _, rfl⟩
    · rw [hb] at hn; cases hn
  obtain ⟨u', c, hu', hp', hc, hl⟩ := stuck_run hstuck hes
  refine ⟨u', hu', ?_⟩
  have hr' : run (make stages nil nprots guests du now) (h ++ (.runner j :: es)) = .ok s' := by
    rw [run_append, hr, Outcome.bind_ok, run, hs, Outcome.bind_ok, hes]
  have hg := (known hr' u.key).1
  obtain ⟨c2, hc2, _, hrd⟩ := hg.r.called j u' hu' hp'
  have := Option.some.inj (hc2.symm.trans hc)
  subst this
  have h0 := (hg.r.fw.obs _ _ hc).2.2 hl
  rw [Firewall.reads, h0, readsAt] at hrd
  by_cases h2 : u'.pos ≤ 2
  · omega
  · rw [if_neg h2] at hrd
    by_cases h6 : u'.pos ≤ 6
    · rw [if_pos h6] at hrd; omega
    · rw [if_neg h6] at hrd
      by_cases h7 : u'.pos = 7
      · rw [if_pos h7] at hrd; omega
      · rw [if_neg h7] at hrd; omega

section Examples

/-- Two protocols with three stages each, and guest 1. -/
def exNode : Sys Nat := make (fun _ => 3) 0 2 (fun g => decide (g = 1)) 10 0

def exKey (pc : Int) : RunKey := ⟨pc, 1, "a"⟩

/-- A request for a run of protocol `pc`, a message for it while the firewall buffers, the run up to its end and the stop of
the allowance. -/
def exHist (pc : Int) : List (Ev Nat) :=
  [.tick 10, .latch, .launch (exKey pc) ⟨20, 30, 40⟩, .runner 0, .runner 0, .fwStep 0, .tick 20, .fwStep 0, .runner 0,
   .net ⟨0, pc, 1, "a", 0, 7⟩, .tick 30, .fwStep 0, .runner 0, .runner 0, .cons (pc, 1), .cons (pc, 1), .cons (pc, 1)] ++
  [.task 0, .task 0, .task 0, .finish 0, .task 0, .task 0, .task 0, .task 0, .tick 40, .fwStep 0]

/-- The four sections of the runner that are left, and the consumer. -/
def exEnd (pc : Int) : List (Ev Nat) :=
  [.runner 0, .runner 0, .runner 0, .runner 0, .cons (pc, 1), .cons (pc, 1), .net ⟨0, pc, 1, "a", 0, 7⟩]

def exBefore : Bool :=
  match run exNode (exHist 1) with
  | .ok s => s.runners.map Runner.pos == [5] && (s.reg.chans.map fun c => (c.unread, c.closed)) == [(1, true)] &&
      s.fw.calls.map Firewall.Call.sections == [4] && (s.reg.runs.get? (exKey 1)).isSome
  | _ => false

/-- The hypotheses of `C50_removed_partial` hold after this history. -/
theorem exBefore_ok : exBefore = true := by decide +kernel

def exAfter : Bool :=
  match run exNode (exHist 1 ++ exEnd 1) with
  | .ok s => s.runners.map Runner.pos == [9] && s.reg.log == [.created (exKey 1) 0, .started 0, .deleted (exKey 1)] &&
      s.reg.runs.get? (exKey 1) == none && (s.queues (1, 1)).isEmpty
  | _ => false

/-- The signing run is removed, and the last message does not recreate it. -/
theorem exAfter_ok : exAfter = true := by decide +kernel

def exDkg : Bool :=
  match run exNode (exHist 0 ++ exEnd 0 ++ [.cons (0, 1)]) with
  | .ok s => s.runners.map Runner.pos == [9] && s.reg.objs.map Registry.Obj.terminated == [true] && s.reg.tasks.isEmpty &&
      s.fw.calls.map Firewall.Call.sections == [4] && s.fw.allowances.get? (exKey 0) == none && (s.queues (0, 1)).isEmpty &&
      s.reg.runs.get? (exKey 0) == some 0
  | _ => false

/-- C50 fails for key generation: here the run has terminated, the allowance has stopped, the signal was sent and processed, and the
run is still registered. -/
theorem C50_counterexample : exDkg = true := by decide +kernel

/-- The same id again after the allowance of the first run stopped. -/
def exReuse : Bool :=
  match run exNode (exHist 1 ++ [.launch (exKey 1) ⟨50, 60, 70⟩, .runner 1, .runner 1, .fwStep 1, .tick 50, .fwStep 1, .tick 60, .fwStep 1] ++
      [.runner 0, .runner 0, .runner 0, .runner 0, .net ⟨0, 1, 1, "a", 0, 7⟩, .cons (1, 1), .cons (1, 1), .cons (1, 1), .cons (1, 1)]) with
  | .ok s => s.reg.log == [.created (exKey 1) 0, .started 0, .deleted (exKey 1), .created (exKey 1) 1]
  | _ => false

/-- The hypothesis of C51 on run ids is needed: when an id is reused, a message that was received before the signal of the first run was
processed recreates the run. -/
theorem C51_reuse_counterexample : exReuse = true := by decide +kernel

def exTwice : Bool :=
  match run exNode [.tick 10, .latch, .launch (exKey 1) ⟨20, 30, 40⟩, .launch (exKey 1) ⟨20, 30, 40⟩, .runner 0, .runner 0, .runner 1] with
  | .ok s => s.runners.map Runner.pos == [2, 1] && s.fw.allowances.get? (exKey 1) == some ⟨20, 30, 40⟩ &&
      (step s (.runner 1)).isOk
  | _ => false

/-- The hypotheses of C71 hold when one line is given twice. -/
theorem exTwice_ok : exTwice = true := by decide +kernel

end Examples

end Verif.Props.Node
