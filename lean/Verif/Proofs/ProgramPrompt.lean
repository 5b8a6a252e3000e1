import Verif.Proofs.ProtSched
import Verif.Props.ProgramTime

/-! A process in which nothing is late: its runs keep to their schedule. -/
namespace Verif.Firewall
variable {D : Type}

/-- The thread of an allowance that waits after the start is past the start. -/
theorem section_due {f : Fw D} (h : Inv f) {i : Nat} {c : Call} (hc : f.calls[i]? = some c) (hl : c.live = true) (hb : c.allow.buf ≤ f.now)
    (hs : c.allow.start ≤ f.now) (hq : step f (.step i) = .err) : 3 ≤ c.sections := by
  have ho := (h.obs i c hc).1
  by_contra hn
  have hcap : c.obs.length < obsCap := by rw [obsCap]; omega
  rw [step, stateStep, hc] at hq
  simp only [hl, Bool.not_true, Bool.false_eq_true, if_false] at hq
  by_cases h0 : c.sections = 0
  · rw [if_pos h0] at hq; cases hq
  have hld := (h.loaded i c hc).1 (by omega)
  rw [hld, if_neg h0] at hq
  by_cases h1 : c.sections = 1
  · rw [if_pos h1, if_pos ⟨hb, hcap⟩] at hq; cases hq
  · rw [if_neg h1, if_pos (by omega), if_pos ⟨hs, hcap⟩] at hq; cases hq

/-- Calls go on, and once messages are no longer dropped they never are. -/
theorem step_on {f f' : Fw D} {e : Ev D} (hs : step f e = .ok f') :
    (∀ (i : Nat) (c : Call), f.calls[i]? = some c → ∃ c', f'.calls[i]? = some c' ∧ c'.key = c.key ∧ c'.allow = c.allow ∧ c'.live = c.live ∧
      c.sections ≤ c'.sections) ∧ (f.dropAll = false → f'.dropAll = false) ∧ ((∀ t, e ≠ .tick t) → f'.now = f.now) := by
  have upd : ∀ {j : Nat} {c c1 : Call}, f.calls[j]? = some c → c1.key = c.key → c1.allow = c.allow → c1.live = c.live →
      c.sections ≤ c1.sections → ∀ (i : Nat) (d : Call), f.calls[i]? = some d → ∃ c', (f.calls.set j c1)[i]? = some c' ∧ c'.key = d.key ∧
        c'.allow = d.allow ∧ c'.live = d.live ∧ d.sections ≤ c'.sections := by
    intro j c c1 hc h1 h2 h3 h4 i d hd
    by_cases e : i = j
    · subst e
      have := Option.some.inj (hd.symm.trans hc)
      subst this
      exact ⟨c1, getElem?_set_self _ hc, h1, h2, h3, h4⟩
    · exact ⟨d, by rw [getElem?_set_other _ e]; exact hd, rfl, rfl, rfl, Nat.le_refl _⟩
  have same : ∀ {l : List Call}, l = f.calls → ∀ (i : Nat) (d : Call), f.calls[i]? = some d →
      ∃ c', l[i]? = some c' ∧ c'.key = d.key ∧ c'.allow = d.allow ∧ c'.live = d.live ∧ d.sections ≤ c'.sections :=
    fun hl i d hd => ⟨d, by rw [hl]; exact hd, rfl, rfl, rfl, Nat.le_refl _⟩
  cases e with
  | tick t =>
    obtain ⟨_, rfl⟩ := step_tick_cases hs
    exact ⟨same rfl, id, fun h => absurd rfl (h t)⟩
  | latch =>
    obtain ⟨_, _, rfl⟩ := step_latch_cases hs
    exact ⟨same rfl, fun _ => rfl, fun _ => rfl⟩
  | msg m =>
    rw [step] at hs
    have := Outcome.ok.inj hs
    subst this
    rcases process_cases f m with e | ⟨_, _, _, _, e⟩ | ⟨_, _, hst, e⟩ <;> (rw [e]; exact ⟨same rfl, id, fun _ => rfl⟩)
  | allow k a =>
    rw [step] at hs
    obtain ⟨_, ⟨b, hb, rfl⟩ | ⟨_, rfl⟩⟩ := setAllowance_cases hs <;>
      exact ⟨fun i d hd => ⟨d, getElem?_concat_old _ hd, rfl, rfl, rfl, Nat.le_refl _⟩, id, fun _ => rfl⟩
  | step i =>
    rw [step] at hs
    obtain ⟨c, hc, hl, ⟨h0, rfl⟩ | ⟨h0, _, _, rfl⟩ | ⟨h0, _, _, rfl⟩ | ⟨h0, _, _, rfl⟩⟩ := stateStep_cases hs <;>
      exact ⟨upd hc rfl rfl rfl (by dsimp only; omega), id, fun _ => rfl⟩
  | read j =>
    obtain ⟨c, hc, _, rfl⟩ := step_read_cases hs
    exact ⟨upd hc rfl rfl rfl (Nat.le_refl _), id, fun _ => rfl⟩

end Verif.Firewall

namespace Verif.Node
variable {D : Type}

/-- There is an allowance for the run whose start is over. -/
def Opened (s : Sys D) (k : RunKey) (a : Firewall.Allowance) : Prop :=
  ∃ (i : Nat) (x : Firewall.Call), s.fw.calls[i]? = some x ∧ x.key = k ∧ x.allow = a ∧ x.live = true ∧ 3 ≤ x.sections

theorem opened_step {s s' : Sys D} {e : Ev D} (hs : step s e = .ok s') :
    (∀ k a, Opened s k a → Opened s' k a) ∧ (s.fw.dropAll = false → s'.fw.dropAll = false) ∧ ((∀ t, e ≠ .tick t) → s'.fw.now = s.fw.now) := by
  have fw : ∀ {fe : Firewall.Ev D} {s' : Sys D}, Firewall.step s.fw fe = .ok s'.fw → ((∀ t, e ≠ .tick t) → ∀ t, fe ≠ .tick t) →
      (∀ k a, Opened s k a → Opened s' k a) ∧ (s.fw.dropAll = false → s'.fw.dropAll = false) ∧ ((∀ t, e ≠ .tick t) → s'.fw.now = s.fw.now) := by
    intro fe s' h ht
    obtain ⟨h1, h2, h3⟩ := Firewall.step_on h
    refine ⟨fun k a ⟨i, x, hx, hk, ha, hl, h3⟩ => ?_, h2, fun he => h3 (ht he)⟩
    obtain ⟨x', a1, a2, a3, a4, a5⟩ := h1 i x hx
    exact ⟨i, x', a1, a2.trans hk, a3.trans ha, a4.trans hl, Nat.le_trans h3 a5⟩
  cases step_shape hs with
  | @fw e fe f' qs he hd =>
    refine fw (s' := { s with fw := f', queues := qs }) hd.1 fun h t => ?_
    cases e <;> cases he
    · exact fun _ => h _ rfl
    all_goals exact nofun
  | @allow j u f' qs _ _ hd => exact fw (s' := { s with runners := _, fw := f', queues := qs }) hd.1 fun _ _ => nofun
  | @read j u f' qs _ _ hd => exact fw (s' := { s with runners := _, fw := f', queues := qs }) hd.1 fun _ _ => nofun
  | _ => exact ⟨fun _ _ h => h, id, fun _ => rfl⟩

/-- The message has come through the firewall and has not been given to its run. -/
def Carried (m : Message D) (s : Sys D) : Prop :=
  m ∈ s.queues (m.pc, m.rcpt) ∨ s.cons (m.pc, m.rcpt) = .got m ∨ s.cons (m.pc, m.rcpt) = .found m

theorem carried_step {s s' : Sys D} {e : Ev D} {m : Message D} (hm : 0 ≤ m.pc) (hs : step s e = .ok s') (h : Carried m s)
    (hn : ¬ (s.cons (m.pc, m.rcpt) = .found m ∧ e = .cons (m.pc, m.rcpt))) : Carried m s' := by
  have grow : ∀ {qs : Int × Int → List (Message D)}, (∀ p, ∃ add, qs p = s.queues p ++ add) → ∀ (r : Registry.Reg) (f : Firewall.Fw D) (l : List Runner),
      Carried m { s with queues := qs, reg := r, fw := f, runners := l } := by
    intro qs hq r f l
    obtain ⟨add, ha⟩ := hq (m.pc, m.rcpt)
    exact h.imp (fun h => by dsimp only; rw [ha]; exact List.mem_append_left _ h) id
  have fed : ∀ {new : List (Message D)} {qs : Int × Int → List (Message D)}, Fed s new qs → ∀ p, ∃ add, qs p = s.queues p ++ add :=
    fun hf p => (hf p).imp fun _ h => h.1
  have keep : ∀ p : Int × Int, ∃ add, s.queues p = s.queues p ++ add := fun p => ⟨[], (List.append_nil _).symm⟩
  cases step_shape hs with
  | fw _ hd => exact grow (fed hd.2) _ _ _
  | reg => exact grow keep _ _ _
  | launch => exact grow keep _ _ _
  | observe => exact grow keep _ _ _
  | allow _ _ hd => exact grow (fed hd.2) _ _ _
  | sleep => exact grow keep _ _ _
  | ensure => exact grow keep _ _ _
  | recv => exact grow keep _ _ _
  | read _ _ hd => exact grow (fed hd.2) _ _ _
  | signal _ _ hd => exact grow (fun p => (hd p).imp fun _ h => h.1) _ _ _
  | @take q m' ms hc hq =>
    by_cases e : (m.pc, m.rcpt) = q
    · subst e
      rcases h with h | h | h
      · rw [hq] at h
        rcases List.mem_cons.1 h with rfl | h
        · exact .inr (.inl (if_pos rfl))
        · left; show m ∈ update s.queues _ ms _; rw [update, if_pos rfl]; exact h
      · rw [hc] at h; cases h
      · rw [hc] at h; cases h
    · rcases h with h | h | h
      · left; show m ∈ update s.queues _ ms _; rw [update, if_neg e]; exact h
      · right; left; show update s.cons _ _ _ = _; rw [update, if_neg e]; exact h
      · right; right; show update s.cons _ _ _ = _; rw [update, if_neg e]; exact h
  | @give q m' hc =>
    by_cases e : (m.pc, m.rcpt) = q
    · subst e
      rcases h with h | h | h
      · exact .inl h
      · rw [hc] at h; cases h
      · exact absurd ⟨h, rfl⟩ hn
    · rcases h with h | h | h
      · exact .inl h
      · right; left; show update s.cons _ _ _ = _; rw [update, if_neg e]; exact h
      · right; right; show update s.cons _ _ _ = _; rw [update, if_neg e]; exact h
  | @delete q m' r' hc hneg =>
    by_cases e : (m.pc, m.rcpt) = q
    · subst e
      rcases h with h | h | h
      · exact .inl h
      · rw [hc] at h; injection h with h; subst h; omega
      · rw [hc] at h; cases h
    · rcases h with h | h | h
      · exact .inl h
      · right; left; show update s.cons _ _ _ = _; rw [update, if_neg e]; exact h
      · right; right; show update s.cons _ _ _ = _; rw [update, if_neg e]; exact h
  | @find q m' r' hc =>
    by_cases e : (m.pc, m.rcpt) = q
    · subst e
      rcases h with h | h | h
      · exact .inl h
      · rw [hc] at h; injection h with h; subst h; exact .inr (.inr (if_pos rfl))
      · rw [hc] at h; cases h
    · rcases h with h | h | h
      · exact .inl h
      · right; left; show update s.cons _ _ _ = _; rw [update, if_neg e]; exact h
      · right; right; show update s.cons _ _ _ = _; rw [update, if_neg e]; exact h

end Verif.Node

namespace Verif.Prot
variable {D A U : Type} {c : Conf D A U}

theorem inv_now {r : Run D A U} (h : Inv c r) (t : Int) : Inv c { r with now := t } :=
  ⟨h.core.other rfl rfl rfl rfl rfl rfl rfl, h.fresh, h.staged, h.pausing, h.done, h.term⟩

end Verif.Prot

namespace Verif.Program
open Verif.Prot Verif.Dto Verif.Dss Verif.Dkg Verif.Tables Verif.Signode Verif.Props Verif.Spec.Prot Verif.Spec.Program
open Verif.Registry (lt_of_some)
variable {K : Type} {c : Cfg K} {W : Message Dto → Prop}

theorem run_append (s : Sys K) (h g : List Ev) : run c s (h ++ g) = (run c s h >>= fun s' => run c s' g) := by
  induction h generalizing s with
  | nil => rfl
  | cons e h ih =>
    rw [List.cons_append, run, run]
    cases step c s e with
    | ok s' => exact ih s'
    | err => rfl
    | panic => rfl

theorem run_append_ok {s s' : Sys K} {h g : List Ev} (hs : run c s (h ++ g) = .ok s') : ∃ s1, run c s h = .ok s1 ∧ run c s1 g = .ok s' := by
  rw [run_append, Outcome.bind_eq_ok] at hs
  exact hs

theorem run_snoc {s s1 s' : Sys K} {h : List Ev} {e : Ev} (h1 : run c s h = .ok s1) (h2 : step c s1 e = .ok s') : run c s (h ++ [e]) = .ok s' := by
  rw [run_append, h1, Outcome.bind_ok, run, h2]; rfl

/-- The state at another time. -/
def at_ (s : Sys K) (t : Int) : Sys K := { s with node := { s.node with fw := { s.node.fw with now := t } } }

theorem tick_eq {s : Sys K} (hlen : s.runs.length = s.node.reg.objs.length) (t : Int) :
    step c s (.tick t) = if s.node.fw.now ≤ t then .ok (at_ s t) else .err := by
  by_cases ht : s.node.fw.now ≤ t
  · rw [if_pos ht, step, nodeEvent, Node.step, Node.fwEvent, Firewall.step, if_pos ht, Outcome.bind_ok, Outcome.bind_ok]
    dsimp only
    rw [List.drop_length, List.foldl_nil, hlen, List.drop_length, List.map_nil, List.append_nil]
    rfl
  · rw [if_neg ht, step, nodeEvent, Node.step, Node.fwEvent, Firewall.step, if_neg ht]; rfl

/-- The clock only changes in a tick; otherwise the node goes on. -/
theorem node_step {s s' : Sys K} {e : Ev} (hs : step c s e = .ok s') (he : ∀ t, e ≠ .tick t) :
    s'.node.fw.now = s.node.fw.now ∧ (∀ k a, Node.Opened s.node k a → Node.Opened s'.node k a) ∧
    (s.node.fw.dropAll = false → s'.node.fw.dropAll = false) := by
  have node : ∀ {s s' : Sys K} {ne : Node.Ev Dto}, nodeEvent c s ne = .ok s' → (∀ t, ne ≠ .tick t) → s'.node.fw.now = s.node.fw.now ∧
      (∀ k a, Node.Opened s.node k a → Node.Opened s'.node k a) ∧ (s.node.fw.dropAll = false → s'.node.fw.dropAll = false) := by
    intro s s' ne h h1
    obtain ⟨n, h2, rfl⟩ := node_ok h
    obtain ⟨a1, a2, a3⟩ := Node.opened_step h2
    exact ⟨a3 h1, a1, a2⟩
  have launch : ∀ {gs : List Int} {s s' : Sys K} {j : Job}, launchAll c s j gs = .ok s' → s'.node.fw = s.node.fw :=
    fun h => (linv_launch h).2.2.1
  have measured : ∀ {ne : Node.Ev Dto}, own e = true → (own e = true → Measured ne) → ∀ t, ne ≠ .tick t := by
    intro ne h1 h2 t e
    have := h2 h1
    rw [e] at this
    exact this
  by_cases ho : own e = true
  · cases step_kind hs with
    | node h1 _ _ h2 f =>
      have := node h1 (measured ho h2)
      exact this
    | thread h1 =>
      obtain ⟨_, _, _, _, _, _, _, _, rfl⟩ := run_ok h1
      exact ⟨rfl, fun _ _ => id, id⟩
    | last h1 _ h3 =>
      obtain ⟨_, _, _, _, _, _, _, _, rfl⟩ := run_ok h1
      have := node h3 (fun t => nofun)
      exact this
    | give _ h1 h2 =>
      obtain ⟨_, _, _, _, _, _, _, _, rfl⟩ := run_ok h1
      have := node h2 (fun t => nofun)
      exact this
    | job => exact ⟨rfl, fun _ _ => id, id⟩
    | launch _ _ h1 =>
      have e := launch h1
      dsimp only
      exact ⟨by rw [e], fun k a h => by unfold Node.Opened; rw [e]; exact h, by rw [e]; exact id⟩
    | request => cases ho
  · cases e with
    | tick t => exact absurd rfl (he t)
    | net m => exact node hs nofun
    | request j => rw [step] at hs; rw [← Outcome.ok.inj hs]; exact ⟨rfl, fun _ _ => id, id⟩
    | _ => exact absurd rfl ho

/-- The signing protocol of a run. -/
def runConf (c : Cfg K) (r : Nat) (k : RunKey) (b : JobSt) : Conf Dto Obj (Data K) :=
  dssConf (c.y k.gidx r) c.H c.SH (env c r k.gidx (some b.job.doc)) k.runId k.gidx c.members

/-- What a section of a run is. -/
theorem section_step {s s1 : Sys K} (h : PInv c W s) {r : Nat} {e : Prot.Ev Dto}
    (he : e = .thread ∨ ∃ m, e = .msg m ∧ W m ∧ 0 ≤ m.op ∧ ∀ o, s.node.reg.objs[r]? = some o → m.key = o.key)
    (hs : runEvent c s r e = .ok s1) : ∃ u o u' b outs, s.runs[r]? = some u ∧ s.node.reg.objs[r]? = some o ∧ b ∈ s.jobs ∧
      Prot.Inv (runConf c r o.key b) { u with now := s.node.fw.now } ∧ Prot.step (runConf c r o.key b) { u with now := s.node.fw.now } e = .ok u' ∧
      s1 = { s with runs := s.runs.set r u', outs := outs } := by
  obtain ⟨u, o, u', outs, hr, ho, hx, _, rfl⟩ := run_ok hs
  obtain ⟨b, sec⟩ := section_of h.n h.j h.u he ho hr hx
  have hinv : Prot.Inv (runConf c r o.key b) u := by
    obtain ⟨t0, hist, _, htr⟩ := h.u.trace r o u ho hr b sec.job (by rw [sec.key])
    exact (agree_exec htr).inv
  have hrun := sec.run
  rw [exec, Outcome.bind_eq_ok] at hrun
  obtain ⟨u1, e1, hrun⟩ := hrun
  rw [exec, Outcome.bind_eq_ok] at hrun
  obtain ⟨u2, e2, hrun⟩ := hrun
  rw [exec] at hrun
  rw [Prot.step] at e1
  by_cases ht : u.now ≤ s.node.fw.now
  · rw [if_pos ht] at e1
    have e1 := (Outcome.ok.inj e1).symm
    have hu2 := Outcome.ok.inj hrun
    subst hu2
    subst e1
    exact ⟨u, o, u2, b, outs, hr, ho, sec.job, inv_now hinv _, e2, rfl⟩
  · rw [if_neg ht] at e1; cases e1

/-- Where the runs after a step come from. -/
theorem run_change {s s' : Sys K} {e : Ev} (h : Known c W s) (hs : step c s e = .ok s') {r : Nat} {u' : Run Dto Obj (Data K)}
    (hu' : s'.runs[r]? = some u') :
    s.runs[r]? = some u' ∨ (r = s.runs.length ∧ ∃ k t0, u' = newRun Dto Obj (newData (c.gen k r)) t0) ∨
    ∃ u o b pe, s.runs[r]? = some u ∧ s.node.reg.objs[r]? = some o ∧ b ∈ s.jobs ∧ (pe = .thread ∨ ∃ m, pe = .msg m) ∧
      Prot.Inv (runConf c r o.key b) { u with now := s.node.fw.now } ∧ Prot.step (runConf c r o.key b) { u with now := s.node.fw.now } pe = .ok u' := by
  have node : ∀ {s1 s2 : Sys K} {ne : Node.Ev Dto}, s1.runs.length = s1.node.reg.objs.length → nodeEvent c s1 ne = .ok s2 → ∀ {u'},
      s2.runs[r]? = some u' → s1.runs[r]? = some u' ∨ (r = s1.runs.length ∧ ∃ k t0, u' = newRun Dto Obj (newData (c.gen k r)) t0) := by
    intro s1 s2 ne hlen h1 u' hu'
    obtain ⟨n, h2, rfl⟩ := node_ok h1
    obtain ⟨_, _, l3⟩ := runs_node (c := c) hlen (objs_step h2).len rfl
    rcases l3 r u' hu' with hu | ⟨hr, o, t0, _, e⟩
    · exact .inl hu
    · exact .inr ⟨hr, o.key.gidx, t0, e⟩
  have sec : ∀ {s1 : Sys K} {r1 : Nat} {pe : Prot.Ev Dto},
      (pe = .thread ∨ ∃ m, pe = .msg m ∧ W m ∧ 0 ≤ m.op ∧ ∀ o, s.node.reg.objs[r1]? = some o → m.key = o.key) →
      runEvent c s r1 pe = .ok s1 → (s1.runs.length = s.runs.length ∧ s1.node = s.node) ∧ (s1.runs[r]? = some u' → s.runs[r]? = some u' ∨
      ∃ u o b pe, s.runs[r]? = some u ∧ s.node.reg.objs[r]? = some o ∧ b ∈ s.jobs ∧ (pe = .thread ∨ ∃ m, pe = .msg m) ∧
      Prot.Inv (runConf c r o.key b) { u with now := s.node.fw.now } ∧ Prot.step (runConf c r o.key b) { u with now := s.node.fw.now } pe = .ok u') := by
    intro s1 r1 pe he h1
    obtain ⟨u, o, u1, b, outs, a1, a2, a3, a4, a5, rfl⟩ := section_step h.p he h1
    refine ⟨⟨List.length_set, rfl⟩, fun hu' => ?_⟩
    rcases Firewall.getElem?_set_some a1 hu' with ⟨rfl, rfl⟩ | ⟨_, hu'⟩
    · exact .inr ⟨u, o, b, pe, a1, a2, a3, he.imp id fun ⟨m, hm, _⟩ => ⟨m, hm⟩, a4, a5⟩
    · exact .inl hu'
  cases step_kind hs with
  | node h1 _ _ _ f => exact (node h.p.u.len h1 hu').imp id .inl
  | thread h1 =>
    exact ((sec (.inl rfl) h1).2 hu').imp id .inr
  | last h1 _ h3 =>
    obtain ⟨⟨l1, l2⟩, h4⟩ := sec (.inl rfl) h1
    rcases node (by rw [l1, l2]; exact h.p.u.len) h3 hu' with hu | hu
    · exact (h4 hu).imp id .inr
    · rw [l1] at hu; exact .inr (.inl hu)
  | give hq h1 h2 =>
    obtain ⟨⟨l1, l2⟩, h4⟩ := sec (.inr ⟨_, rfl, give_ok h.p hq⟩) h1
    rcases node (by rw [l1, l2]; exact h.p.u.len) h2 hu' with hu | hu
    · exact (h4 hu).imp id .inr
    · rw [l1] at hu; exact .inr (.inl hu)
  | job => exact .inl hu'
  | launch _ _ h1 =>
    dsimp only at hu'
    rw [(linv_launch h1).2.2.2.1 h.p.u.len] at hu'
    exact .inl hu'
  | request => exact .inl hu'

/-- A state of a history in which the requests have different run identifiers. -/
def Reach (c : Cfg K) (s : Sys K) : Prop := ∃ h, run c (init c) h = .ok s ∧ ((requests h).map jobId).Nodup

theorem Reach.known {s : Sys K} (h : Reach c s) (hg : c.guests.Nodup) : Known c (fun _ => True) s := by
  obtain ⟨h, hr, hd⟩ := h
  exact known_run (known_init c _) (Verif.Props.Program.inv_of (W := fun _ => True) hr hg hd (fun _ _ => trivial)).2.1 hg (fun _ _ => trivial) hr

/-- The allowance of a runner. -/
theorem Reach.allow {s : Sys K} (h : Reach c s) {b : JobSt} (hb : b ∈ s.jobs) {v : Node.Runner} (hv : v ∈ s.node.runners)
    (hk : v.key.runId = jobId b.job) : v.allow = c.allow b.job := by
  obtain ⟨h, hr, hd⟩ := h
  obtain ⟨es, r1, r2⟩ := through_run hr
  have hreq : reqs s = requests h := by rw [reqs_run hr]; rfl
  rcases Node.runners_run r1 v hv with ⟨w, hw, _⟩ | hl
  · cases hw
  · obtain ⟨j2, hj2, _, _, f3, f4⟩ := r2 _ _ hl
    have hb' : b.job ∈ reqs s := List.mem_map_of_mem hb
    rw [hreq] at hj2 hb'
    have : b.job = j2 := List.inj_on_of_nodup_map hd hb' hj2 (hk.symm.trans f3)
    rw [f4, this]

theorem Reach.start {s : Sys K} (h : Reach c s) {b : JobSt} (hb : b ∈ s.jobs) {o : Registry.Obj} (ho : o ∈ s.node.reg.objs)
    (hk : o.key.runId = jobId b.job) : (c.allow b.job).start ≤ s.node.fw.now := by
  obtain ⟨h, hr, hd⟩ := h
  have hreq : reqs s = requests h := by rw [reqs_run hr]; rfl
  obtain ⟨j, hj, _, _, e, hs⟩ := Verif.Props.Program.C78_runs c h s hr o ho
  have hb' : b.job ∈ reqs s := List.mem_map_of_mem hb
  rw [hreq] at hb'
  have : b.job = j := List.inj_on_of_nodup_map hd hb' hj (hk.symm.trans e)
  rw [this]; exact hs

theorem requests_append (h g : List Ev) : requests (h ++ g) = requests h ++ requests g := by
  induction h with
  | nil => rfl
  | cons e h ih => rw [List.cons_append, requests_cons, requests_cons e h, ih, List.append_assoc]

/-- An invariant of a process in which nothing is late. -/
theorem prompt_induct {P : Sys K → Prop} (hg : c.guests.Nodup) {h0 : List Ev} {s0 : Sys K} (hr : run c (init c) h0 = .ok s0) (hp : P s0)
    {h : List Ev} {s : Sys K} (hs : run c s0 h = .ok s) (hd : ((requests (h0 ++ h)).map jobId).Nodup) (hpr : Prompt c (h0 ++ h))
    (hstep : ∀ s e s', Reach c s → Reach c s' → P s → step c s e = .ok s' → (∀ t, e ≠ .tick t) → P s')
    (hwait : ∀ s t, Reach c s → Reach c (at_ s (t - 1)) → P s → s.node.fw.now < t → Quiet c (at_ s (t - 1)) → P (at_ s t)) : P s := by
  induction h using List.reverseRecOn generalizing s with
  | nil => rw [run] at hs; rw [← Outcome.ok.inj hs]; exact hp
  | append_singleton h e ih =>
    obtain ⟨s1, h1, h2⟩ := run_append_ok hs
    rw [run, Outcome.bind_eq_ok] at h2
    obtain ⟨s2, h2, h3⟩ := h2
    rw [run] at h3
    have := Outcome.ok.inj h3
    subst this
    rw [← List.append_assoc] at hd hpr
    have hd1 : ((requests (h0 ++ h)).map jobId).Nodup := by
      rw [requests_append, List.map_append] at hd; exact (List.nodup_append.1 hd).1
    have hP1 := ih h1 hd1 (fun a t b hab => hpr a t (b ++ [e]) (by rw [hab]; simp))
    have hrun : run c (init c) (h0 ++ h) = .ok s1 := by rw [run_append, hr, Outcome.bind_ok]; exact h1
    have hR1 : Reach c s1 := ⟨_, hrun, hd1⟩
    have hR2 : Reach c s2 := ⟨_, run_snoc hrun h2, hd⟩
    by_cases he : ∃ t, e = .tick t
    · obtain ⟨t, rfl⟩ := he
      have hlen := (hR1.known hg).p.u.len
      have h2' := h2
      rw [tick_eq hlen] at h2
      by_cases ht : s1.node.fw.now ≤ t
      · rw [if_pos ht] at h2
        have h2 := Outcome.ok.inj h2
        rw [← h2]
        by_cases hlt : s1.node.fw.now < t
        · have htk : step c s1 (.tick (t - 1)) = .ok (at_ s1 (t - 1)) := by rw [tick_eq hlen, if_pos (by omega)]
          refine hwait s1 t hR1 ⟨_, run_snoc hrun htk, ?_⟩ hP1 hlt (hpr (h0 ++ h) t [] rfl s1 hrun hlt _ htk)
          rw [requests_append] at hd ⊢
          exact hd
        · have : t = s1.node.fw.now := by omega
          rw [this]; exact hP1
      · rw [if_neg ht] at h2; cases h2
    · exact hstep s1 e s2 hR1 hR2 hP1 h2 fun t h => he ⟨t, h⟩

/-- When nothing is left to do, the runners of every request have been started. -/
theorem quiet_launched {s : Sys K} (hq : Quiet c s) {b : JobSt} (hb : b ∈ s.jobs) : past b.pc = true := by
  obtain ⟨i, hi⟩ := List.mem_iff_getElem?.1 hb
  have he : ∀ g, jobStep c s i g = .err := fun g => hq (.job i g) rfl
  cases hpc : b.pc with
  | registering =>
    exfalso
    cases ha : c.guests.all fun g => decide (g ∈ b.done) with
    | true =>
      have := he 0
      rw [jobStep, hi] at this
      dsimp only at this
      rw [hpc] at this
      dsimp only at this
      rw [if_pos ha] at this
      cases this
    | false =>
      have ha' := ha
      rw [List.all_eq_false] at ha'
      obtain ⟨g, hg, hd⟩ := ha'
      have := he g
      rw [jobStep, hi] at this
      dsimp only at this
      rw [hpc] at this
      dsimp only at this
      rw [if_neg (by rw [ha]; decide), if_pos (by simpa using ⟨hg, by simpa using hd⟩)] at this
      refine Outcome.bind_ne_err ?_ (fun _ _ => Outcome.ok_ne_err _) this
      rw [docStep]
      cases s.docs.get? g <;> exact nofun
  | launching =>
    exfalso
    have := he 0
    rw [jobStep, hi] at this
    dsimp only at this
    rw [hpc] at this
    dsimp only at this
    refine Outcome.bind_ne_err ?_ (fun _ _ => Outcome.ok_ne_err _) this
    have : ∀ (gs : List Int) (t : Sys K), launchAll c t b.job gs ≠ .err := by
      intro gs
      induction gs with
      | nil => exact fun t => nofun
      | cons g gs ih => exact fun t => Outcome.bind_ne_err (fun hx => (by cases nodeEvent_err hx)) fun t' _ => ih t'
    exact this c.guests s
  | _ => rfl

theorem quiet_section {s : Sys K} (h : Whole s) (hq : Quiet c s) {i : Nat} {x : Firewall.Call} (hx : s.node.fw.calls[i]? = some x)
    (hl : x.live = true) (hb : x.allow.buf ≤ s.node.fw.now) (hs : x.allow.start ≤ s.node.fw.now) : 3 ≤ x.sections := by
  refine Firewall.section_due (h.good ⟨0, 0, ""⟩).r.fw hx hl hb hs ?_
  have := nodeEvent_err (hq (.fwStep i) rfl)
  rw [Node.step, Node.fwEvent] at this
  by_contra hn
  exact Outcome.bind_ne_err hn (fun _ _ => Outcome.ok_ne_err _) this

/-- When nothing is left to do, a runner whose start is over has its run. -/
theorem quiet_due {s : Sys K} (h : Whole s) (hq : Quiet c s) {j : Nat} {u : Node.Runner} (hu : s.node.runners[j]? = some u)
    (hb : u.allow.buf ≤ s.node.fw.now) (hs : u.allow.start ≤ s.node.fw.now) : 5 ≤ u.pos := by
  have hR := (h.good ⟨0, 0, ""⟩).r
  have hm := List.mem_of_getElem? hu
  have he := nodeEvent_err (hq (.runner j) rfl)
  have hat : ∀ (t : Node.Sys Dto) (k : RunKey) (e : Registry.Ev), Registry.step t.reg e ≠ .err → Node.regEventAt t k e ≠ .err := by
    intro t k e h
    rw [Node.regEventAt]
    by_cases hv : Firewall.keyValid t.fw k = true
    · rw [if_pos hv]; exact Outcome.bind_ne_err h fun _ _ => nofun
    · rw [if_neg hv]; exact nofun
  by_contra hn
  rw [Node.step, Node.runnerStep, hu] at he
  dsimp only at he
  by_cases h0 : u.pos = 0
  · rw [if_pos h0] at he; exact hat _ _ _ (by exact nofun) he
  rw [if_neg h0] at he
  by_cases h1 : u.pos = 1
  · rw [if_pos h1] at he
    refine Outcome.bind_ne_err ?_ (fun _ _ => Outcome.ok_ne_err _) he
    rw [Firewall.step, Firewall.setAllowance]
    split
    · exact nofun
    · split <;> exact nofun
  rw [if_neg h1] at he
  by_cases h3 : u.pos = 3
  · rw [if_pos h3, if_pos hs] at he; cases he
  rw [if_neg h3] at he
  by_cases h4 : u.pos = 4
  · rw [if_pos h4] at he; exact hat _ _ _ (by exact nofun) he
  have h2 : u.pos = 2 := by omega
  rw [if_neg h4, if_neg (by omega), if_pos (.inl h2)] at he
  obtain ⟨x, hx, _, hal, hlive⟩ := h.held u hm (by omega)
  obtain ⟨x', hx', _, hrd⟩ := hR.called j u hu (by omega)
  have := Option.some.inj (hx.symm.trans hx')
  subst this
  have hsec := quiet_section h hq hx hlive (by rw [hal]; exact hb) (by rw [hal]; exact hs)
  have hne : x.obs ≠ [] := by
    intro e
    rw [Firewall.reads, e, Node.readsAt, h2] at hrd
    simp at hrd
    omega
  refine Outcome.bind_ne_err ?_ (fun _ _ => Outcome.ok_ne_err _) he
  rw [Firewall.step]
  dsimp only
  rw [hx]
  dsimp only
  rw [if_neg hne]
  exact nofun

/-- When nothing is left to do, a run that has not ended waits for its time. -/
theorem quiet_thread {s : Sys K} (h : Whole s) (hq : Quiet c s) {r : Nat} {o : Registry.Obj} {u : Run Dto Obj (Data K)}
    (ho : s.node.reg.objs[r]? = some o) (hu : s.runs[r]? = some u) (hd : u.phase ≠ .done)
    (hx : ∀ cf : Conf Dto Obj (Data K), thread cf { u with now := s.node.fw.now } ≠ .err) : False := by
  have hm := List.mem_of_getElem? hu
  obtain ⟨t1, _, _, t4⟩ := h.orig.runs.thread r o ho
  rw [quiet_tasks h hq, Registry.total] at t1
  have he := hq (.thread r) rfl
  rw [step, threadStep, ho] at he
  dsimp only at he
  rw [if_neg (by omega)] at he
  refine Outcome.bind_ne_err (runEvent_ne_err (e := .thread) hu ho (h.clock u hm) hx) (fun s1 h1 => ?_) he
  obtain ⟨_, _, _, _, _, _, _, _, e1⟩ := run_ok h1
  by_cases hp : phaseOf s1 r = some .done
  · rw [if_pos hp]
    intro hx
    have := nodeEvent_err hx
    have en : s1.node = s.node := by rw [e1]
    have hnt : ¬ 0 < o.ended := fun hx => hd (h.term r o u ho hu (t4.2 hx))
    rw [en, Node.step, Node.regEvent, Registry.step, Registry.finish, ho] at this
    dsimp only at this
    rw [if_pos (by omega)] at this
    cases this
  · rw [if_neg hp]; exact nofun

theorem quiet_latched {s : Sys K} (hq : Quiet c s) (hd : s.node.fw.dropUntil ≤ s.node.fw.now) : s.node.fw.dropAll = false := by
  have := nodeEvent_err (hq .latch rfl)
  rw [Node.step, Node.fwEvent, Firewall.step] at this
  cases hx : s.node.fw.dropAll with
  | false => rfl
  | true => rw [if_pos ⟨hx, hd⟩] at this; cases this

/-- Run objects keep their keys. -/
theorem objs_fwd {s s' : Sys K} {e : Ev} (hs : step c s e = .ok s') {r : Nat} {o : Registry.Obj} (ho : s.node.reg.objs[r]? = some o) :
    ∃ o', s'.node.reg.objs[r]? = some o' ∧ o'.key = o.key := by
  obtain ⟨es, h1, h2⟩ := through_step hs
  clear hs h2
  generalize s.node = n at ho h1
  induction es generalizing n o with
  | nil => rw [Node.run] at h1; rw [← Outcome.ok.inj h1]; exact ⟨o, ho, rfl⟩
  | cons e es ih =>
    rw [Node.run, Outcome.bind_eq_ok] at h1
    obtain ⟨n1, h2, h3⟩ := h1
    obtain ⟨o1, h4, h5⟩ := (objs_step h2).fwd r o ho
    obtain ⟨o2, h6, h7⟩ := ih n1 h4 h3
    exact ⟨o2, h6, h7.trans h5⟩

/-- Goroutines stay. -/
theorem jobs_fwd {s s' : Sys K} {e : Ev} (hs : step c s e = .ok s') {j : Job} (h : ∃ b ∈ s.jobs, b.job = j) : ∃ b ∈ s'.jobs, b.job = j := by
  have h1 : j ∈ reqs s' := by rw [reqs_step hs]; exact List.mem_append_left _ (List.mem_map.2 h)
  exact List.mem_map.1 h1

/-- The run of a request for guest `x` keeps to its schedule. -/
structure Sched (c : Cfg K) (j : Job) (x : Int) (s : Sys K) : Prop where
  job : ∃ b ∈ s.jobs, b.job = j
  made : s.node.fw.now ≤ (c.allow j).start ∨ ((∃ o ∈ s.node.reg.objs, o.key = ⟨1, x, jobId j⟩) ∧ Node.Opened s.node ⟨1, x, jobId j⟩ (c.allow j) ∧
    s.node.fw.dropAll = false)
  time : ∀ (r : Nat) (o : Registry.Obj) (u : Run Dto Obj (Data K)), s.node.reg.objs[r]? = some o → o.key = ⟨1, x, jobId j⟩ →
    s.runs[r]? = some u → OnTime 650 (c.allow j).start s.node.fw.now u

theorem sched_step {j : Job} {x : Int} {s s' : Sys K} {e : Ev} (hg : c.guests.Nodup) (hR : Reach c s) (hR' : Reach c s') (h : Sched c j x s)
    (hs : step c s e = .ok s') (he : ∀ t, e ≠ .tick t) : Sched c j x s' := by
  obtain ⟨hnow, hop, hda⟩ := node_step hs he
  have hK := hR.known hg
  have hK' := hR'.known hg
  have hjob := jobs_fwd hs h.job
  refine ⟨hjob, ?_, fun r o u ho hk hu => ?_⟩
  · rw [hnow]
    rcases h.made with h1 | ⟨⟨o, ho, hk⟩, h2, h3⟩
    · exact .inl h1
    · obtain ⟨r, hr⟩ := List.mem_iff_getElem?.1 ho
      obtain ⟨o', ho', hk'⟩ := objs_fwd hs hr
      exact .inr ⟨⟨o', List.mem_of_getElem? ho', hk'.trans hk⟩, hop _ _ h2, hda h3⟩
  · rw [hnow]
    have old : ∀ {u0 : Run Dto Obj (Data K)}, s.runs[r]? = some u0 → ∃ o0, s.node.reg.objs[r]? = some o0 ∧ o0.key = ⟨1, x, jobId j⟩ := by
      intro u0 hu0
      have hlt : r < s.node.reg.objs.length := by rw [← hK.p.u.len]; exact lt_of_some hu0
      obtain ⟨o', ho', hk'⟩ := objs_fwd hs (List.getElem?_eq_getElem hlt)
      have := Option.some.inj (ho'.symm.trans ho)
      exact ⟨_, List.getElem?_eq_getElem hlt, by rw [← hk', this, hk]⟩
    rcases run_change hK hs hu with hu0 | ⟨hr, _, _, rfl⟩ | ⟨u0, o1, b, pe, hu0, ho1, _, hpe, hinv, hst⟩
    · obtain ⟨o0, ho0, hk0⟩ := old hu0
      exact h.time r o0 u ho0 hk0 hu0
    · obtain ⟨b, hb, rfl⟩ := hjob
      have h1 := hR'.start hb (List.mem_of_getElem? ho) (by rw [hk])
      rw [hnow] at h1
      show s.node.fw.now = _
      rcases h.made with h2 | ⟨⟨o0, ho0, hk0⟩, _⟩
      · omega
      · obtain ⟨r0, hr0⟩ := List.mem_iff_getElem?.1 ho0
        obtain ⟨o0', ho0', hk0'⟩ := objs_fwd hs hr0
        have := hK'.p.n.one ho ho0' (by rw [hk0', hk0, hk])
        have hlt := lt_of_some hr0
        rw [hK.p.u.len] at hr
        omega
    · obtain ⟨o0, ho0, hk0⟩ := old hu0
      have h1 := h.time r o0 u0 ho0 hk0 hu0
      rcases hpe with rfl | ⟨m, rfl⟩
      · exact onTime_thread (keeps_dss ..) hinv h1 hst
      · exact onTime_msg hinv h1 hst

theorem sched_wait {j : Job} {x : Int} {s : Sys K} {t : Int} (hg : c.guests.Nodup) (hx : x ∈ c.guests) (hbuf : (c.allow j).buf ≤ (c.allow j).start)
    (hdrop : c.dropUntil ≤ (c.allow j).start) (hR' : Reach c (at_ s (t - 1))) (h : Sched c j x s)
    (ht : s.node.fw.now < t) (hq : Quiet c (at_ s (t - 1))) : Sched c j x (at_ s t) := by
  have hK' := hR'.known hg
  refine ⟨h.job, ?_, fun r o u ho hk hu => ?_⟩
  · by_cases hts : t ≤ (c.allow j).start
    · exact .inl hts
    · right
      obtain ⟨b, hb, rfl⟩ := h.job
      have hpast := quiet_launched hq (b := b) hb
      obtain ⟨i, v, hv, hvk, _, _⟩ := hK'.p.j.mine b hb hpast x hx
      have hal := hR'.allow hb (List.mem_of_getElem? hv) (by rw [hvk])
      have hnow : (at_ s (t - 1)).node.fw.now = t - 1 := rfl
      have h1 : v.allow.start ≤ (at_ s (t - 1)).node.fw.now := by rw [hal, hnow]; omega
      have h2 : v.allow.buf ≤ (at_ s (t - 1)).node.fw.now := by rw [hal, hnow]; omega
      have h5 := quiet_due hK'.whole hq hv h2 h1
      obtain ⟨o, ho, hok⟩ := hK'.made v (List.mem_of_getElem? hv) h5
      obtain ⟨cl, k1, k2, k3, k4⟩ := hK'.held v (List.mem_of_getElem? hv) (by omega)
      have h3 := quiet_section hK'.whole hq k1 k4 (by rw [k3]; exact h2) (by rw [k3]; exact h1)
      obtain ⟨hist, hr, _⟩ := hR'
      obtain ⟨es, r1, _⟩ := through_run hr
      have hdu : (at_ s (t - 1)).node.fw.dropUntil = c.dropUntil := (Node.const_run r1).2
      have h4 := quiet_latched hq (by rw [hdu, hnow]; omega)
      exact ⟨⟨o, ho, hok.trans hvk⟩, ⟨v.call, cl, k1, k2.trans hvk, k3.trans hal, k4, h3⟩, h4⟩
  · have h1 := h.time r o u ho hk hu
    by_cases hd : u.phase = .done
    · rw [OnTime] at h1 ⊢
      rw [hd] at h1 ⊢
      have h1 : (c.allow j).start + 650 ≤ s.node.fw.now := h1
      show (c.allow j).start + 650 ≤ t
      omega
    · by_contra hn
      exact quiet_thread hK'.whole hq (r := r) (o := o) (u := u) ho hu hd fun cf hq => hn (onTime_wait h1 ht hq)

/-- In a process in which nothing is late, the runs of a request that came in time keep to their schedule. -/
theorem sched {h1 h2 : List Ev} {j : Job} {x : Int} {s1 s : Sys K} (hg : c.guests.Nodup) (hx : x ∈ c.guests)
    (hbuf : (c.allow j).buf ≤ (c.allow j).start) (hdrop : c.dropUntil ≤ (c.allow j).start) (hr1 : run c (init c) h1 = .ok s1)
    (hin : s1.node.fw.now ≤ (c.allow j).start) (hr : run c (init c) (h1 ++ .request j :: h2) = .ok s)
    (hd : ((requests (h1 ++ .request j :: h2)).map jobId).Nodup) (hp : Prompt c (h1 ++ .request j :: h2)) : Sched c j x s := by
  have e : h1 ++ .request j :: h2 = (h1 ++ [.request j]) ++ h2 := by simp
  rw [e] at hr hd hp
  obtain ⟨s0, a1, a2⟩ := run_append_ok hr
  have h0 : s0 = { s1 with jobs := s1.jobs ++ [⟨j, .registering, [], [], []⟩] } := by
    have := run_snoc (e := .request j) hr1 rfl
    exact Outcome.ok.inj (a1.symm.trans this)
  refine prompt_induct hg a1 ?_ a2 hd hp (fun s e s' hR hR' hP hs he => sched_step hg hR hR' hP hs he)
    fun s t _ hR' hP ht hq => sched_wait hg hx hbuf hdrop hR' hP ht hq
  rw [h0]
  refine ⟨⟨_, List.mem_append_right _ (List.mem_singleton.2 rfl), rfl⟩, .inl hin, fun r o u ho hk hu => ?_⟩
  exfalso
  obtain ⟨j', hj', _, _, h3, _⟩ := Verif.Props.Program.C78_runs c h1 s1 hr1 o (List.mem_of_getElem? ho)
  rw [requests_append, requests_append, List.append_assoc, List.map_append, List.nodup_append] at hd
  exact hd.2.2 (jobId j') (List.mem_map_of_mem hj') (jobId j) (List.mem_map_of_mem (by simp [requests])) (by rw [← h3, hk])

end Verif.Program
