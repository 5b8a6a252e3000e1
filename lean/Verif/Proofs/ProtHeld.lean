import Verif.Proofs.ProtStage

/-! What holds of the data of a run in each of its stages, up to the stage in which it is abandoned. -/
namespace Verif.Prot
open Verif.Spec.Prot
variable {D A U : Type}

/-- `J n` holds of the data in stage `n`; a step that gives up may leave what held in the stage before. Processors are given messages that satisfy `W`. -/
structure Held (c : Conf D A U) (J : Int → U → Prop) (W : Message D → Prop) : Prop where
  skip : ∀ n s, c.stage? (n + 1) = some s → s.step = none → ∀ u, J n u → J (n + 1) u
  step : ∀ n s f, c.stage? (n + 1) = some s → s.step = some f → ∀ u u' as, J n u → f u = .ok (u', as) → J (n + 1) u' ∨ (J n u' ∧ GivesUp as)
  proc : ∀ n s f, c.stage? n = some s → s.proc = some f → ∀ m a, W m → 0 ≤ m.sender → m.sender < c.members → s.unmarshal m.dto = .ok a →
    s.senderValid a m.sender = .ok true → ∀ u u' as, J n u → f u a = .ok (u', as) → J n u'

/-- In a stage that was reached before the run was abandoned. -/
def UpTo (J : Int → U → Prop) (r : Run D A U) : Prop := ∃ n ≤ r.state, J n r.user ∧ (r.abandon = true ∨ n = r.state)

section
variable {c : Conf D A U} {J : Int → U → Prop} {W : Message D → Prop}

theorem held_processMsg (k : Held c J W) {r r' : Run D A U} {m : Message D} (hj : UpTo J r) (hm : m.op = r.state) (hw : W m)
    (h : processMsg c r m = .ok r') : UpTo J r' ∧ r'.state = r.state ∧ r'.rcvbuf = r.rcvbuf := by
  have same : ∀ {l : List (Entry D A)}, (Outcome.ok { r with log := l } : Outcome (Run D A U)) = .ok r' →
      UpTo J r' ∧ r'.state = r.state ∧ r'.rcvbuf = r.rcvbuf := by
    intro l e
    rw [← Outcome.ok.inj e]
    exact ⟨hj, rfl, rfl⟩
  rw [processMsg] at h
  dsimp only at h
  by_cases ha : r.abandon = true
  · rw [if_pos ha] at h; exact same h
  rw [if_neg ha, hm] at h
  obtain ⟨n, _, hJ, hn⟩ := hj
  have hn := hn.resolve_left ha
  subst hn
  cases hs : c.stage? r.state with
  | none => rw [hs] at h; cases h
  | some s =>
  rw [hs] at h
  dsimp only at h
  cases hpr : s.proc with
  | none => rw [hpr] at h; exact same h
  | some proc =>
  rw [hpr] at h
  dsimp only at h
  by_cases ht : (!s.typeOk m.dto) = true
  · rw [if_pos ht] at h; exact same h
  rw [if_neg ht] at h
  cases hu : s.unmarshal m.dto with
  | panic => rw [hu] at h; cases h
  | err => rw [hu] at h; exact same h
  | ok a =>
  rw [hu] at h
  dsimp only at h
  by_cases hr : (!(decide (0 ≤ m.sender) && decide (m.sender < c.members))) = true
  · rw [if_pos hr] at h; exact same h
  rw [if_neg hr] at h
  simp only [Bool.not_eq_true', Bool.not_eq_false, Bool.and_eq_true, decide_eq_true_eq] at hr
  cases hv : s.senderValid a m.sender with
  | panic => rw [hv] at h; cases h
  | err => rw [hv] at h; cases h
  | ok b =>
  rw [hv] at h
  cases b with
  | false => exact same h
  | true =>
    dsimp only at h
    rw [Outcome.bind_eq_ok] at h
    obtain ⟨⟨u, as⟩, h1, h2⟩ := h
    have h1 : proc r.user a = .ok (u, as) := by
      cases hx : proc r.user a with
      | ok v => rw [hx] at h1; exact congrArg Outcome.ok (Outcome.ok.inj h1)
      | err => rw [hx] at h1; cases h1
      | panic => rw [hx] at h1; cases h1
    dsimp only at h2
    rw [← Outcome.ok.inj h2]
    obtain ⟨e1, e2, e3⟩ := doActs_user (c := c) as { r with log := (r.log ++ [.handled m]) ++ [.invoked m a], user := u }
    refine ⟨⟨r.state, by rw [e2], ?_, .inr e2.symm⟩, e2, e3⟩
    rw [e1]
    exact k.proc _ s proc hs hpr m a hw hr.1 hr.2 hu hv _ _ _ hJ h1

theorem held_processAll (k : Held c J W) (ms : List (Message D)) {r r' : Run D A U} (hms : ∀ m ∈ ms, m.op = r.state ∧ W m)
    (hj : UpTo J r) (h : processAll c r ms = .ok r') : UpTo J r' ∧ r'.state = r.state := by
  induction ms generalizing r with
  | nil => rw [processAll] at h; rw [← Outcome.ok.inj h]; exact ⟨hj, rfl⟩
  | cons m ms ih =>
    rw [processAll, Outcome.bind_eq_ok] at h
    obtain ⟨r1, h1, h2⟩ := h
    obtain ⟨g1, g2⟩ := hms m (List.mem_cons_self ..)
    obtain ⟨e1, e2, _⟩ := held_processMsg k hj g1 g2 h1
    obtain ⟨e3, e4⟩ := ih (fun x hx => by rw [e2]; exact hms x (List.mem_cons_of_mem _ hx)) e1 h2
    exact ⟨e3, e4.trans e2⟩

theorem held_callStep (k : Held c J W) {n : Int} {s : Stage D A U} (hs : c.stage? (n + 1) = some s) {q q' : Run D A U} (hst : q.state = n + 1)
    (hj : ∃ l ≤ n, J l q.user ∧ (q.abandon = true ∨ l = n)) (h : callStep c q s = .ok q') :
    UpTo J q' ∧ q'.state = n + 1 ∧ q'.rcvbuf = q.rcvbuf := by
  obtain ⟨l, hl, hJ, hn⟩ := hj
  rw [callStep] at h
  by_cases ha : q.abandon = true
  · rw [if_pos ha] at h
    rw [← Outcome.ok.inj h]
    exact ⟨⟨l, by omega, hJ, .inl ha⟩, hst, rfl⟩
  have hn := hn.resolve_left ha
  subst hn
  rw [if_neg ha] at h
  cases hf : s.step with
  | none =>
    rw [hf] at h
    rw [← Outcome.ok.inj h]
    exact ⟨⟨l + 1, by omega, k.skip _ _ hs hf _ hJ, .inr hst.symm⟩, hst, rfl⟩
  | some f =>
    rw [hf] at h
    dsimp only at h
    rw [Outcome.bind_eq_ok] at h
    obtain ⟨⟨u, as⟩, h1, h2⟩ := h
    have h1 : f q.user = .ok (u, as) := by
      cases hx : f q.user with
      | ok v => rw [hx] at h1; exact congrArg Outcome.ok (Outcome.ok.inj h1)
      | err => rw [hx] at h1; cases h1
      | panic => rw [hx] at h1; cases h1
    dsimp only at h2
    rw [← Outcome.ok.inj h2]
    obtain ⟨e1, e2, e3⟩ := doActs_user (c := c) as { q with log := q.log ++ [.stepped q.state], user := u }
    have e2' : (doActs c { q with log := q.log ++ [.stepped q.state], user := u } as).state = l + 1 := e2.trans hst
    refine ⟨?_, e2', e3⟩
    rcases k.step l s f hs hf _ _ _ hJ h1 with g | ⟨g1, g2⟩
    · exact ⟨l + 1, by rw [e2'], by rw [e1]; exact g, .inr e2'.symm⟩
    · exact ⟨l, by rw [e2']; omega, by rw [e1]; exact g1, .inl (doActs_abandon as (.inr g2))⟩

theorem held_enterStage (k : Held c J W) {r r' : Run D A U} (hj : UpTo J r)
    (hb : ∀ m ∈ (r.rcvbuf.get? (r.state + 1)).getD [], m.op = r.state + 1 ∧ W m) (h : enterStage c r = .ok r') : UpTo J r' := by
  rw [enterStage] at h
  dsimp only at h
  cases hs : c.stage? (r.state + 1) with
  | none => rw [hs] at h; cases h
  | some s =>
  rw [hs] at h
  dsimp only at h
  rw [Outcome.bind_eq_ok] at h
  obtain ⟨q, h1, h⟩ := h
  rw [Outcome.bind_eq_ok] at h
  obtain ⟨q', h2, h⟩ := h
  obtain ⟨e1, e2, e3⟩ := held_callStep k (q := flushSndBuf { r with
    state := r.state + 1, deadline := r.deadline + s.timeout, log := r.log ++ [.entered (r.state + 1)] }) hs rfl hj h1
  have e3 : q.rcvbuf = r.rcvbuf := e3
  obtain ⟨e4, e5⟩ := held_processAll k _ (by rw [e3, e2]; exact hb) e1 h2
  rw [← Outcome.ok.inj h]
  exact e4

theorem held_exec (k : Held c J W) {u : U} (hu : J (-1) u) {t0 : Int} {h : List (Ev D)} {r : Run D A U}
    (hm : ∀ m ∈ msgs h, W m) (hr : exec c (newRun D A u t0) h = .ok r) : UpTo J r := by
  induction h using List.reverseRecOn generalizing r with
  | nil => rw [exec] at hr; rw [← Outcome.ok.inj hr]; exact ⟨-1, le_refl _, hu, .inr rfl⟩
  | append_singleton h e ih =>
    obtain ⟨q, h1, h2⟩ := exec_snoc hr
    have hj := ih (fun m hx => hm m (by rw [msgs_snoc]; simp [hx])) h1
    have a := agree_exec h1
    have hb : ∀ m ∈ (q.rcvbuf.get? (q.state + 1)).getD [], m.op = q.state + 1 ∧ W m := by
      intro m hx
      rw [a.inv.core.rcv _ (by omega)] at hx
      refine ⟨early_op hx, hm m ?_⟩
      rw [msgs_snoc, ← a.received]
      exact List.mem_append_left _ (early_received hx)
    have top : loopTop c q = .ok r → UpTo J r := by
      intro h2
      rw [loopTop] at h2
      by_cases g1 : q.state < (c.stages.length : Int) - 1
      · rw [if_pos g1] at h2
        by_cases g2 : q.state > -1
        · rw [if_pos g2] at h2; rw [← Outcome.ok.inj h2]; exact hj
        · rw [if_neg g2] at h2; exact held_enterStage k hj hb h2
      · rw [if_neg g1] at h2; rw [← Outcome.ok.inj h2]; exact hj
    cases e with
    | tick t =>
      rw [step] at h2
      by_cases ht : q.now ≤ t
      · rw [if_pos ht] at h2; rw [← Outcome.ok.inj h2]; exact hj
      · rw [if_neg ht] at h2; cases h2
    | thread =>
      rw [step, thread] at h2
      cases hp : q.phase with
      | fresh => rw [hp] at h2; rw [← Outcome.ok.inj h2]; exact hj
      | started => rw [hp] at h2; exact top h2
      | staged =>
        rw [hp] at h2
        dsimp only at h2
        by_cases hd : q.deadline ≤ q.now
        · rw [if_pos hd] at h2; exact top h2
        · rw [if_neg hd] at h2; cases h2
      | pausing =>
        rw [hp] at h2
        dsimp only at h2
        by_cases hd : q.pauseEnd ≤ q.now
        · rw [if_pos hd] at h2; exact held_enterStage (r := { q with paused := false, phase := .pausing }) k hj hb h2
        · rw [if_neg hd] at h2; cases h2
      | done => rw [hp] at h2; cases h2
    | msg m =>
      rw [step, receive] at h2
      dsimp only at h2
      by_cases g1 : (m.op < q.state || (decide (m.op = q.state) && q.paused)) = true
      · rw [if_pos g1] at h2; rw [← Outcome.ok.inj h2]; exact hj
      rw [if_neg g1] at h2
      by_cases g2 : m.op > q.state
      · rw [if_pos g2] at h2; rw [← Outcome.ok.inj h2]; exact hj
      rw [if_neg g2] at h2
      simp only [Bool.or_eq_true, decide_eq_true_eq, not_or] at g1
      have hst : m.op = q.state := by omega
      exact (held_processMsg k (r := { q with log := q.log ++ [.received m] }) hj hst (hm m (by rw [msgs_snoc]; simp)) h2).1

end
end Verif.Prot
