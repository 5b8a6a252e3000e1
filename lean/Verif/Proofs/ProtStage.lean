import Verif.Proofs.ProtDoc

/-! What holds of the data of a run in each of its stages, abandoned or not. -/
namespace Verif.Prot
open Verif.Spec.Prot
variable {D A U : Type}

/-- `J n` holds of the data in stage `n`, whatever the steps and processors do. -/
structure Stays (c : Conf D A U) (J : Int → U → Prop) : Prop where
  skip : ∀ n u, J n u → J (n + 1) u
  step : ∀ n s f, c.stage? (n + 1) = some s → s.step = some f → ∀ u u' as, J n u → f u = .ok (u', as) → J (n + 1) u'
  proc : ∀ n s f, c.stage? n = some s → s.proc = some f → ∀ u a u' as, J n u → f u a = .ok (u', as) → J n u'

section
variable {c : Conf D A U} {J : Int → U → Prop}

theorem stays_processMsg (k : Stays c J) {n : Int} {r r' : Run D A U} {m : Message D} (hst : r.state = n) (hj : J n r.user) (hm : m.op = n)
    (h : processMsg c r m = .ok r') : r'.state = n ∧ J n r'.user ∧ r'.rcvbuf = r.rcvbuf := by
  have same : ∀ {l : List (Entry D A)}, (Outcome.ok { r with log := l } : Outcome (Run D A U)) = .ok r' →
      r'.state = n ∧ J n r'.user ∧ r'.rcvbuf = r.rcvbuf := by
    intro l e
    rw [← Outcome.ok.inj e]
    exact ⟨hst, hj, rfl⟩
  rw [processMsg] at h
  dsimp only at h
  by_cases ha : r.abandon = true
  · rw [if_pos ha] at h; exact same h
  rw [if_neg ha, hm] at h
  cases hs : c.stage? n with
  | none => rw [hs] at h; cases h
  | some s =>
  rw [hs] at h
  dsimp only at h
  cases hpr : s.proc with
  | none => rw [hpr] at h; exact same h
  | some proc =>
  rw [hpr] at h
  dsimp only at h
  by_cases ht : (!s.typeOk m.dto) = true
  · rw [if_pos ht] at h; exact same h
  rw [if_neg ht] at h
  cases hu : s.unmarshal m.dto with
  | panic => rw [hu] at h; cases h
  | err => rw [hu] at h; exact same h
  | ok a =>
  rw [hu] at h
  dsimp only at h
  by_cases hr : (!(decide (0 ≤ m.sender) && decide (m.sender < c.members))) = true
  · rw [if_pos hr] at h; exact same h
  rw [if_neg hr] at h
  cases hv : s.senderValid a m.sender with
  | panic => rw [hv] at h; cases h
  | err => rw [hv] at h; cases h
  | ok b =>
  rw [hv] at h
  cases b with
  | false => exact same h
  | true =>
    dsimp only at h
    rw [Outcome.bind_eq_ok] at h
    obtain ⟨⟨u, as⟩, h1, h2⟩ := h
    have h1 : proc r.user a = .ok (u, as) := by
      cases hx : proc r.user a with
      | ok v => rw [hx] at h1; exact congrArg Outcome.ok (Outcome.ok.inj h1)
      | err => rw [hx] at h1; cases h1
      | panic => rw [hx] at h1; cases h1
    dsimp only at h2
    rw [← Outcome.ok.inj h2]
    obtain ⟨e1, e2, e3⟩ := doActs_user (c := c) as { r with log := (r.log ++ [.handled m]) ++ [.invoked m a], user := u }
    exact ⟨e2.trans hst, by rw [e1]; exact k.proc n s proc hs hpr _ _ _ _ hj h1, e3⟩

theorem stays_processAll (k : Stays c J) {n : Int} (ms : List (Message D)) (hms : ∀ m ∈ ms, m.op = n) {r r' : Run D A U} (hst : r.state = n)
    (hj : J n r.user) (h : processAll c r ms = .ok r') : r'.state = n ∧ J n r'.user := by
  induction ms generalizing r with
  | nil => rw [processAll] at h; rw [← Outcome.ok.inj h]; exact ⟨hst, hj⟩
  | cons m ms ih =>
    rw [processAll, Outcome.bind_eq_ok] at h
    obtain ⟨r1, h1, h2⟩ := h
    obtain ⟨e1, e2, _⟩ := stays_processMsg k hst hj (hms m (List.mem_cons_self ..)) h1
    exact ih (fun x hx => hms x (List.mem_cons_of_mem _ hx)) e1 e2 h2

theorem stays_callStep (k : Stays c J) {n : Int} {s : Stage D A U} (hs : c.stage? (n + 1) = some s) {q q' : Run D A U} (hst : q.state = n + 1)
    (hj : J n q.user) (h : callStep c q s = .ok q') : q'.state = n + 1 ∧ J (n + 1) q'.user ∧ q'.rcvbuf = q.rcvbuf := by
  rw [callStep] at h
  by_cases ha : q.abandon = true
  · rw [if_pos ha] at h
    rw [← Outcome.ok.inj h]
    exact ⟨hst, k.skip _ _ hj, rfl⟩
  rw [if_neg ha] at h
  cases hf : s.step with
  | none =>
    rw [hf] at h
    rw [← Outcome.ok.inj h]
    exact ⟨hst, k.skip _ _ hj, rfl⟩
  | some f =>
    rw [hf] at h
    dsimp only at h
    rw [Outcome.bind_eq_ok] at h
    obtain ⟨⟨u, as⟩, h1, h2⟩ := h
    have h1 : f q.user = .ok (u, as) := by
      cases hx : f q.user with
      | ok v => rw [hx] at h1; exact congrArg Outcome.ok (Outcome.ok.inj h1)
      | err => rw [hx] at h1; cases h1
      | panic => rw [hx] at h1; cases h1
    dsimp only at h2
    rw [← Outcome.ok.inj h2]
    obtain ⟨e1, e2, e3⟩ := doActs_user (c := c) as { q with log := q.log ++ [.stepped q.state], user := u }
    exact ⟨e2.trans hst, by rw [e1]; exact k.step n s f hs hf _ _ _ hj h1, e3⟩

theorem stays_enterStage (k : Stays c J) {r r' : Run D A U} (hj : J r.state r.user)
    (hb : ∀ m ∈ (r.rcvbuf.get? (r.state + 1)).getD [], m.op = r.state + 1) (h : enterStage c r = .ok r') :
    J r'.state r'.user ∧ r'.state = r.state + 1 := by
  rw [enterStage] at h
  dsimp only at h
  cases hs : c.stage? (r.state + 1) with
  | none => rw [hs] at h; cases h
  | some s =>
  rw [hs] at h
  dsimp only at h
  rw [Outcome.bind_eq_ok] at h
  obtain ⟨q, h1, h⟩ := h
  rw [Outcome.bind_eq_ok] at h
  obtain ⟨q', h2, h⟩ := h
  obtain ⟨e1, e2, e3⟩ := stays_callStep k (q := flushSndBuf { r with
    state := r.state + 1, deadline := r.deadline + s.timeout, log := r.log ++ [.entered (r.state + 1)] }) hs rfl hj h1
  have e3 : q.rcvbuf = r.rcvbuf := e3
  obtain ⟨e4, e5⟩ := stays_processAll k _ (by rw [e3]; exact hb) e1 e2 h2
  rw [← Outcome.ok.inj h]
  dsimp only
  rw [e4]
  exact ⟨e5, rfl⟩

theorem stays_step (k : Stays c J) {q r : Run D A U} {e : Ev D} (a : Inv c q) (hj : J q.state q.user) (h2 : step c q e = .ok r) :
    J r.state r.user ∧ (r.state = q.state ∨ r.state = q.state + 1) := by
  have hb : ∀ m ∈ (q.rcvbuf.get? (q.state + 1)).getD [], m.op = q.state + 1 := by
    intro m hx
    rw [a.core.rcv _ (by omega)] at hx
    exact early_op hx
  have top : loopTop c q = .ok r → J r.state r.user ∧ (r.state = q.state ∨ r.state = q.state + 1) := by
    intro h2
    rw [loopTop] at h2
    by_cases g1 : q.state < (c.stages.length : Int) - 1
    · rw [if_pos g1] at h2
      by_cases g2 : q.state > -1
      · rw [if_pos g2] at h2; rw [← Outcome.ok.inj h2]; exact ⟨hj, .inl rfl⟩
      · rw [if_neg g2] at h2; exact (stays_enterStage k hj hb h2).imp id .inr
    · rw [if_neg g1] at h2; rw [← Outcome.ok.inj h2]; exact ⟨hj, .inl rfl⟩
  cases e with
  | tick t =>
    rw [step] at h2
    by_cases ht : q.now ≤ t
    · rw [if_pos ht] at h2; rw [← Outcome.ok.inj h2]; exact ⟨hj, .inl rfl⟩
    · rw [if_neg ht] at h2; cases h2
  | thread =>
    rw [step, thread] at h2
    cases hp : q.phase with
    | fresh => rw [hp] at h2; rw [← Outcome.ok.inj h2]; exact ⟨hj, .inl rfl⟩
    | started => rw [hp] at h2; exact top h2
    | staged =>
      rw [hp] at h2
      dsimp only at h2
      by_cases hd : q.deadline ≤ q.now
      · rw [if_pos hd] at h2; exact top h2
      · rw [if_neg hd] at h2; cases h2
    | pausing =>
      rw [hp] at h2
      dsimp only at h2
      by_cases hd : q.pauseEnd ≤ q.now
      · rw [if_pos hd] at h2; exact (stays_enterStage (r := { q with paused := false, phase := .pausing }) k hj hb h2).imp id .inr
      · rw [if_neg hd] at h2; cases h2
    | done => rw [hp] at h2; cases h2
  | msg m =>
    rw [step, receive] at h2
    dsimp only at h2
    by_cases g1 : (m.op < q.state || (decide (m.op = q.state) && q.paused)) = true
    · rw [if_pos g1] at h2; rw [← Outcome.ok.inj h2]; exact ⟨hj, .inl rfl⟩
    rw [if_neg g1] at h2
    by_cases g2 : m.op > q.state
    · rw [if_pos g2] at h2; rw [← Outcome.ok.inj h2]; exact ⟨hj, .inl rfl⟩
    rw [if_neg g2] at h2
    simp only [Bool.or_eq_true, decide_eq_true_eq, not_or] at g1
    have hst : m.op = q.state := by omega
    obtain ⟨e1, e2, _⟩ := stays_processMsg k (r := { q with log := q.log ++ [.received m] }) (n := q.state) rfl hj hst h2
    rw [e1]; exact ⟨e2, .inl rfl⟩

theorem stays_exec (k : Stays c J) {u : U} (hu : J (-1) u) {t0 : Int} {h : List (Ev D)} {r : Run D A U}
    (hr : exec c (newRun D A u t0) h = .ok r) : J r.state r.user := by
  induction h using List.reverseRecOn generalizing r with
  | nil => rw [exec] at hr; rw [← Outcome.ok.inj hr]; exact hu
  | append_singleton h e ih =>
    obtain ⟨q, h1, h2⟩ := exec_snoc hr
    exact (stays_step k (agree_exec h1).inv (ih h1) h2).1


end
end Verif.Prot

namespace Verif.Dkg
open Verif.Prot Verif.Dto Verif.Dss Verif.Props
variable {K : Type} {y : Kyb K}

/-- The data after the last stage of the key generation. -/
def Final (y : Kyb K) (u : Data K) : Prop :=
  u.out = [] ∨ ∃ share q, u.out = [.key share q] ∧ y.finished u.kyb = true ∧ y.distKeyShare u.kyb = .ok share ∧ u.qual = some q

/-- The processors of the key generation leave the outputs alone. -/
theorem dkg_proc_out (s : Stage Dto Obj (Data K)) (hs : s ∈ dkgStages y)
    (f : Data K → Obj → Outcome (Data K × List (Act Dto))) (hf : s.proc = some f) (u : Data K) (a : Obj) (u' : Data K)
    (as : List (Act Dto)) (e : f u a = .ok (u', as)) : u'.out = u.out :=
  dss_proc_out (y := y) (H := fun _ => []) (SH := fun _ => []) ⟨0, [], 0, none, none, 0⟩ s (List.mem_append_left _ hs) f hf u a u' as e

/-- The stages before the last one have no outputs. -/
theorem dkg_step_out {i : Nat} (hi : i < 8) {s : Stage Dto Obj (Data K)} (hs : (dkgStages y)[i]? = some s)
    {f : Data K → Outcome (Data K × List (Act Dto))} (hf : s.step = some f) {u u' : Data K} {as : List (Act Dto)}
    (e : f u = .ok (u', as)) : u'.out = u.out := by
  have h0 : i = 0 ∨ i = 1 ∨ i = 2 ∨ i = 3 ∨ i = 4 ∨ i = 5 ∨ i = 6 ∨ i = 7 := by omega
  rcases h0 with rfl | rfl | rfl | rfl | rfl | rfl | rfl | rfl
  all_goals have hs := Option.some.inj hs
  all_goals subst hs
  · have hf := Option.some.inj hf
    subst hf
    rw [← (Prod.mk.inj (Outcome.ok.inj e)).1]
  · have hf := Option.some.inj hf
    subst hf
    rw [stepDeal] at e
    cases hd : (y.deals u.kyb).2 with
    | panic => rw [hd] at e; cases e
    | err => rw [hd] at e; rw [← (Prod.mk.inj (Outcome.ok.inj e)).1]
    | ok ds =>
      rw [hd] at e
      dsimp only at e
      rw [Outcome.bind_eq_ok] at e
      obtain ⟨as', _, e⟩ := e
      rw [← (Prod.mk.inj (Outcome.ok.inj e)).1]
  · cases hf
  · cases hf
  · have hf := Option.some.inj hf
    subst hf
    rw [← (Prod.mk.inj (Outcome.ok.inj e)).1]
  · have hf := Option.some.inj hf
    subst hf
    rw [stepCommits] at e
    cases hq : u.qual with
    | none => rw [hq] at e; cases e
    | some q =>
      rw [hq] at e
      dsimp only at e
      by_cases hc : (!y.certified u.kyb) = true
      · rw [if_pos hc] at e; rw [← (Prod.mk.inj (Outcome.ok.inj e)).1]
      · rw [if_neg hc] at e
        cases hd : (y.secretCommits u.kyb).2 with
        | panic => rw [hd] at e; cases e
        | err => rw [hd] at e; rw [← (Prod.mk.inj (Outcome.ok.inj e)).1]
        | ok ds =>
          rw [hd] at e
          dsimp only at e
          rw [Outcome.bind_eq_ok] at e
          obtain ⟨as', _, e⟩ := e
          rw [← (Prod.mk.inj (Outcome.ok.inj e)).1]
  · cases hf
  · cases hf

/-- There is no output before the last stage. -/
theorem dkg_stays (id : String) (self : Int) (n : Nat) :
    Stays (dkgConf y id self n) (fun k u => (k < 8 → u.out = []) ∧ Final y u) := by
  have hstage : ∀ k s, (dkgConf y id self n).stage? k = some s → 0 ≤ k ∧ (dkgStages y)[k.toNat]? = some s := by
    intro k s hs
    rw [Conf.stage?] at hs
    by_cases h0 : k < 0
    · rw [if_pos h0] at hs; cases hs
    · rw [if_neg h0] at hs; exact ⟨by omega, hs⟩
  have hlast : ∀ k s, (dkgConf y id self n).stage? k = some s → ¬ k < 8 → s = psStep (stepFinal y) := by
    intro k s hs hk
    obtain ⟨h0, hs⟩ := hstage _ s hs
    have : k.toNat = 8 := by
      obtain ⟨h1, _⟩ := List.getElem?_eq_some_iff.1 hs
      have : (dkgStages y).length = 9 := rfl
      omega
    rw [this] at hs
    exact (Option.some.inj hs).symm
  refine ⟨fun k u h => ⟨fun hk => h.1 (by omega), h.2⟩, fun k s f hs hf u u' as h e => ?_, fun k s f hs hf u a u' as h e => ?_⟩
  · by_cases hk : k + 1 < 8
    · obtain ⟨h0, hs⟩ := hstage _ s hs
      have : u'.out = [] := (dkg_step_out (by omega) hs hf e).trans (h.1 (by omega))
      exact ⟨fun _ => this, .inl this⟩
    · refine ⟨fun x => absurd x hk, ?_⟩
      have hs' := hlast _ s hs hk
      obtain ⟨h0, hs⟩ := hstage _ s hs
      have hk8 : k + 1 = 8 := by
        obtain ⟨h1, _⟩ := List.getElem?_eq_some_iff.1 hs
        have : (dkgStages y).length = 9 := rfl
        omega
      have hout : u.out = [] := h.1 (by omega)
      subst hs'
      have hf := Option.some.inj hf
      subst hf
      rw [stepFinal] at e
      by_cases hfin : y.finished u.kyb = true
      · rw [if_pos hfin] at e
        cases hd : y.distKeyShare u.kyb with
        | panic => rw [hd] at e; cases e
        | err => rw [hd] at e; rw [← (Prod.mk.inj (Outcome.ok.inj e)).1]; exact .inl hout
        | ok share =>
          rw [hd] at e
          dsimp only at e
          cases hq : u.qual with
          | none => rw [hq] at e; cases e
          | some q =>
            rw [hq] at e
            rw [← (Prod.mk.inj (Outcome.ok.inj e)).1]
            exact .inr ⟨share, q, by dsimp only; rw [hout]; rfl, hfin, hd, rfl⟩
      · rw [if_neg hfin] at e
        rw [← (Prod.mk.inj (Outcome.ok.inj e)).1]
        exact .inl hout
  · by_cases hk : k < 8
    · obtain ⟨h0, hs⟩ := hstage _ s hs
      have : u'.out = [] := (dkg_proc_out s (List.mem_of_getElem? hs) f hf u a u' as e).trans (h.1 hk)
      exact ⟨fun _ => this, .inl this⟩
    · rw [hlast _ s hs hk] at hf
      cases hf

/-- What a run of the key generation has for output. -/
theorem dkg_final {id : String} {self : Int} {n : Nat} {k : K} {t0 : Int} {h : List (Prot.Ev Dto)} {u : Run Dto Obj (Data K)}
    (hr : exec (dkgConf y id self n) (newRun Dto Obj (newData k) t0) h = .ok u) : Final y u.user :=
  (stays_exec (dkg_stays id self n) ⟨fun _ => rfl, .inl rfl⟩ hr).2

/-- A run of the key generation only adds outputs. -/
theorem dkg_out_prefix {id : String} {self : Int} {n : Nat} {r r' : Run Dto Obj (Data K)} {es : List (Prot.Ev Dto)}
    (h : exec (dkgConf y id self n) r es = .ok r') : r.user.out <+: r'.user.out := by
  have k0 : Keeps (dkgConf y id self n) (fun u : Data K => r.user.out <+: u.out) DkgTable :=
    dkg_keeps id self n (outFree _ fun l x h => h.trans (List.prefix_append l [x]))
  have ht : ∀ a : Act Dto, ActOk (fun _ _ => True) a := fun a => by cases a <;> trivial
  have k : Keeps (dkgConf y id self n) (fun u : Data K => r.user.out <+: u.out) (fun _ _ => True) :=
    ⟨fun s hs f hf u u' as hu e => ⟨(k0.1 s hs f hf u u' as hu e).1, fun a _ => ht a⟩,
      fun s hs f hf u a u' as hu e d hd => ⟨(k0.2 s hs f hf u a u' as hu e d hd).1, fun a _ => ht a⟩⟩
  have key : ∀ (es : List (Prot.Ev Dto)) (r1 : Run Dto Obj (Data K)), r.user.out <+: r1.user.out →
      exec (dkgConf y id self n) r1 es = .ok r' → r.user.out <+: r'.user.out := by
    intro es
    induction es with
    | nil => intro r1 h1 h; rw [exec] at h; rw [← Outcome.ok.inj h]; exact h1
    | cons e es ih =>
      intro r1 h1 h
      rw [exec, Outcome.bind_eq_ok] at h
      obtain ⟨r2, h2, h⟩ := h
      exact ih r2 (track_step k ⟨h1, fun _ _ => trivial⟩ h2).user h
  exact key es r (List.prefix_refl _) h

/-- A message leaves the outputs alone. -/
theorem dkg_msg_out {id : String} {self : Int} {n : Nat} {r r' : Run Dto Obj (Data K)} {t : Int} {m : Message Dto}
    (h : exec (dkgConf y id self n) r [.tick t, .msg m] = .ok r') : r'.user.out = r.user.out :=
  track_msg (P := fun u => u.out = r.user.out)
    (fun s hs f hf u a u' as hu e => (dkg_proc_out s hs f hf u a u' as e).trans hu) rfl h

end Verif.Dkg
