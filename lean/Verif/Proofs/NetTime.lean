import Verif.Spec.NetTime

/-! Lemmas about outgoing messages and time. -/
namespace Verif.NetTime
open Verif.NetCaller (CPc Pc Connector)
variable {M : Type}

section inversion
variable {b b' : NetCaller.St M}

theorem inv_spawn {r : Int} (h : NetCaller.step b (.spawn r) = .ok b') : b.pc = .spawn ∧ b' = { b with connectors := b.connectors ++ [.start r], pc := .wait } := by
  rw [NetCaller.step] at h
  split at h
  · next h1 => exact ⟨h1, (Outcome.ok.inj h).symm⟩
  · cases h

theorem inv_recv {i : Nat} (h : NetCaller.step b (.recv i) = .ok b') : ∃ c x, b.connectors[i]? = some c ∧ c.offer = some x ∧ b.pc = .wait ∧
    b' = { b with connectors := b.connectors.set i c.taken, client := x, pc := if x = none then .top else .first } := by
  rw [NetCaller.step] at h
  split at h
  · cases h
  · next c hc =>
    split at h
    · cases h
    · next x hx =>
      split at h
      · next h1 => exact ⟨c, x, hc, hx, h1, (Outcome.ok.inj h).symm⟩
      · cases h

theorem inv_selConn {i : Nat} (h : NetCaller.step b (.selConn i) = .ok b') : ∃ c x, b.connectors[i]? = some c ∧ c.offer = some x ∧ b.pc = .select ∧
    b' = { b with connectors := b.connectors.set i c.taken, client := x, failed := false, pc := .call } := by
  rw [NetCaller.step] at h
  split at h
  · cases h
  · next c hc =>
    split at h
    · cases h
    · next x hx =>
      split at h
      · next h1 => exact ⟨c, x, hc, hx, h1, (Outcome.ok.inj h).symm⟩
      · cases h

theorem inv_selDrop (h : NetCaller.step b .selDrop = .ok b') : b.pc = .select ∧ b' = { b with pc := .top } := by
  rw [NetCaller.step] at h
  split at h
  · next h1 => exact ⟨h1.1, (Outcome.ok.inj h).symm⟩
  · cases h

theorem inv_call {ok : Bool} (h : NetCaller.step b (.call ok) = .ok b') : b.pc = .call ∧ ∃ c m, b.client = some c ∧ b.msg = some m ∧
    b' = { b with calls := b.calls ++ [(c, m, ok)], failed := !ok, pc := .post } := by
  rw [NetCaller.step] at h
  split at h
  · next h1 =>
    split at h
    · next c m h2 h3 => exact ⟨h1, c, m, h2, h3, (Outcome.ok.inj h).symm⟩
    · cases h
    · cases h
  · cases h

theorem inv_closing (h : NetCaller.step b .closing = .ok b') : b.pc = .fail ∧ b' = { b with pushedBack := true, pc := .spawn } := by
  rw [NetCaller.step] at h
  split at h
  · next h1 => exact ⟨h1, (Outcome.ok.inj h).symm⟩
  · cases h

theorem inv_tried {i : Nat} {r : Option Nat} (h : NetCaller.step b (.tried i r) = .ok b') : ∃ c c', b.connectors[i]? = some c ∧ c.tried r = .ok c' ∧
    b' = { b with connectors := b.connectors.set i c' } := by
  rw [NetCaller.step] at h
  split at h
  · cases h
  · next c hc =>
    rw [Outcome.bind_eq_ok] at h
    obtain ⟨c', h1, h2⟩ := h
    exact ⟨c, c', hc, h1, (Outcome.ok.inj h2).symm⟩

theorem inv_sleep {i : Nat} (h : NetCaller.step b (.sleep i) = .ok b') : ∃ c c', b.connectors[i]? = some c ∧ c.sleep = .ok c' ∧
    b' = { b with connectors := b.connectors.set i c' } := by
  rw [NetCaller.step] at h
  split at h
  · cases h
  · next c hc =>
    rw [Outcome.bind_eq_ok] at h
    obtain ⟨c', h1, h2⟩ := h
    exact ⟨c, c', hc, h1, (Outcome.ok.inj h2).symm⟩

/-- What getting a message changes, and how the consumer goes on. -/
theorem inv_get (h : NetCaller.step b .get = .ok b') : b'.connectors = b.connectors ∧ b'.calls = b.calls ∧ b'.client = b.client ∧
    b'.accepted = b.accepted ∧ b'.offered = b.offered ∧
    ((b.pc = .top ∧ b'.pc = .select) ∨ (b.pc = .first ∧ b'.pc = .call ∧ b'.failed = false) ∨
      (b.pc = .post ∧ b'.failed = b.failed ∧ b'.pushedBack = b.pushedBack ∧ b'.pc = if b.failed then .fail else .call)) ∧
    ((b.pushedBack = true ∧ b'.pushedBack = false ∧ b'.msg = b.msg ∧ b'.queue = b.queue ∧ b.pc ≠ .post) ∨
      ∃ m ms, b.queue = m :: ms ∧ b'.queue = ms ∧ b'.msg = some m ∧ b'.pushedBack = b.pushedBack) := by
  rw [NetCaller.step] at h
  unfold NetCaller.getMsg at h
  split at h
  · next h1 =>
    split at h
    · next h2 => obtain rfl := Outcome.ok.inj h; exact ⟨rfl, rfl, rfl, rfl, rfl, .inl ⟨h1, rfl⟩, .inl ⟨h2, rfl, rfl, rfl, by rw [h1]; exact nofun⟩⟩
    · split at h
      · cases h
      · next m ms h2 => obtain rfl := Outcome.ok.inj h; exact ⟨rfl, rfl, rfl, rfl, rfl, .inl ⟨h1, rfl⟩, .inr ⟨m, ms, h2, rfl, rfl, rfl⟩⟩
  · split at h
    · next h1 =>
      dsimp only at h
      split at h
      · next h2 => obtain rfl := Outcome.ok.inj h; exact ⟨rfl, rfl, rfl, rfl, rfl, .inr (.inl ⟨h1, rfl, rfl⟩), .inl ⟨h2, rfl, rfl, rfl, by rw [h1]; exact nofun⟩⟩
      · split at h
        · cases h
        · next m ms h2 => obtain rfl := Outcome.ok.inj h; exact ⟨rfl, rfl, rfl, rfl, rfl, .inr (.inl ⟨h1, rfl, rfl⟩), .inr ⟨m, ms, h2, rfl, rfl, rfl⟩⟩
    · split at h
      · next h1 =>
        split at h
        · cases h
        · next m ms h2 => obtain rfl := Outcome.ok.inj h; exact ⟨rfl, rfl, rfl, rfl, rfl, .inr (.inr ⟨h1, rfl, rfl, rfl⟩), .inr ⟨m, ms, h2, rfl, rfl, rfl⟩⟩
      · cases h

end inversion

theorem inv_untimed {s s' : St M} {e : NetCaller.Ev M} (h : untimed s e = .ok s') : ∃ b, NetCaller.step s.base e = .ok b ∧
    s' = { s with base := b, since := if b.pc = .call ∧ s.base.pc ≠ .call then s.now else s.since } := by
  rw [untimed, Outcome.bind_eq_ok] at h
  obtain ⟨b, h1, h2⟩ := h
  exact ⟨b, h1, (Outcome.ok.inj h2).symm⟩

theorem isRetry_iff {d : Int} : isRetry d = true ↔ 100 ≤ d ∧ d < 1000 := by
  rw [isRetry, Bool.and_eq_true, decide_eq_true_eq, decide_eq_true_eq]

/-- One step, by the parts of the state that change. -/
inductive Move (s s' : St M) : Ev M → Prop where
  | tick (t) : s.now < t → s' = { s with now := t } → Move s s' (.tick t)
  | send (m) : s' = { s with base := NetCaller.trySend s.base m } → Move s s' (.send m)
  | spawn (retry delay : Int) : 100 ≤ delay → s.wake ≤ s.now → s.base.pc = .spawn →
      s' = { s with base := { s.base with connectors := s.base.connectors ++ [.start retry], pc := .wait },
                    tries := s.tries ++ [⟨0, delay, .asleep (s.now + 2000)⟩] } → Move s s' (.spawn retry delay)
  | dial (i n : Nat) (delay till : Int) (c : Connector) : s.tries[i]? = some ⟨n, delay, .asleep till⟩ → s.base.connectors[i]? = some c → c.pc = .trying →
      till ≤ s.now → s' = { s with tries := s.tries.set i ⟨n, delay, .dialling s.now⟩ } → Move s s' (.dial i)
  | refused (i n : Nat) (delay since : Int) : s.tries[i]? = some ⟨n, delay, .dialling since⟩ → n + 1 < 5 →
      s' = { s with tries := s.tries.set i ⟨n + 1, delay, .asleep (s.now + delay)⟩ } → Move s s' (.dialled i none)
  | tried (i n : Nat) (delay since : Int) (r : Option Nat) (c c' : Connector) : s.tries[i]? = some ⟨n, delay, .dialling since⟩ →
      (r = none → 5 ≤ n + 1) → s.base.connectors[i]? = some c → c.tried r = .ok c' →
      s' = { s with base := { s.base with connectors := s.base.connectors.set i c' }, tries := s.tries.set i ⟨n + 1, delay, .idle⟩ } → Move s s' (.dialled i r)
  | rest (i n : Nat) (delay : Int) (c : Connector) : s.tries[i]? = some ⟨n, delay, .idle⟩ → s.base.connectors[i]? = some c → c.pc = .resting →
      s' = { s with tries := s.tries.set i ⟨n, delay, .asleep (s.now + c.d)⟩ } → Move s s' (.rest i)
  | again (i : Nat) (delay : Int) (y : Try) (till : Int) (c c' : Connector) : 100 ≤ delay → s.tries[i]? = some y → y.timer = .asleep till → till ≤ s.now →
      s.base.connectors[i]? = some c → c.sleep = .ok c' →
      s' = { s with base := { s.base with connectors := s.base.connectors.set i c' }, tries := s.tries.set i ⟨0, delay, .asleep (s.now + 2000)⟩ } →
      Move s s' (.again i delay)
  | recv (i : Nat) (c : Connector) (x : Option Nat) : s.base.connectors[i]? = some c → c.offer = some x → s.base.pc = .wait →
      s' = { s with base := { s.base with connectors := s.base.connectors.set i c.taken, client := x, pc := if x = none then .top else .first } } →
      Move s s' (.recv i)
  | get (b : NetCaller.St M) : NetCaller.step s.base .get = .ok b →
      s' = { s with base := b, since := if b.pc = .call ∧ s.base.pc ≠ .call then s.now else s.since } → Move s s' .get
  | selConn (i : Nat) (c : Connector) (x : Option Nat) : s.base.connectors[i]? = some c → c.offer = some x → s.base.pc = .select →
      s' = { s with base := { s.base with connectors := s.base.connectors.set i c.taken, client := x, failed := false, pc := .call }, since := s.now } →
      Move s s' (.selConn i)
  | selDrop : s.base.pc = .select → s' = { s with base := { s.base with pc := .top } } → Move s s' .selDrop
  | call (ok : Bool) (c : Nat) (m : M) : s.base.pc = .call → s.base.client = some c → s.base.msg = some m →
      s' = { s with base := { s.base with calls := s.base.calls ++ [(c, m, ok)], failed := !ok, pc := .post } } → Move s s' (.call ok)
  | closing (retry : Int) : 100 ≤ retry → s.base.pc = .fail →
      s' = { s with base := { s.base with pushedBack := true, pc := .spawn }, wake := s.now + retry } → Move s s' (.closing retry)

theorem trySend_pc (b : NetCaller.St M) (m : M) : (NetCaller.trySend b m).pc = b.pc := by
  unfold NetCaller.trySend; split <;> rfl

theorem move_of_step {s s' : St M} {e : Ev M} (h : step s e = .ok s') : Move s s' e := by
  cases e with
  | tick t =>
    rw [step] at h
    split at h
    · next h1 => exact .tick t h1 (Outcome.ok.inj h).symm
    · cases h
  | send m =>
    obtain ⟨b, h1, rfl⟩ := inv_untimed h
    obtain rfl := Outcome.ok.inj h1
    refine .send m ?_
    rw [trySend_pc, if_neg (fun h => h.2 h.1)]
  | spawn retry delay =>
    rw [step] at h
    split at h
    · next h1 =>
      rw [Bool.and_eq_true, Bool.and_eq_true, decide_eq_true_eq, isRetry_iff, isRetry_iff] at h1
      rw [Outcome.bind_eq_ok] at h
      obtain ⟨b, h2, h3⟩ := h
      obtain ⟨h4, rfl⟩ := inv_spawn h2
      exact .spawn retry delay h1.1.2.1 h1.2 h4 (Outcome.ok.inj h3).symm
    · cases h
  | dial i =>
    rw [step] at h
    split at h
    · next n delay till h1 =>
      split at h
      · next c h2 =>
        split at h
        · next h3 => exact .dial i n delay till c h1 h2 h3.1 h3.2 (Outcome.ok.inj h).symm
        · cases h
      · cases h
    · cases h
  | dialled i r =>
    rw [step] at h
    split at h
    · next n delay since h1 =>
      split at h
      · next h2 =>
        obtain ⟨rfl, h2⟩ := h2
        exact .refused i n delay since h1 h2 (Outcome.ok.inj h).symm
      · next h2 =>
        rw [Outcome.bind_eq_ok] at h
        obtain ⟨b, h3, h4⟩ := h
        obtain ⟨c, c', h5, h6, rfl⟩ := inv_tried h3
        refine .tried i n delay since r c c' h1 (fun hr => ?_) h5 h6 (Outcome.ok.inj h4).symm
        exact Nat.le_of_not_lt fun hlt => h2 ⟨hr, hlt⟩
    · cases h
  | rest i =>
    rw [step] at h
    split at h
    · next n delay h1 =>
      split at h
      · next c h2 =>
        split at h
        · next h3 => exact .rest i n delay c h1 h2 h3 (Outcome.ok.inj h).symm
        · cases h
      · cases h
    · cases h
  | again i delay =>
    rw [step] at h
    split at h
    · next n d till h1 =>
      split at h
      · next h2 =>
        rw [Bool.and_eq_true, decide_eq_true_eq, isRetry_iff] at h2
        rw [Outcome.bind_eq_ok] at h
        obtain ⟨b, h3, h4⟩ := h
        obtain ⟨c, c', h5, h6, rfl⟩ := inv_sleep h3
        exact .again i delay _ till c c' h2.1.1 h1 rfl h2.2 h5 h6 (Outcome.ok.inj h4).symm
      · cases h
    · cases h
  | recv i =>
    obtain ⟨b, h1, rfl⟩ := inv_untimed h
    obtain ⟨c, x, h2, h3, h4, rfl⟩ := inv_recv h1
    refine .recv i c x h2 h3 h4 ?_
    have : ¬ ((if x = none then Pc.top else Pc.first) = .call ∧ s.base.pc ≠ .call) := by
      rintro ⟨h5, _⟩
      split at h5 <;> cases h5
    dsimp only
    rw [if_neg this]
  | get =>
    obtain ⟨b, h1, rfl⟩ := inv_untimed h
    exact .get b h1 rfl
  | selConn i =>
    obtain ⟨b, h1, rfl⟩ := inv_untimed h
    obtain ⟨c, x, h2, h3, h4, rfl⟩ := inv_selConn h1
    refine .selConn i c x h2 h3 h4 ?_
    dsimp only
    rw [if_pos ⟨rfl, by rw [h4]; exact nofun⟩]
  | selDrop =>
    obtain ⟨b, h1, rfl⟩ := inv_untimed h
    obtain ⟨h4, rfl⟩ := inv_selDrop h1
    refine .selDrop h4 ?_
    dsimp only
    rw [if_neg (by rintro ⟨h5, _⟩; cases h5)]
  | call ok =>
    obtain ⟨b, h1, rfl⟩ := inv_untimed h
    obtain ⟨h4, c, m, h5, h6, rfl⟩ := inv_call h1
    refine .call ok c m h4 h5 h6 ?_
    dsimp only
    rw [if_neg (by rintro ⟨h5, _⟩; cases h5)]
  | closing retry =>
    rw [step] at h
    split at h
    · next h1 =>
      rw [Outcome.bind_eq_ok] at h
      obtain ⟨b, h2, h3⟩ := h
      obtain ⟨h4, rfl⟩ := inv_closing h2
      exact .closing retry (isRetry_iff.1 h1).1 h4 (Outcome.ok.inj h3).symm
    · cases h

theorem run_append {s : St M} {h1 h2 : List (Ev M)} : run s (h1 ++ h2) = run s h1 >>= fun s' => run s' h2 := by
  induction h1 generalizing s with
  | nil => rfl
  | cons e h ih =>
    rw [List.cons_append, run, run]
    cases step s e with
    | ok s' => exact ih
    | err => rfl
    | panic => rfl

/-- What holds at the beginning and is kept by each step holds in the end. -/
theorem run_induct {P : St M → Prop} {s s' : St M} {h : List (Ev M)} (h0 : P s) (hs : ∀ s s' e, e ∈ h → P s → step s e = .ok s' → P s')
    (hr : run s h = .ok s') : P s' := by
  induction h generalizing s with
  | nil => cases hr; exact h0
  | cons e h ih =>
    rw [run, Outcome.bind_eq_ok] at hr
    obtain ⟨s1, h1, h2⟩ := hr
    exact ih (hs _ _ _ (List.mem_cons_self ..) h0 h1) (fun a b x hx => hs a b x (List.mem_cons_of_mem _ hx)) h2

/-- A step is one of the untimed model, or nothing there. -/
theorem step_base {s s' : St M} {e : Ev M} (h : step s e = .ok s') : s'.base = s.base ∧ Spec.NetTime.sends [e] = [] ∨
    ∃ e0, NetCaller.step s.base e0 = .ok s'.base ∧ (e0 = .selDrop → e = .selDrop) ∧ Spec.NetCaller.sends [e0] = Spec.NetTime.sends [e] := by
  cases e with
  | tick t => 
    rw [step] at h
    split at h
    · cases h; exact .inl ⟨rfl, rfl⟩
    · cases h
  | send m => obtain ⟨b, h1, rfl⟩ := inv_untimed h; exact .inr ⟨_, h1, nofun, rfl⟩
  | recv i => obtain ⟨b, h1, rfl⟩ := inv_untimed h; exact .inr ⟨_, h1, nofun, rfl⟩
  | get => obtain ⟨b, h1, rfl⟩ := inv_untimed h; exact .inr ⟨_, h1, nofun, rfl⟩
  | selConn i => obtain ⟨b, h1, rfl⟩ := inv_untimed h; exact .inr ⟨_, h1, nofun, rfl⟩
  | selDrop => obtain ⟨b, h1, rfl⟩ := inv_untimed h; exact .inr ⟨_, h1, fun _ => rfl, rfl⟩
  | call ok => obtain ⟨b, h1, rfl⟩ := inv_untimed h; exact .inr ⟨_, h1, nofun, rfl⟩
  | spawn retry delay =>
    rw [step] at h
    split at h
    · rw [Outcome.bind_eq_ok] at h
      obtain ⟨b, h2, h3⟩ := h
      cases h3
      exact .inr ⟨_, h2, nofun, rfl⟩
    · cases h
  | closing retry =>
    rw [step] at h
    split at h
    · rw [Outcome.bind_eq_ok] at h
      obtain ⟨b, h2, h3⟩ := h
      cases h3
      exact .inr ⟨_, h2, nofun, rfl⟩
    · cases h
  | dial i =>
    cases move_of_step h
    subst_vars
    exact .inl ⟨rfl, rfl⟩
  | rest i =>
    cases move_of_step h
    subst_vars
    exact .inl ⟨rfl, rfl⟩
  | dialled i r =>
    rw [step] at h
    split at h
    · split at h
      · cases h; exact .inl ⟨rfl, rfl⟩
      · rw [Outcome.bind_eq_ok] at h
        obtain ⟨b, h2, h3⟩ := h
        cases h3
        exact .inr ⟨_, h2, nofun, rfl⟩
    · cases h
  | again i delay =>
    rw [step] at h
    split at h
    · split at h
      · rw [Outcome.bind_eq_ok] at h
        obtain ⟨b, h2, h3⟩ := h
        cases h3
        exact .inr ⟨_, h2, nofun, rfl⟩
      · cases h
    · cases h

end Verif.NetTime
