import Mathlib.Data.List.Infix
import Verif.Proofs.ProtFollow

/-! Runs add to their trace. -/
namespace Verif.Prot
open Verif.Spec.Prot
variable {D A U : Type} {c : Conf D A U}

theorem doActs_pauseEnd (as : List (Act D)) (r : Run D A U) : (doActs c r as).pauseEnd = r.pauseEnd := by
  have h1 : ∀ (r : Run D A U) (i op : Int) (dto : D), (send c r i op dto).pauseEnd = r.pauseEnd := by
    intro r i op dto; rw [send]; split <;> rfl
  have h2 : ∀ (is : List Int) (r : Run D A U) (op : Int) (dto : D), (multicast c r is op dto).pauseEnd = r.pauseEnd := by
    intro is
    induction is with
    | nil => intro r op dto; rfl
    | cons i is ih =>
      intro r op dto
      refine (ih (send1 c r i op dto) op dto).trans ?_
      rw [send1]
      split
      · exact h1 r i op dto
      · rfl
  induction as generalizing r with
  | nil => rfl
  | cons a as ih =>
    refine (ih (doAct c r a)).trans ?_
    cases a with
    | send i op dto => exact h1 r i op dto
    | broadcast op dto => exact h2 _ r op dto
    | multicast is op dto => exact h2 is r op dto
    | abandon => rfl

/-- A message adds to the trace and does not change when a pause ends. -/
theorem processMsg_log {r r' : Run D A U} {m : Message D} (h : processMsg c r m = .ok r') :
    r.log <+: r'.log ∧ r'.pauseEnd = r.pauseEnd := by
  have same : ∀ l : List (Entry D A), ∀ r' : Run D A U, r'.log = r.log ++ l → r'.pauseEnd = r.pauseEnd → r.log <+: r'.log ∧ r'.pauseEnd = r.pauseEnd :=
    fun l r' h1 h2 => ⟨⟨l, h1.symm⟩, h2⟩
  rw [processMsg] at h
  dsimp only at h
  by_cases ha : r.abandon = true
  · rw [if_pos ha] at h; rw [← Outcome.ok.inj h]; exact same _ _ rfl rfl
  rw [if_neg ha] at h
  cases hs : c.stage? m.op with
  | none => rw [hs] at h; cases h
  | some s =>
  rw [hs] at h
  dsimp only at h
  cases hpr : s.proc with
  | none => rw [hpr] at h; rw [← Outcome.ok.inj h]; exact same _ _ rfl rfl
  | some proc =>
  rw [hpr] at h
  dsimp only at h
  by_cases ht : (!s.typeOk m.dto) = true
  · rw [if_pos ht] at h; rw [← Outcome.ok.inj h]; exact same _ _ rfl rfl
  rw [if_neg ht] at h
  cases hu : s.unmarshal m.dto with
  | panic => rw [hu] at h; cases h
  | err => rw [hu] at h; rw [← Outcome.ok.inj h]; exact same _ _ rfl rfl
  | ok a =>
  rw [hu] at h
  dsimp only at h
  by_cases hr : (!(decide (0 ≤ m.sender) && decide (m.sender < c.members))) = true
  · rw [if_pos hr] at h; rw [← Outcome.ok.inj h]; exact same _ _ rfl rfl
  rw [if_neg hr] at h
  cases hv : s.senderValid a m.sender with
  | panic => rw [hv] at h; cases h
  | err => rw [hv] at h; cases h
  | ok b =>
    rw [hv] at h
    cases b with
    | false => rw [← Outcome.ok.inj h]; exact same _ _ rfl rfl
    | true =>
      dsimp only at h
      rw [Outcome.bind_eq_ok] at h
      obtain ⟨⟨u, acts⟩, _, h⟩ := h
      rw [Outcome.pure_eq] at h
      rw [← Outcome.ok.inj h]
      obtain ⟨l, e, _⟩ := doActs_log (c := c) acts { r with log := (r.log ++ [.handled m]) ++ [.invoked m a], user := u }
      refine same ([.handled m] ++ [.invoked m a] ++ l) _ ?_ (doActs_pauseEnd acts _)
      rw [e]; simp

theorem processAll_log (ms : List (Message D)) {r r' : Run D A U} (h : processAll c r ms = .ok r') : r.log <+: r'.log := by
  induction ms generalizing r with
  | nil => rw [processAll] at h; rw [← Outcome.ok.inj h]
  | cons m ms ih =>
    rw [processAll, Outcome.bind_eq_ok] at h
    obtain ⟨r1, h1, h2⟩ := h
    exact (processMsg_log h1).1.trans (ih h2)

theorem callStep_log {r r' : Run D A U} {s : Stage D A U} (h : callStep c r s = .ok r') : r.log <+: r'.log := by
  rw [callStep] at h
  by_cases ha : r.abandon = true
  · rw [if_pos ha] at h; rw [← Outcome.ok.inj h]
  rw [if_neg ha] at h
  cases hs : s.step with
  | none => rw [hs] at h; rw [← Outcome.ok.inj h]
  | some f =>
    rw [hs] at h
    dsimp only at h
    rw [Outcome.bind_eq_ok] at h
    obtain ⟨⟨u, acts⟩, _, h⟩ := h
    rw [Outcome.pure_eq] at h
    rw [← Outcome.ok.inj h]
    obtain ⟨l, e, _⟩ := doActs_log (c := c) acts { r with log := r.log ++ [.stepped r.state], user := u }
    exact ⟨[.stepped r.state] ++ l, by rw [e]; simp⟩

theorem enterStage_log {r r' : Run D A U} (h : enterStage c r = .ok r') : r.log <+: r'.log ∧ r'.phase = .staged := by
  rw [enterStage] at h
  dsimp only at h
  cases hs : c.stage? (r.state + 1) with
  | none => rw [hs] at h; cases h
  | some s =>
  rw [hs] at h
  dsimp only at h
  rw [Outcome.bind_eq_ok] at h
  obtain ⟨r1, h1, h⟩ := h
  rw [Outcome.bind_eq_ok] at h
  obtain ⟨r2, h2, h⟩ := h
  rw [Outcome.pure_eq] at h
  rw [← Outcome.ok.inj h]
  have h3 : r1.log <+: r2.log := processAll_log _ h2
  refine ⟨List.IsPrefix.trans ?_ ((callStep_log h1).trans h3), rfl⟩
  exact ⟨[.entered (r.state + 1)] ++ ((r.sndbuf.get? (r.state + 1)).getD []).map .sent, by rw [flushSndBuf]; simp⟩

theorem loopTop_log {r r' : Run D A U} (h : loopTop c r = .ok r') :
    r.log <+: r'.log ∧ (r'.phase = .pausing → r'.pauseEnd = r.now + 5) := by
  rw [loopTop] at h
  by_cases h1 : r.state < (c.stages.length : Int) - 1
  · rw [if_pos h1] at h
    by_cases h2 : r.state > -1
    · rw [if_pos h2] at h; rw [← Outcome.ok.inj h]; exact ⟨⟨_, rfl⟩, fun _ => rfl⟩
    · rw [if_neg h2] at h
      obtain ⟨h3, h4⟩ := enterStage_log h
      exact ⟨h3, fun h => by rw [h4] at h; cases h⟩
  · rw [if_neg h1] at h; rw [← Outcome.ok.inj h]; exact ⟨⟨_, rfl⟩, nofun⟩

/-- A section of the thread adds to the trace; the pause it begins ends 5 ms later. -/
theorem thread_log {r r' : Run D A U} (h : thread c r = .ok r') :
    r.log <+: r'.log ∧ (r'.phase = .pausing → r'.pauseEnd = r.now + 5) := by
  rw [thread] at h
  cases hp : r.phase with
  | fresh => rw [hp] at h; rw [← Outcome.ok.inj h]; exact ⟨List.prefix_refl _, nofun⟩
  | started => rw [hp] at h; exact loopTop_log h
  | staged =>
    rw [hp] at h; dsimp only at h
    by_cases hd : r.deadline ≤ r.now
    · rw [if_pos hd] at h; exact loopTop_log h
    · rw [if_neg hd] at h; cases h
  | pausing =>
    rw [hp] at h; dsimp only at h
    by_cases hd : r.pauseEnd ≤ r.now
    · rw [if_pos hd, ← hp] at h
      obtain ⟨h3, h4⟩ := enterStage_log (r := { r with paused := false }) h
      exact ⟨h3, fun h => by rw [h4] at h; cases h⟩
    · rw [if_neg hd] at h; cases h
  | done => rw [hp] at h; cases h

/-- A message adds to the trace that it was received, first of all. -/
theorem receive_log {r r' : Run D A U} {m : Message D} (h : receive c r m = .ok r') :
    (r.log ++ [.received m]) <+: r'.log ∧ r'.pauseEnd = r.pauseEnd := by
  rw [receive] at h
  dsimp only at h
  by_cases h1 : (m.op < r.state || (decide (m.op = r.state) && r.paused)) = true
  · rw [if_pos h1] at h; rw [← Outcome.ok.inj h]; exact ⟨List.prefix_refl _, rfl⟩
  rw [if_neg h1] at h
  by_cases h2 : m.op > r.state
  · rw [if_pos h2] at h; rw [← Outcome.ok.inj h]; exact ⟨List.prefix_refl _, rfl⟩
  · rw [if_neg h2] at h; exact processMsg_log h

theorem step_log {r r' : Run D A U} {e : Ev D} (h : step c r e = .ok r') : r.log <+: r'.log := by
  cases e with
  | tick t =>
    rw [step] at h
    by_cases ht : r.now ≤ t
    · rw [if_pos ht] at h; rw [← Outcome.ok.inj h]
    · rw [if_neg ht] at h; cases h
  | thread => exact (thread_log h).1
  | msg m => exact (List.prefix_append _ _).trans (receive_log h).1

end Verif.Prot
