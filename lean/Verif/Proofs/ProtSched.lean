import Verif.Proofs.ProtLog
import Verif.Proofs.ProgramQuiet

/-! When the thread of a run does what, and what a run keeps. -/
namespace Verif.Prot
open Verif.Spec.Prot
variable {D A U : Type} {c : Conf D A U}

theorem recvFrom_prefix (P : List (Entry D A) → Message D → Bool) (pre l l' : List (Entry D A)) :
    recvFrom P pre l <+: recvFrom P pre (l ++ l') := by
  induction l' using List.reverseRecOn with
  | nil => rw [List.append_nil]
  | append_singleton l' x ih =>
    rw [← List.append_assoc, recvFrom_snoc]
    exact ih.trans (List.prefix_append _ _)

/-- What was received early or in time stays so. -/
theorem given_mono {n : Int} {l l' : List (Entry D A)} (h : l <+: l') {m : Message D} (hm : m ∈ early n l ++ inTime n l) :
    m ∈ early n l' ++ inTime n l' := by
  obtain ⟨x, rfl⟩ := h
  rw [List.mem_append] at hm ⊢
  exact hm.imp (fun h => (recvFrom_prefix _ [] l x).subset h) (fun h => (recvFrom_prefix _ [] l x).subset h)

/-- Given to the run in stage `n` or before, not in the pause after it, a message for stage `n` is early or in time. -/
theorem given_now {n : Int} {r : Run D A U} (hi : Inv c r) {m : Message D} (hm : m.op = n) (hs : r.state ≤ n)
    (hp : r.state = n → r.paused = false) : m ∈ early n (r.log ++ [.received m]) ++ inTime n (r.log ++ [.received m]) := by
  rw [List.mem_append, early_snoc, inTime_snoc, hi.core.stage, hi.core.pause]
  by_cases h : r.state < n
  · left; dsimp only; rw [if_pos ⟨hm, h⟩]; simp
  · right
    have e : r.state = n := by omega
    dsimp only; rw [if_pos ⟨⟨hm, e⟩, hp e⟩]; simp

end Verif.Prot

namespace Verif.Dkg
open Verif.Prot Verif.Spec.Prot Verif.Dto Verif.Dss Verif.Props
open Verif.Spec.Program (dssTimes ends)
variable {K : Type}

theorem timeouts_dss (y : Kyb K) (H : List UInt8 → List UInt8) (SH : Share → List UInt8) (env : Env) (id : String) (self : Int)
    (members : Nat) (n : Int) : timeouts (dssConf y H SH env id self members) n = ends n := by
  rw [timeouts, ends, List.map_take]; rfl

theorem ends_next {y : Kyb K} {H : List UInt8 → List UInt8} {SH : Share → List UInt8} {env : Env} {id : String} {self : Int}
    {members : Nat} {n : Int} {s : Stage Dto Obj (Data K)} (hs : (dssConf y H SH env id self members).stage? (n + 1) = some s) :
    ends (n + 1) = ends n + s.timeout ∧ 25 ≤ s.timeout := by
  have := timeouts_next hs
  rw [timeouts_dss, timeouts_dss] at this
  refine ⟨this, ?_⟩
  obtain ⟨_, h1⟩ := stage?_some hs
  have hm := List.mem_of_getElem? h1
  rw [dssConf] at hm
  dsimp only at hm
  rw [dssStages, List.mem_append] at hm
  simp only [dkgStages, List.mem_cons, List.not_mem_nil, or_false] at hm
  rcases hm with (rfl | rfl | rfl | rfl | rfl | rfl | rfl | rfl | rfl) | (rfl | rfl | rfl) <;> simp [psStep, psProc]

theorem ends_mono {n m : Int} (h : n ≤ m) : ends n ≤ ends m := by
  have key : ∀ (l : List Int) (a b : Nat), (∀ x ∈ l, 0 ≤ x) → a ≤ b → (l.take a).sum ≤ (l.take b).sum := by
    intro l
    induction l with
    | nil => intro a b _ _; simp
    | cons x l ih =>
      intro a b hx hab
      cases a with
      | zero =>
        rw [List.take_zero, List.sum_nil]
        exact List.sum_nonneg fun y hy => hx y (List.mem_of_mem_take hy)
      | succ a =>
        cases b with
        | zero => omega
        | succ b =>
          rw [List.take_succ_cons, List.take_succ_cons, List.sum_cons, List.sum_cons]
          have := ih a b (fun y hy => hx y (List.mem_cons_of_mem _ hy)) (by omega)
          omega
  exact key dssTimes _ _ (by decide) (by omega)

/-- The stages of the protocol end when those of the signing protocol do; the last one ends `fin` after the start. -/
structure Keeps (cf : Conf Dto Obj (Data K)) (fin : Int) : Prop where
  next : ∀ n s, cf.stage? (n + 1) = some s → ends (n + 1) = ends n + s.timeout ∧ 25 ≤ s.timeout
  last : ends ((cf.stages.length : Int) - 1) = fin
  pos : 0 < cf.stages.length
  some : ∀ n : Int, 0 ≤ n → n < cf.stages.length → ∃ s, cf.stage? n = some s

theorem stage?_of_lt {D A U : Type} {cf : Conf D A U} {n : Int} (h0 : 0 ≤ n) (h1 : n < cf.stages.length) : ∃ s, cf.stage? n = some s := by
  rw [Conf.stage?, if_neg (by omega)]
  exact ⟨_, List.getElem?_eq_getElem (by omega)⟩

theorem keeps_dss (y : Kyb K) (H : List UInt8 → List UInt8) (SH : Share → List UInt8) (env : Env) (id : String) (self : Int)
    (members : Nat) : Keeps (dssConf y H SH env id self members) 650 :=
  ⟨fun _ _ => ends_next, rfl, (by decide : 0 < 12), fun _ => stage?_of_lt⟩

theorem timeouts_dkg (y : Kyb K) (id : String) (self : Int) (members : Nat) (n : Int) (hn : n < 9) :
    timeouts (dkgConf y id self members) n = ends n := by
  rw [timeouts, ends, List.map_take]
  have : dssTimes.take (n + 1).toNat = (dssTimes.take 9).take (n + 1).toNat := by rw [List.take_take, Nat.min_eq_left (by omega)]
  rw [this]; rfl

theorem keeps_dkg (y : Kyb K) (id : String) (self : Int) (members : Nat) : Keeps (dkgConf y id self members) 525 := by
  refine ⟨fun n s hs => ?_, rfl, (by decide : 0 < 9), fun _ => stage?_of_lt⟩
  obtain ⟨h0, h1⟩ := stage?_some hs
  have hl : n + 1 < 9 := by
    have : (n + 1).toNat < (dkgStages y).length := Verif.Registry.lt_of_some h1
    have e : (dkgStages y).length = 9 := rfl
    omega
  have := timeouts_next hs
  rw [timeouts_dkg _ _ _ _ _ hl, timeouts_dkg _ _ _ _ _ (by omega)] at this
  refine ⟨this, ?_⟩
  have hm := List.mem_of_getElem? h1
  rw [dkgConf] at hm
  simp only [dkgStages, List.mem_cons, List.not_mem_nil, or_false] at hm
  rcases hm with rfl | rfl | rfl | rfl | rfl | rfl | rfl | rfl | rfl <;> simp [psStep, psProc]

/-- The run is on its schedule, given the time at which its thread was to be started and how long it takes. -/
def OnTime (fin start now : Int) (u : Run Dto Obj (Data K)) : Prop :=
  match u.phase with
  | .fresh => now = start
  | .started => now = start ∧ u.deadline = start
  | .staged => u.deadline = start + ends u.state ∧ start + ends (u.state - 1) ≤ now ∧ now ≤ u.deadline
  | .pausing => u.deadline = start + ends u.state ∧ u.pauseEnd = u.deadline + 5 ∧ u.deadline ≤ now ∧ now ≤ u.pauseEnd
  | .done => start + fin ≤ now

section
variable {cf : Conf Dto Obj (Data K)} {fin : Int}

theorem onTime_thread {start : Int} {u u' : Run Dto Obj (Data K)} (hk : Keeps cf fin) (hi : Inv cf u)
    (h : OnTime fin start u.now u) (hs : thread cf u = .ok u') : OnTime fin start u.now u' := by
  obtain ⟨_, hm, _⟩ := thread_ok hi hs
  have hp := (thread_log hs).2
  rw [OnTime] at h ⊢
  cases hm with
  | start h0 h1 h2 h3 =>
    rw [h0] at h; rw [h1]
    exact ⟨h, h3.trans h⟩
  | enter h0 h1 h2 h3 =>
    obtain ⟨s, h3, h4⟩ := h3
    obtain ⟨e1, e2⟩ := hk.next _ _ h3
    rw [h1]
    dsimp only
    rw [h2, h4, show u.state + 1 - 1 = u.state by omega]
    rcases h0 with ⟨h0, _⟩ | ⟨h0, h5⟩
    · rw [h0] at h
      obtain ⟨h6, h7⟩ := h
      obtain ⟨h8, _⟩ := hi.fresh (.inr h0)
      have e3 : ends u.state = 0 := by rw [h8]; rfl
      exact ⟨by omega, by omega, by omega⟩
    · rw [h0] at h
      obtain ⟨h6, h7, h8, h9⟩ := h
      exact ⟨by omega, by omega, by omega⟩
  | pause h0 h1 h2 h3 h4 h5 =>
    rw [h0] at h
    obtain ⟨h6, h7, h8⟩ := h
    have := hp h3
    rw [h3]
    dsimp only
    rw [h4, h5]
    exact ⟨h6, by omega, h1, by omega⟩
  | finish h0 h1 h2 h3 h4 =>
    rw [h2]
    rcases h0 with ⟨_, h0⟩ | ⟨h0, h5⟩
    · have := hk.pos; omega
    · rw [h0] at h
      obtain ⟨h6, h7, h8⟩ := h
      have : ends u.state = fin := by rw [show u.state = (cf.stages.length : Int) - 1 by omega]; exact hk.last
      show start + fin ≤ u.now
      omega

theorem onTime_msg {start now : Int} {u u' : Run Dto Obj (Data K)} {m : Message Dto} (hi : Inv cf u)
    (h : OnTime fin start now u) (hs : receive cf u m = .ok u') : OnTime fin start now u' := by
  obtain ⟨_, h1, h2, h3, _⟩ := receive_ok hi hs
  rw [OnTime] at h ⊢
  rw [h1, h2, h3, (receive_log hs).2]
  exact h

/-- If it cannot go on, it is on its schedule a millisecond later too. -/
theorem onTime_wait {start now t : Int} {u : Run Dto Obj (Data K)} (h : OnTime fin start now u) (ht : now < t) {cf : Conf Dto Obj (Data K)}
    (hq : thread cf { u with now := t - 1 } = .err) : OnTime fin start t u := by
  rw [OnTime] at h ⊢
  rw [thread] at hq
  cases hp : u.phase with
  | fresh => rw [hp] at hq; cases hq
  | started => rw [hp] at hq; exact absurd hq (loopTop_ne_err cf _)
  | staged =>
    rw [hp] at h hq
    dsimp only at h hq ⊢
    obtain ⟨h1, h2, h3⟩ := h
    by_cases hd : u.deadline ≤ t - 1
    · rw [if_pos hd] at hq; exact absurd hq (loopTop_ne_err cf _)
    · exact ⟨h1, by omega, by omega⟩
  | pausing =>
    rw [hp] at h hq
    dsimp only at h hq ⊢
    obtain ⟨h1, h2, h3, h4⟩ := h
    by_cases hd : u.pauseEnd ≤ t - 1
    · rw [if_pos hd] at hq; exact absurd hq (enterStage_ne_err cf _)
    · exact ⟨h1, h2, by omega, by omega⟩
  | done =>
    rw [hp] at h
    have h : start + fin ≤ now := h
    show start + fin ≤ t
    omega

/-- A run on its schedule is over when its last stage is. -/
theorem onTime_done {start now : Int} {u : Run Dto Obj (Data K)} (hk : Keeps cf fin) (hi : Inv cf u) (h : OnTime fin start now u)
    (ht : start + fin < now) : u.phase = .done := by
  have hl := hk.last
  rw [OnTime] at h
  cases hp : u.phase with
  | done => rfl
  | fresh =>
    rw [hp] at h; dsimp only at h
    have := ends_mono (show (-1 : Int) ≤ (cf.stages.length : Int) - 1 by omega)
    have e : ends (-1) = 0 := rfl
    omega
  | started =>
    rw [hp] at h; dsimp only at h
    have := ends_mono (show (-1 : Int) ≤ (cf.stages.length : Int) - 1 by omega)
    have e : ends (-1) = 0 := rfl
    omega
  | staged =>
    rw [hp] at h; dsimp only at h
    have := (hi.staged hp).2.1
    have := ends_mono (show u.state ≤ (cf.stages.length : Int) - 1 by omega)
    omega
  | pausing =>
    rw [hp] at h; dsimp only at h
    obtain ⟨h0, h1, _⟩ := hi.pausing hp
    obtain ⟨s, hs⟩ := hk.some (u.state + 1) (by omega) (by omega)
    obtain ⟨e1, e2⟩ := hk.next _ _ hs
    have := ends_mono (show u.state + 1 ≤ (cf.stages.length : Int) - 1 by omega)
    omega

/-- A run on its schedule is not past the stage that a time belongs to. -/
theorem onTime_stage {start now n : Int} {u : Run Dto Obj (Data K)} (hk : Keeps cf fin) (hi : Inv cf u) (h : OnTime fin start now u)
    (h0 : 0 ≤ n) (h12 : n < cf.stages.length) (ht : now < start + ends n) : u.state ≤ n ∧ (u.state = n → u.paused = false) := by
  have hl := hk.last
  rw [OnTime] at h
  cases hp : u.phase with
  | fresh => have := hi.fresh (.inl hp); exact ⟨by omega, fun _ => this.2⟩
  | started => have := hi.fresh (.inr hp); exact ⟨by omega, fun _ => this.2⟩
  | staged =>
    rw [hp] at h; dsimp only at h
    refine ⟨?_, fun _ => (hi.staged hp).2.2⟩
    by_contra hc
    have := ends_mono (show n ≤ u.state - 1 by omega)
    omega
  | pausing =>
    rw [hp] at h; dsimp only at h
    have : u.state < n := by
      by_contra hc
      have := ends_mono (show n ≤ u.state by omega)
      omega
    exact ⟨by omega, fun e => by omega⟩
  | done =>
    rw [hp] at h; dsimp only at h
    have := ends_mono (show n ≤ (cf.stages.length : Int) - 1 by omega)
    omega

end
end Verif.Dkg
