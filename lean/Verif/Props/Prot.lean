import Verif.Proofs.Prot
import Mathlib.Algebra.Order.BigOperators.Group.List
import Mathlib.Algebra.Order.Ring.Int

/-!
Properties C42–C47 and C56: one protocol run. They hold for every protocol (stages, steps, processors, unmarshallers and
validators are arbitrary) and every history of clock ticks, sections of the thread and arrivals of messages.
-/
namespace Verif.Props
open Verif.Prot Verif.Spec.Prot
variable {D A U : Type}

/-- What arrives early and in time, in this order, is part of what arrives, in order. -/
theorem early_inTime_sublist {c : Conf D A U} {l : List (Entry D A)} (hl : Legal c l) (n : Int) :
    (stageOf l < n → inTime n l = []) ∧
    (early n l ++ inTime n l).Sublist ((receivedOf l).filter fun m => decide (m.op = n)) := by
  induction l using List.reverseRecOn with
  | nil => exact ⟨fun _ => rfl, List.Sublist.refl _⟩
  | append_singleton l x ih =>
    rw [legal_snoc] at hl
    obtain ⟨ih1, ih2⟩ := ih hl.1
    rw [early_snoc, inTime_snoc, receivedOf_snoc, stageOf_snoc]
    cases x with
    | entered k =>
      refine ⟨fun h => ?_, by simpa using ih2⟩
      have : k = stageOf l + 1 := hl.2.1
      dsimp only at h
      rw [ih1 (by omega)]; rfl
    | received m =>
      dsimp only
      by_cases h1 : stageOf l < n
      · rw [ih1 h1] at ih2 ⊢
        have h2 : ¬ ((m.op = n ∧ stageOf l = n) ∧ inPause l = false) := by omega
        rw [if_neg h2]
        refine ⟨fun _ => rfl, ?_⟩
        rw [List.append_nil] at ih2
        rw [List.append_nil, List.append_nil, List.filter_append]
        refine ih2.append ?_
        by_cases hm : m.op = n <;> simp [hm, h1]
      · refine ⟨fun h => absurd h h1, ?_⟩
        rw [if_neg (by omega), List.append_nil, ← List.append_assoc, List.filter_append]
        refine ih2.append ?_
        by_cases hm : (m.op = n ∧ stageOf l = n) ∧ inPause l = false
        · rw [if_pos hm]; simp [hm.1.1]
        · rw [if_neg hm]; exact List.nil_sublist _
    | _ => exact ⟨by simpa using ih1, by simpa using ih2⟩

/-- C42. The processor of a message is called only in the stage equal to its op code, and not in the pause after it; and
the messages of each op code given to a processor are among those that arrived with that op code, in order of arrival and
each at most as often as it arrived. -/
theorem C42_own_stage_once (c : Conf D A U) (u : U) (t0 : Int) (h : List (Ev D)) (r : Run D A U)
    (hr : exec c (newRun D A u t0) h = .ok r) :
    (∀ l1 m a l2, r.log = l1 ++ .invoked m a :: l2 → stageOf l1 = m.op ∧ inPause l1 = false) ∧
    ∀ n, (invokedOf n r.log).Sublist ((msgs h).filter fun m => decide (m.op = n)) := by
  have a := agree_exec hr
  have k := a.inv.core
  refine ⟨fun l1 m x l2 e => ⟨(k.legal _ _ _ e).1, (k.legal _ _ _ e).2.1⟩, fun n => ?_⟩
  have h1 := k.handled n
  rw [ite_self, List.append_nil] at h1
  refine (k.invoked n).trans ?_
  rw [h1, ← a.received]
  by_cases hn : n ≤ r.state
  · rw [if_pos hn]; exact (early_inTime_sublist k.legal n).2
  · rw [if_neg hn]; exact List.nil_sublist _

/-- C43. At every moment between events the messages of op code `n` handed to processing are exactly: none, before stage `n`;
from then on those that arrived before the stage, followed by those that arrived in it, each in order of arrival. So the
early ones are all handled in the very section that enters the stage, and one that arrived in the pause or later never is.
(What arrived is what the history says.) -/
theorem C43_order (c : Conf D A U) (u : U) (t0 : Int) (h : List (Ev D)) (r : Run D A U)
    (hr : exec c (newRun D A u t0) h = .ok r) :
    receivedOf r.log = msgs h ∧
    ∀ n, handledOf n r.log = if n ≤ stageOf r.log then early n r.log ++ inTime n r.log else [] := by
  have a := agree_exec hr
  refine ⟨a.received, fun n => ?_⟩
  have h1 := a.inv.core.handled n
  rw [ite_self, List.append_nil] at h1
  rw [h1, a.inv.core.stage]

/-- C43 (after the step). When the step of a stage is called, no message of that stage has been handled. -/
theorem C43_after_step (c : Conf D A U) (u : U) (t0 : Int) (h : List (Ev D)) (r : Run D A U)
    (hr : exec c (newRun D A u t0) h = .ok r) (l1 l2 : List (Entry D A)) (n : Int) (e : r.log = l1 ++ .stepped n :: l2) :
    stageOf l1 = n ∧ handledOf n l1 = [] :=
  have := (agree_exec hr).inv.core.legal _ _ _ e
  ⟨this.1, this.2.2.2.1⟩

theorem gaveUp_mid (l1 l2 : List (Entry D A)) : gaveUp (l1 ++ .abandoned :: l2) = true := by
  simp [gaveUp]

/-- C44. After a run is abandoned, no step and no processor is called. -/
theorem C44_final (c : Conf D A U) (u : U) (t0 : Int) (h : List (Ev D)) (r : Run D A U)
    (hr : exec c (newRun D A u t0) h = .ok r) (l1 l2 : List (Entry D A)) (e : r.log = l1 ++ .abandoned :: l2) :
    ∀ x ∈ l2, (∀ n, x ≠ .stepped n) ∧ ∀ m a, x ≠ .invoked m a := by
  intro x hx
  obtain ⟨s, t, rfl⟩ := List.append_of_mem hx
  have hg := (agree_exec hr).inv.core.legal (l1 ++ .abandoned :: s) x t (by rw [e]; simp)
  have hu := gaveUp_mid l1 s
  refine ⟨?_, ?_⟩
  · rintro n rfl
    rw [hg.2.2.1] at hu; cases hu
  · rintro m a rfl
    rw [hg.2.2.1] at hu; cases hu

/-- C44 (still terminates). An abandoned run, in whatever state, terminates with nothing but time and sections of its own
thread: none of them can fail. -/
theorem C44_terminates (c : Conf D A U) (u : U) (t0 : Int) (h : List (Ev D)) (r : Run D A U)
    (hr : exec c (newRun D A u t0) h = .ok r) (ha : gaveUp r.log = true) :
    ∃ g r', Alone g ∧ exec c r g = .ok r' ∧ r'.terminated = true :=
  completes (2 * c.stages.length + 2) hr (.inl (by rw [← (agree_exec hr).inv.core.gave]; exact ha)) (by omega)

/-- C45 (any protocol). A processor is called only with an object unmarshalled from a DTO of the registered type, from a
sender that is a member and that the validator of the stage accepts for this object. -/
theorem C45_checked (c : Conf D A U) (u : U) (t0 : Int) (h : List (Ev D)) (r : Run D A U)
    (hr : exec c (newRun D A u t0) h = .ok r) (m : Message D) (a : A) (hm : .invoked m a ∈ r.log) :
    ∃ s : Stage D A U, 0 ≤ m.op ∧ c.stages[m.op.toNat]? = some s ∧ s.typeOk m.dto = true ∧ s.unmarshal m.dto = .ok a ∧
      0 ≤ m.sender ∧ m.sender < c.members ∧ s.senderValid a m.sender = .ok true := by
  obtain ⟨l1, l2, e⟩ := List.append_of_mem hm
  obtain ⟨_, _, _, s, h1, h2, _, h4, h5, h6, h7, h8⟩ := (agree_exec hr).inv.core.legal _ _ _ e
  exact ⟨s, h2, h1, h4, h5, h6, h7, h8⟩

/-- C46. At every moment between events the messages of op code `n` transmitted are exactly: none, before stage `n`; from
then on all those the protocol asked to send, in that order and once each. -/
theorem C46_when_due (c : Conf D A U) (u : U) (t0 : Int) (h : List (Ev D)) (r : Run D A U)
    (hr : exec c (newRun D A u t0) h = .ok r) :
    (∀ n, sentOf n r.log = if n ≤ stageOf r.log then requestsOf n r.log else []) ∧
    ∀ l1 m l2, r.log = l1 ++ .sent m :: l2 → m.op ≤ stageOf l1 := by
  have k := (agree_exec hr).inv.core
  exact ⟨fun n => by rw [k.stage]; exact k.sent n, fun l1 m l2 e => k.legal _ _ _ e⟩

/-- C46 (multicast). A multicast asks to send to exactly the given members other than the sender, in order. -/
theorem C46_multicast (c : Conf D A U) (r : Run D A U) (is : List Int) (op : Int) (dto : D) (n : Int) :
    requestsOf n (doAct c r (.multicast is op dto)).log = requestsOf n r.log ++
      if op = n then (is.filter fun i => decide (i ≠ c.self)).map fun i => ⟨c.self, c.pc, i, c.id, op, dto⟩ else [] := by
  have hsend : ∀ (r : Run D A U) (i : Int), requestsOf n (send c r i op dto).log =
      requestsOf n r.log ++ if op = n then [(⟨c.self, c.pc, i, c.id, op, dto⟩ : Message D)] else [] := by
    intro r i
    rw [send]
    by_cases h : op > r.state
    · rw [if_pos h]; dsimp only; rw [requestsOf_snoc]; rfl
    · rw [if_neg h]
      dsimp only
      rw [show ∀ y z : Entry D A, r.log ++ [y, z] = (r.log ++ [y]) ++ [z] by intros; simp, requestsOf_snoc, requestsOf_snoc]
      dsimp only
      rw [List.append_nil]; rfl
  change requestsOf n (multicast c r is op dto).log = _
  induction is generalizing r with
  | nil => simp [multicast]
  | cons i is ih =>
    rw [multicast, List.foldl_cons]
    have := ih (send1 c r i op dto)
    rw [multicast] at this
    rw [this, send1]
    by_cases h : i ≠ c.self
    · rw [if_pos h, hsend]
      by_cases hn : op = n <;> simp [hn, h]
    · rw [if_neg h]
      rw [not_not] at h
      simp [h]

/-- C46 (broadcast). A broadcast asks to send to every member other than the sender, once each. -/
theorem C46_broadcast (c : Conf D A U) (r : Run D A U) (op : Int) (dto : D) (n : Int) :
    requestsOf n (doAct c r (.broadcast op dto)).log = requestsOf n r.log ++ if op = n then
      (((List.range c.members).map Int.ofNat).filter fun i => decide (i ≠ c.self)).map fun i => ⟨c.self, c.pc, i, c.id, op, dto⟩
      else [] := C46_multicast c r _ op dto n

theorem stageOf_same (l1 l2 : List (Entry D A)) (h : ∀ x ∈ l2, ∀ n, x ≠ .entered n) : stageOf (l1 ++ l2) = stageOf l1 := by
  induction l2 using List.reverseRecOn with
  | nil => rw [List.append_nil]
  | append_singleton l2 x ih =>
    rw [← List.append_assoc, stageOf_snoc, ih fun y hy => h y (by simp [hy])]
    cases x with
    | entered n => exact absurd rfl (h (.entered n) (by simp) n)
    | _ => rfl

/-- C47. Stages are entered in order from 0, each once, and none beyond the last. The run is cleaned up at most once and has
terminated exactly when it has been cleaned up; by then every stage has been entered. -/
theorem C47_stages (c : Conf D A U) (u : U) (t0 : Int) (h : List (Ev D)) (r : Run D A U)
    (hr : exec c (newRun D A u t0) h = .ok r) :
    (∃ k, k ≤ c.stages.length ∧ stagesOf r.log = (List.range k).map Int.ofNat) ∧
    cleanups r.log = (if r.terminated then 1 else 0) ∧
    ∀ l1 l2, r.log = l1 ++ .cleanup :: l2 → stagesOf l1 = (List.range c.stages.length).map Int.ofNat ∧ stagesOf l2 = [] ∧
      cleanups l2 = 0 ∧ ∀ n, .stepped n ∉ l2 := by
  have i := (agree_exec hr).inv
  have k := i.core
  have hlow := k.low
  have hle : r.state + 1 ≤ c.stages.length := by
    cases hp : r.phase with
    | fresh => have := (i.fresh (.inl hp)).1; omega
    | started => have := (i.fresh (.inr hp)).1; omega
    | staged => have := i.staged hp; omega
    | pausing => have := i.pausing hp; omega
    | done => have := i.done hp; omega
  refine ⟨⟨(r.state + 1).toNat, by omega, k.stages⟩, k.clean, fun l1 l2 e => ?_⟩
  have hg := k.legal _ _ _ e
  have hno : ∀ x ∈ l2, (∀ n, x ≠ .entered n) ∧ (∀ n, x ≠ .stepped n) ∧ x ≠ .cleanup := by
    intro x hx
    obtain ⟨s, t, rfl⟩ := List.append_of_mem hx
    have hx := k.legal (l1 ++ .cleanup :: s) x t (by rw [e]; simp)
    have hc : cleanups (l1 ++ .cleanup :: s) ≠ 0 := by
      rw [cleanups, List.countP_append, List.countP_cons]; simp
    refine ⟨?_, ?_, ?_⟩
    · rintro n rfl; exact hc hx.2.2.1
    · rintro n rfl; exact hc hx.2.2.2.2
    · rintro rfl; exact hc hx.2
  have hs2 : stagesOf l2 = [] := by
    rw [stagesOf, List.filterMap_eq_nil_iff]
    intro x hx
    cases x with
    | entered n => exact absurd rfl ((hno _ hx).1 n)
    | _ => rfl
  refine ⟨?_, hs2, ?_, fun n hn => (hno _ hn).2.1 n rfl⟩
  · have hst : stagesOf r.log = stagesOf l1 := by
      rw [e, stagesOf, List.filterMap_append, List.filterMap_cons]
      have := hs2
      rw [stagesOf] at this
      simp [this, stagesOf]
    have hso : stageOf r.log = stageOf l1 := by
      rw [e, show l1 ++ .cleanup :: l2 = (l1 ++ [.cleanup]) ++ l2 by simp, stageOf_same _ _ fun x hx => (hno x hx).1,
        stageOf_snoc]
    rw [← hst, k.stages]
    have h1 := hg.1
    rw [← hso, k.stage] at h1
    rw [show (r.state + 1).toNat = c.stages.length by omega]
  · rw [cleanups, List.countP_eq_zero]
    intro x hx
    cases x with
    | cleanup => exact absurd rfl (hno _ hx).2.2
    | _ => simp

/-- C47 (terminating). A run with stages has terminated exactly when its thread has finished its last section, two for each
stage and one to start; it takes no more sections than that, whatever else happens. -/
theorem C47_sections (c : Conf D A U) (u : U) (t0 : Int) (h : List (Ev D)) (r : Run D A U)
    (hr : exec c (newRun D A u t0) h = .ok r) (hc : c.stages ≠ []) :
    threads h ≤ 2 * c.stages.length + 1 ∧ (r.terminated = true ↔ threads h = 2 * c.stages.length + 1) := by
  have a := agree_exec hr
  have i := a.inv
  have hl : 0 < c.stages.length := List.length_pos_iff.2 hc
  have hd := i.done
  have hs := i.staged
  have hp := i.pausing
  rw [i.term, decide_eq_true_eq]
  rcases place_cases a.place with ⟨e, h1⟩ | ⟨e, h1⟩ | ⟨e, h1⟩ | ⟨e, h1⟩ | ⟨e, h1⟩ | ⟨e, h1⟩
  · rw [e]; simp only [reduceCtorEq, false_iff]; omega
  · rw [e]; simp only [reduceCtorEq, false_iff]; omega
  · omega
  · rw [e]; have := hs e; simp only [reduceCtorEq, false_iff]; omega
  · rw [e]; have := hp e; simp only [reduceCtorEq, false_iff]; omega
  · rw [e]; have := hd e; simp only [true_iff]; omega

/-- C47 (stays). Once terminated, a run stays terminated. -/
theorem C47_stays (c : Conf D A U) (u : U) (t0 : Int) (h g : List (Ev D)) (r r' : Run D A U)
    (hr : exec c (newRun D A u t0) h = .ok r) (hg : exec c r g = .ok r') (ht : r.terminated = true) : r'.terminated = true := by
  have hr' : exec c (newRun D A u t0) (h ++ g) = .ok r' := by rw [exec_append, hr]; exact hg
  have a := agree_exec hr
  have a' := agree_exec hr'
  have hph : r.phase = .done := by have := a.inv.term; rw [ht] at this; simpa using this.symm
  clear hr'
  induction g generalizing r h with
  | nil => rw [exec] at hg; rw [← Outcome.ok.inj hg]; exact ht
  | cons e g ih =>
    rw [exec, Outcome.bind_eq_ok] at hg
    obtain ⟨r1, h1, h2⟩ := hg
    have hr1 : exec c (newRun D A u t0) (h ++ [e]) = .ok r1 := by rw [exec_append, hr, Outcome.bind_ok, exec, h1]; rfl
    have a1 := agree_exec hr1
    have hd : r1.phase = .done := by
      cases e with
      | thread => rw [step, thread, hph] at h1; cases h1
      | tick t =>
        rw [step] at h1
        by_cases hx : r.now ≤ t
        · rw [if_pos hx] at h1; rw [← Outcome.ok.inj h1]; exact hph
        · rw [if_neg hx] at h1; cases h1
      | msg m => rw [step] at h1; rw [(receive_ok a.inv h1).2.1]; exact hph
    exact ih (h ++ [e]) r1 hr1 h2 (by rw [a1.inv.term, hd]; rfl) a1 (by simpa using a') hd

/-- C47 (can always terminate). If no function of the protocol panics, then from every reachable state, whatever arrived, the
run terminates with nothing but time and sections of its thread. -/
theorem C47_terminates (c : Conf D A U) (u : U) (t0 : Int) (h : List (Ev D)) (r : Run D A U)
    (hr : exec c (newRun D A u t0) h = .ok r) (ht : Total c) :
    ∃ g r', Alone g ∧ exec c r g = .ok r' ∧ r'.terminated = true :=
  completes (2 * c.stages.length + 2) hr (.inr ht) (by omega)

/-- C56 (no drift). In stage `k`, whatever time the work of this and earlier stages took and however late the thread ran, the
thread goes on exactly from the time it started plus the sum of the timeouts of stages 0 to `k`, not before and with no other
condition. -/
theorem C56_no_drift (c : Conf D A U) (u : U) (t0 : Int) (h : List (Ev D)) (r : Run D A U) (k : Nat)
    (hr : exec c (newRun D A u t0) h = .ok r) (hk : stageOf r.log = k) (hp : inPause r.log = false)
    (ht : r.terminated = false) :
    (∃ r', step c r .thread = .ok r') ↔ startTime t0 h + ((c.stages.take (k + 1)).map Stage.timeout).sum ≤ clock t0 h := by
  have a := agree_exec hr
  have i := a.inv
  rw [i.core.stage] at hk
  rw [i.core.pause] at hp
  have hph : r.phase = .staged := by
    cases h1 : r.phase with
    | fresh => have := (i.fresh (.inl h1)).1; omega
    | started => have := (i.fresh (.inr h1)).1; omega
    | staged => rfl
    | pausing => rw [(i.pausing h1).2.2] at hp; cases hp
    | done => rw [i.term, h1] at ht; cases ht
  have hd := a.deadline (by rw [hph]; decide)
  rw [timeouts, hk, show ((k : Int) + 1).toNat = k + 1 by omega] at hd
  rw [← hd, ← a.now, step, thread, hph]
  dsimp only
  have hs := i.staged hph
  by_cases h1 : r.deadline ≤ r.now
  · rw [if_pos h1, loopTop]
    simp only [h1, iff_true]
    by_cases h2 : r.state < (c.stages.length : Int) - 1
    · rw [if_pos h2, if_pos (by omega)]; exact ⟨_, rfl⟩
    · rw [if_neg h2]; exact ⟨_, rfl⟩
  · rw [if_neg h1]; simp [h1]

theorem protocolTimeout_eq (c : Conf D A U) : protocolTimeout c = (c.stages.map Stage.timeout).sum := by
  have : ∀ (l : List (Stage D A U)) (t : Int), l.foldl (fun t s => t + s.timeout) t = t + (l.map Stage.timeout).sum := by
    intro l
    induction l with
    | nil => simp
    | cons s l ih => intro t; rw [List.foldl_cons, ih]; simp; omega
  rw [protocolTimeout, this]; simp

/-- C56 (window). If the run's thread started at most one second after the scheduled start, then when the firewall's
allowance stops, the end of every stage of the run has been reached on its schedule. -/
theorem C56_window (c : Conf D A U) (u : U) (t0 start : Int) (h : List (Ev D)) (r : Run D A U) (k : Nat)
    (hr : exec c (newRun D A u t0) h = .ok r) (hpos : ∀ s ∈ c.stages, 0 ≤ s.timeout) (hs : startTime t0 h ≤ start + 1000)
    (hstop : (runnerAllowance c start).stop ≤ clock t0 h) (hk : stageOf r.log = k) (hp : inPause r.log = false)
    (ht : r.terminated = false) :
    startTime t0 h + ((c.stages.take (k + 1)).map Stage.timeout).sum ≤ clock t0 h ∧ ∃ r', step c r .thread = .ok r' := by
  have hsum : ((c.stages.take (k + 1)).map Stage.timeout).sum ≤ (c.stages.map Stage.timeout).sum := by
    conv_rhs => rw [← List.take_append_drop (k + 1) c.stages, List.map_append, List.sum_append]
    have : 0 ≤ ((c.stages.drop (k + 1)).map Stage.timeout).sum := by
      apply List.sum_nonneg
      intro x hx
      rw [List.mem_map] at hx
      obtain ⟨s, hs, rfl⟩ := hx
      exact hpos s (List.mem_of_mem_drop hs)
    omega
  have h1 : start + (protocolTimeout c + 1000) ≤ clock t0 h := hstop
  rw [protocolTimeout_eq] at h1
  have h2 : startTime t0 h + ((c.stages.take (k + 1)).map Stage.timeout).sum ≤ clock t0 h := by omega
  exact ⟨h2, (C56_no_drift c u t0 h r k hr hk hp ht).2 h2⟩

/-- A protocol with three stages: the first announces a number to everybody for the second stage, in which received numbers
are added up; in the third a received number makes the run be abandoned. -/
def demoConf : Conf Nat Nat Nat :=
  { pc := 0, id := "run", self := 0, members := 3, stages := [
      ⟨some fun u => .ok (u, [.broadcast 1 7]), none, .ok, fun _ _ => .ok true, fun _ => true, 25⟩,
      ⟨none, some fun u a => .ok (u + a, []), .ok, fun a i => .ok (decide ((a : Int) % 10 = i)), fun _ => true, 75⟩,
      ⟨some fun u => .ok (u, []), some fun u _ => .ok (u, [.abandon]), .ok, fun _ _ => .ok true, fun d => decide (d ≠ 5), 75⟩] }

/-- A message to the demonstration run. -/
def demoMsg (sender op : Int) (d : Nat) : Message Nat := ⟨sender, 0, 0, "run", op, d⟩

/-- Two early messages for stage 1, one in time, one from an impostor, one in the pause after it, two for stage 2, the first
of which makes the run be abandoned, and one late message; then the run ends. -/
def demoHistory : List (Ev Nat) :=
  [.tick 100, .thread, .msg (demoMsg 1 1 11), .thread, .msg (demoMsg 2 1 12), .tick 125, .thread, .tick 130, .thread, .msg (demoMsg 2 1 2),
   .msg (demoMsg 2 1 1), .tick 200, .thread, .msg (demoMsg 2 1 22), .tick 205, .thread, .msg (demoMsg 1 2 5), .msg (demoMsg 1 2 1),
   .msg (demoMsg 2 2 2), .msg (demoMsg 1 1 1), .tick 275, .thread]

/-- The trace of an outcome. -/
def traceOf (x : Outcome (Run Nat Nat Nat)) : List (Entry Nat Nat) := match x with | .ok r => r.log | _ => []

/-- C42–C47, C56 are not vacuous: what happens in that history. -/
theorem demo_trace :
    let x := exec demoConf (newRun Nat Nat 0 0) demoHistory
    let l := traceOf x
    x.isOk = true ∧ handledOf 1 l = [demoMsg 1 1 11, demoMsg 2 1 12, demoMsg 2 1 2, demoMsg 2 1 1] ∧
      invokedOf 1 l = [demoMsg 1 1 11, demoMsg 2 1 12, demoMsg 2 1 2] ∧
      handledOf 2 l = [demoMsg 1 2 5, demoMsg 1 2 1, demoMsg 2 2 2] ∧ invokedOf 2 l = [demoMsg 1 2 1] ∧ gaveUp l = true ∧
      sentOf 1 l = [⟨0, 0, 1, "run", 1, 7⟩, ⟨0, 0, 2, "run", 1, 7⟩] ∧ stagesOf l = [0, 1, 2] ∧ cleanups l = 1 ∧
      early 1 l = [demoMsg 1 1 11, demoMsg 2 1 12] ∧ inTime 1 l = [demoMsg 2 1 2, demoMsg 2 1 1] := by
  decide +kernel

/-- The buffered announcement is not sent before stage 1, and the first stage ends 25 ms after the thread started. -/
theorem demo_before :
    let x := exec demoConf (newRun Nat Nat 0 0) (demoHistory.take 5)
    sentOf 1 (traceOf x) = [] ∧ (requestsOf 1 (traceOf x)).length = 2 ∧ stageOf (traceOf x) = 0 ∧
      startTime 0 (demoHistory.take 5) = 100 ∧ (exec demoConf (newRun Nat Nat 0 0) (demoHistory.take 5 ++ [.tick 124, .thread])).isOk = false ∧
      (exec demoConf (newRun Nat Nat 0 0) (demoHistory.take 5 ++ [.tick 125, .thread])).isOk = true := by
  decide +kernel

/-- The demonstration protocol does not panic. -/
example : Total demoConf := by
  intro s hs
  simp only [demoConf, List.mem_cons, List.not_mem_nil, or_false] at hs
  rcases hs with rfl | rfl | rfl
  all_goals
    refine ⟨?_, ?_, by simp, fun _ _ => ⟨_, rfl⟩⟩
    · intro f hf; simp at hf; try (subst hf; exact fun u => ⟨_, rfl⟩)
    · intro f hf; simp at hf; try (subst hf; exact fun u a => ⟨_, rfl⟩)

end Verif.Props
