import Verif.Proofs.ProgramLive
import Verif.Props.Registry

/-! When nothing more happens by itself in the program, everything has been done. -/
namespace Verif
theorem Outcome.bind_ne_err {α β : Type} {x : Outcome α} {f : α → Outcome β} (h : x ≠ .err) (hf : ∀ a, x = .ok a → f a ≠ .err) :
    x >>= f ≠ .err := by
  cases x with
  | ok a => exact hf a rfl
  | err => exact absurd rfl h
  | panic => exact nofun

theorem Outcome.orPanic_ne_err {α : Type} (x : Outcome α) : x.orPanic ≠ .err := by cases x <;> exact nofun

theorem Outcome.ok_ne_err {α : Type} (a : α) : (Outcome.ok a) ≠ .err := nofun
end Verif

namespace Verif.Prot
variable {D A U : Type}

theorem processMsg_ne_err (c : Conf D A U) (r : Run D A U) (m : Message D) : processMsg c r m ≠ .err := by
  rw [processMsg]
  dsimp only
  by_cases ha : r.abandon = true
  · rw [if_pos ha]; exact nofun
  rw [if_neg ha]
  cases c.stage? m.op with
  | none => exact nofun
  | some stage =>
    dsimp only
    cases stage.proc with
    | none => exact nofun
    | some proc =>
      dsimp only
      by_cases ht : (!stage.typeOk m.dto) = true
      · rw [if_pos ht]; exact nofun
      rw [if_neg ht]
      cases stage.unmarshal m.dto with
      | panic => exact nofun
      | err => exact nofun
      | ok arg =>
        dsimp only
        by_cases hs : (!(decide (0 ≤ m.sender) && decide (m.sender < c.members))) = true
        · rw [if_pos hs]; exact nofun
        rw [if_neg hs]
        cases stage.senderValid arg m.sender with
        | panic => exact nofun
        | err => exact nofun
        | ok v =>
          cases v with
          | false => exact nofun
          | true => exact Outcome.bind_ne_err (Outcome.orPanic_ne_err _) fun x _ => nofun

theorem processAll_ne_err (c : Conf D A U) (ms : List (Message D)) (r : Run D A U) : processAll c r ms ≠ .err := by
  induction ms generalizing r with
  | nil => exact nofun
  | cons m ms ih => exact Outcome.bind_ne_err (processMsg_ne_err c r m) fun r' _ => ih r'

theorem callStep_ne_err (c : Conf D A U) (r : Run D A U) (stage : Stage D A U) : callStep c r stage ≠ .err := by
  rw [callStep]
  by_cases ha : r.abandon = true
  · rw [if_pos ha]; exact nofun
  rw [if_neg ha]
  cases stage.step with
  | none => exact nofun
  | some st => exact Outcome.bind_ne_err (Outcome.orPanic_ne_err _) fun x _ => nofun

theorem enterStage_ne_err (c : Conf D A U) (r : Run D A U) : enterStage c r ≠ .err := by
  rw [enterStage]
  dsimp only
  cases c.stage? (r.state + 1) with
  | none => exact nofun
  | some stage =>
    exact Outcome.bind_ne_err (callStep_ne_err _ _ _) fun r1 _ => Outcome.bind_ne_err (processAll_ne_err _ _ _) fun r2 _ => nofun

theorem loopTop_ne_err (c : Conf D A U) (r : Run D A U) : loopTop c r ≠ .err := by
  rw [loopTop]
  by_cases h1 : r.state < (c.stages.length : Int) - 1
  · rw [if_pos h1]
    by_cases h2 : r.state > -1
    · rw [if_pos h2]; exact nofun
    · rw [if_neg h2]; exact enterStage_ne_err c r
  · rw [if_neg h1]; exact nofun

/-- The thread only waits for its time. -/
theorem thread_ne_err (c : Conf D A U) {r : Run D A U} (hd : r.deadline ≤ r.now) (hp : r.pauseEnd ≤ r.now) (hf : r.phase ≠ .done) :
    thread c r ≠ .err := by
  rw [thread]
  cases h : r.phase with
  | fresh => exact nofun
  | started => exact loopTop_ne_err c r
  | staged => dsimp only; rw [if_pos hd]; exact loopTop_ne_err c r
  | pausing => dsimp only; rw [if_pos hp]; exact enterStage_ne_err c _
  | done => exact absurd h hf

theorem receive_ne_err (c : Conf D A U) (r : Run D A U) (m : Message D) : receive c r m ≠ .err := by
  rw [receive]
  dsimp only
  split
  · exact nofun
  · split
    · exact nofun
    · exact processMsg_ne_err c _ m

end Verif.Prot

namespace Verif.Firewall
variable {D : Type}

/-- The thread of an allowance only waits for its times. -/
theorem section_ok {f : Fw D} (h : Inv f) {i : Nat} {c : Call} (hc : f.calls[i]? = some c) (hl : c.live = true) (hs : c.sections < 4)
    (ht : c.allow.buf ≤ f.now ∧ c.allow.start ≤ f.now ∧ c.allow.stop ≤ f.now) : ∃ f', step f (.step i) = .ok f' := by
  have ho := (h.obs i c hc).1
  have hcap : c.obs.length < obsCap := by rw [obsCap]; omega
  rw [step, stateStep, hc]
  simp only [hl, Bool.not_true, Bool.false_eq_true, if_false]
  by_cases h0 : c.sections = 0
  · rw [if_pos h0]; exact ⟨_, rfl⟩
  have hld := (h.loaded i c hc).1 (by omega)
  rw [hld, if_neg h0]
  by_cases h1 : c.sections = 1
  · rw [if_pos h1, if_pos ⟨ht.1, hcap⟩]; exact ⟨_, rfl⟩
  rw [if_neg h1]
  by_cases h2 : c.sections = 2
  · rw [if_pos h2, if_pos ⟨ht.2.1, hcap⟩]; exact ⟨_, rfl⟩
  · rw [if_neg h2, if_pos (by omega), if_pos ⟨ht.2.2, hcap⟩]; exact ⟨_, rfl⟩

end Verif.Firewall

namespace Verif.Registry

/-- A run that was created and not deleted is registered. -/
theorem registered {s : Reg} (h : RunsInv s) {k : RunKey} {r : Nat} {o : Obj} (ho : s.objs[r]? = some o) (hk : o.key = k)
    (hd : Entry.deleted k ∉ s.log) : ∃ r', s.runs.get? k = some r' := by
  have h1 : (Spec.Registry.creations s.log)[r]? = some (k, r) := by
    rw [h.made, List.getElem?_zipIdx, List.getElem?_map, ho]
    simp [hk]
  have h2 := List.mem_of_getElem? h1
  rw [Spec.Registry.creations, List.mem_filterMap] at h2
  obtain ⟨x, hx, e⟩ := h2
  cases x with
  | created k' r' =>
    have e := Option.some.inj e
    injection e with e1 e2
    subst e1; subst e2
    obtain ⟨l1, l2, e3⟩ := List.append_of_mem hx
    have := Spec.Registry.live_of_created k' r' l1 l2 (fun hm => hd (by rw [e3]; simp [hm]))
    rw [← e3, ← h.live] at this
    exact Option.ne_none_iff_exists'.1 this
  | deleted k' => cases e
  | started r' => cases e

end Verif.Registry

namespace Verif.Program
open Verif.Prot Verif.Dto Verif.Dss Verif.Dkg Verif.Tables Verif.Signode Verif.Props Verif.Spec.Prot Verif.Spec.Program
open Verif.Registry (lt_of_some)
variable {K : Type} {c : Cfg K} {W : Message Dto → Prop}

/-- It is so late that nothing waits for its time. -/
structure Late (s : Sys K) : Prop where
  drop : s.node.fw.dropUntil ≤ s.node.fw.now
  calls : ∀ x ∈ s.node.fw.calls, x.allow.buf ≤ s.node.fw.now ∧ x.allow.start ≤ s.node.fw.now ∧ x.allow.stop ≤ s.node.fw.now
  runners : ∀ u ∈ s.node.runners, u.allow.start ≤ s.node.fw.now
  runs : ∀ u ∈ s.runs, u.deadline ≤ s.node.fw.now ∧ u.pauseEnd ≤ s.node.fw.now

/-- Nothing can happen by itself. -/
def Quiet (c : Cfg K) (s : Sys K) : Prop := ∀ e, own e = true → step c s e = .err

theorem nodeEvent_err {s : Sys K} {e : Node.Ev Dto} (h : nodeEvent c s e = .err) : Node.step s.node e = .err := by
  by_contra hn
  exact Outcome.bind_ne_err hn (fun _ _ => Outcome.ok_ne_err _) h

theorem pushOutput_ne_err {V : Type} (o : Outputs V) (pc g : Int) (id : String) (v : V) : pushOutput o pc g id v ≠ .err := by
  rw [pushOutput]
  cases o.get? (pc, g) <;> exact nofun

theorem pushAll_ne_err (k : RunKey) (vs : List Output) (o : Outputs Output) : pushAll o k vs ≠ .err := by
  induction vs generalizing o with
  | nil => exact nofun
  | cons v vs ih => exact Outcome.bind_ne_err (pushOutput_ne_err _ _ _ _ _) fun o' _ => ih o'

/-- A section of a run that does not wait. -/
theorem runEvent_ne_err {s : Sys K} {r : Nat} {u : Run Dto Obj (Data K)} {o : Registry.Obj} {e : Prot.Ev Dto} (hu : s.runs[r]? = some u)
    (ho : s.node.reg.objs[r]? = some o) (ht : u.now ≤ s.node.fw.now)
    (he : ∀ cf : Conf Dto Obj (Data K), Prot.step cf { u with now := s.node.fw.now } e ≠ .err) : runEvent c s r e ≠ .err := by
  rw [runEvent, hu, ho]
  dsimp only
  refine Outcome.bind_ne_err ?_ fun u' _ => Outcome.bind_ne_err (pushAll_ne_err _ _ _) fun _ _ => nofun
  rw [exec, Prot.step, if_pos ht, Outcome.bind_ok, exec]
  exact Outcome.bind_ne_err (he _) fun _ _ => nofun

/-- What keeps the program going, whatever protocol its runs follow. -/
structure Whole (s : Sys K) : Prop where
  good : ∀ k, Node.Good k s.node
  orig : Node.Orig s.node
  uniq : ∀ (k : RunKey) (i : Nat) (u : Node.Runner) (j : Nat) (v : Node.Runner), s.node.runners[i]? = some u → s.node.runners[j]? = some v →
    u.key = k → v.key = k → i = j
  one : ∀ {r r' : Nat} {o o' : Registry.Obj}, s.node.reg.objs[r]? = some o → s.node.reg.objs[r']? = some o' → o'.key = o.key → r = r'
  len : s.runs.length = s.node.reg.objs.length
  term : ∀ (r : Nat) (o : Registry.Obj) (u : Run Dto Obj (Data K)), s.node.reg.objs[r]? = some o → s.runs[r]? = some u →
    o.terminated = true → u.phase = .done
  f : FInv s
  over : ∀ (r : Nat) (o : Registry.Obj) (u : Run Dto Obj (Data K)), s.node.reg.objs[r]? = some o → s.runs[r]? = some u →
    u.phase = .done → o.terminated = true
  clock : ∀ u ∈ s.runs, u.now ≤ s.node.fw.now
  held : Node.Held s.node
  made : Node.Made s.node
  loc : Node.Loc s.node

theorem Known.whole {s : Sys K} (h : Known c W s) : Whole s :=
  ⟨h.p.n.good, h.p.n.orig, h.p.n.uniq, h.p.n.one, h.p.u.len, h.p.u.term, h.p.f, h.l.over, h.l.clock, h.held, h.made, h.loc⟩

theorem quiet_tasks {s : Sys K} (h : Whole s) (hq : Quiet c s) : s.node.reg.tasks = [] := by
  by_contra hn
  obtain ⟨r', hr⟩ := Registry.task_ok h.orig.runs h.orig.obs 0 (List.length_pos_iff.2 hn)
  have := nodeEvent_err (hq (.task 0) rfl)
  rw [Node.step, Node.regEvent, hr] at this
  cases this

theorem quiet_cons {s : Sys K} (h : Whole s) (hq : Quiet c s) (q : Int × Int) : s.node.cons q = .idle ∧ s.node.queues q = [] := by
  by_contra hn
  have h1 : s.node.cons q ≠ .idle ∨ s.node.queues q ≠ [] := by
    by_cases e : s.node.cons q = .idle
    · exact .inr fun e' => hn ⟨e, e'⟩
    · exact .inl e
  obtain ⟨n, hc, _⟩ := Node.consume_ok (h.good ⟨0, 0, ""⟩).q q h1
  have hne : ∀ s1 : Sys K, s1.node = s.node → nodeEvent c s1 (.cons q) ≠ .err := by
    intro s1 e hx
    have := nodeEvent_err hx
    rw [e, Node.step, hc] at this
    cases this
  have he := hq (.cons q) rfl
  rw [step, consStep] at he
  cases hcq : s.node.cons q with
  | idle => rw [hcq] at he; exact hne s rfl he
  | got m =>
    rw [hcq] at he
    exact Outcome.bind_ne_err (hne s rfl) (fun _ _ => Outcome.ok_ne_err _) he
  | found m =>
    rw [hcq] at he
    dsimp only at he
    obtain ⟨o, ho, _⟩ := h.f q m hcq
    have hlt : s.found q < s.runs.length := by rw [h.len]; exact lt_of_some ho
    have hu := List.getElem?_eq_getElem hlt
    refine Outcome.bind_ne_err (runEvent_ne_err (e := .msg m) hu ho (h.clock _ (List.mem_of_getElem? hu)) fun cf => receive_ne_err cf _ m)
      (fun s1 h1 => ?_) he
    obtain ⟨_, _, _, _, _, _, _, _, e1⟩ := run_ok h1
    exact hne s1 (by rw [e1])

theorem quiet_calls {s : Sys K} (h : Whole s) (hL : Late s) (hq : Quiet c s) {i : Nat} {x : Firewall.Call} (hx : s.node.fw.calls[i]? = some x)
    (hl : x.live = true) : x.sections = 4 := by
  have hF := (h.good ⟨0, 0, ""⟩).r.fw
  by_contra hn
  have := (hF.obs i x hx).2.1
  obtain ⟨f', hf⟩ := Firewall.section_ok hF hx hl (by omega) (hL.calls x (List.mem_of_getElem? hx))
  have := nodeEvent_err (hq (.fwStep i) rfl)
  rw [Node.step, Node.fwEvent, hf] at this
  cases this

theorem quiet_runs {s : Sys K} (h : Whole s) (hL : Late s) (hq : Quiet c s) {r : Nat} {o : Registry.Obj}
    (ho : s.node.reg.objs[r]? = some o) : o.terminated = true := by
  have hlt : r < s.runs.length := by rw [h.len]; exact lt_of_some ho
  have hu := List.getElem?_eq_getElem hlt
  generalize s.runs[r] = u at hu
  by_cases hd : u.phase = .done
  · exact h.over r o u ho hu hd
  exfalso
  have hm := List.mem_of_getElem? hu
  obtain ⟨t1, _, _, t4⟩ := h.orig.runs.thread r o ho
  rw [quiet_tasks h hq, Registry.total] at t1
  have he := hq (.thread r) rfl
  rw [step, threadStep, ho] at he
  dsimp only at he
  rw [if_neg (by omega)] at he
  refine Outcome.bind_ne_err (runEvent_ne_err (e := .thread) hu ho (h.clock u hm) fun cf =>
    thread_ne_err cf (r := { u with now := s.node.fw.now }) (hL.runs u hm).1 (hL.runs u hm).2 hd) (fun s1 h1 => ?_) he
  obtain ⟨_, _, _, _, _, _, _, _, e1⟩ := run_ok h1
  by_cases hp : phaseOf s1 r = some .done
  · rw [if_pos hp]
    intro hx
    have := nodeEvent_err hx
    have en : s1.node = s.node := by rw [e1]
    have hnt : ¬ 0 < o.ended := fun hx => hd (h.term r o u ho hu (t4.2 hx))
    rw [en, Node.step, Node.regEvent, Registry.step, Registry.finish, ho] at this
    dsimp only at this
    rw [if_pos (by omega)] at this
    cases this
  · rw [if_neg hp]; exact nofun

theorem quiet_runners {s : Sys K} (h : Whole s) (hL : Late s) (hq : Quiet c s) {j : Nat} {u : Node.Runner}
    (hu : s.node.runners[j]? = some u) : 9 ≤ u.pos := by
  have hR := (h.good ⟨0, 0, ""⟩).r
  have hm := List.mem_of_getElem? hu
  have he := nodeEvent_err (hq (.runner j) rfl)
  have hat : ∀ (t : Node.Sys Dto) (k : RunKey) (e : Registry.Ev), Registry.step t.reg e ≠ .err → Node.regEventAt t k e ≠ .err := by
    intro t k e h
    rw [Node.regEventAt]
    by_cases hv : Firewall.keyValid t.fw k = true
    · rw [if_pos hv]; exact Outcome.bind_ne_err h fun _ _ => nofun
    · rw [if_neg hv]; exact nofun
  by_contra hn
  rw [Node.step, Node.runnerStep, hu] at he
  dsimp only at he
  by_cases h0 : u.pos = 0
  · rw [if_pos h0] at he; exact hat _ _ _ (by exact nofun) he
  rw [if_neg h0] at he
  by_cases h1 : u.pos = 1
  · rw [if_pos h1] at he
    refine Outcome.bind_ne_err ?_ (fun _ _ => Outcome.ok_ne_err _) he
    rw [Firewall.step, Firewall.setAllowance]
    split
    · exact nofun
    · split <;> exact nofun
  rw [if_neg h1] at he
  by_cases h3 : u.pos = 3
  · rw [if_pos h3, if_pos (hL.runners u hm)] at he; cases he
  rw [if_neg h3] at he
  by_cases h4 : u.pos = 4
  · rw [if_pos h4] at he; exact hat _ _ _ (by exact nofun) he
  rw [if_neg h4] at he
  by_cases h5 : u.pos = 5
  · rw [if_pos h5] at he
    obtain ⟨ch, hch, hck, _⟩ := h.orig.chan j u hu (by omega)
    obtain ⟨o, ho, hok⟩ := h.made u hm (by omega)
    obtain ⟨r, hr⟩ := List.mem_iff_getElem?.1 ho
    have hnd : Registry.Entry.deleted u.key ∉ s.node.reg.log := by
      intro hx
      obtain ⟨_, v, hv, hv9, hvk⟩ := (h.good ⟨0, 0, ""⟩).q.del _ hx
      obtain ⟨j', hj'⟩ := List.mem_iff_getElem?.1 hv
      have e := h.uniq u.key j u j' v hu hj' rfl hvk
      subst e
      have := Option.some.inj (hu.symm.trans hj')
      subst this
      omega
    obtain ⟨r', hr'⟩ := Registry.registered h.orig.runs hr hok hnd
    obtain ⟨o', ho', hok'⟩ := h.orig.runs.reg _ _ hr'
    obtain ⟨_, hcl⟩ := Registry.notified h.orig.obs hr' ho' (quiet_runs h hL hq ho') hch hck (by rw [quiet_tasks h hq]; exact nofun)
    rw [Node.regEvent, Registry.step, Registry.recv] at he
    dsimp only at he
    rw [hch] at he
    dsimp only at he
    by_cases hun : 0 < ch.unread
    · rw [if_pos hun] at he; cases he
    · rw [if_neg hun, if_pos hcl] at he; cases he
  rw [if_neg h5] at he
  by_cases h2 : u.pos = 2 ∨ u.pos = 6 ∨ u.pos = 7
  · rw [if_pos h2] at he
    obtain ⟨x, hx, _, _, hlive⟩ := h.held u hm (by omega)
    obtain ⟨x', hx', _, hrd⟩ := hR.called j u hu (by omega)
    have := Option.some.inj (hx.symm.trans hx')
    subst this
    have h4s := quiet_calls h hL hq hx hlive
    have hne : x.obs ≠ [] := by
      intro e
      rw [Firewall.reads, e, h4s, Node.readsAt] at hrd
      rcases h2 with hp | hp | hp <;> rw [hp] at hrd <;> simp at hrd
    refine Outcome.bind_ne_err ?_ (fun _ _ => Outcome.ok_ne_err _) he
    rw [Firewall.step]
    dsimp only
    rw [hx]
    dsimp only
    rw [if_neg hne]
    exact nofun
  rw [if_neg h2, if_pos (by omega), Node.sendSignal] at he
  dsimp only at he
  by_cases hneg : -u.key.pc < 0
  · rw [if_pos hneg, (quiet_cons h hq _).2, if_pos (by decide)] at he; cases he
  · rw [if_neg hneg] at he; cases he

theorem quiet_jobs {s : Sys K} (h : Known c W s) (hL : Late s) (hq : Quiet c s) {b : JobSt} (hb : b ∈ s.jobs) : b.pc = .ended := by
  obtain ⟨i, hi⟩ := List.mem_iff_getElem?.1 hb
  have he : ∀ g, jobStep c s i g = .err := fun g => hq (.job i g) rfl
  -- in a loop over the guests there is a next one, or the loop is over
  have next : (c.guests.all fun g => decide (g ∈ b.done)) = true ∨
      ((c.guests.all fun g => decide (g ∈ b.done)) = false ∧ ∃ g, (decide (g ∈ c.guests) && decide (g ∉ b.done)) = true) := by
    cases ha : c.guests.all fun g => decide (g ∈ b.done) with
    | true => exact .inl rfl
    | false =>
      rw [List.all_eq_false] at ha
      obtain ⟨g, hg, hd⟩ := ha
      exact .inr ⟨rfl, g, by simpa using ⟨hg, by simpa using hd⟩⟩
  have step1 : ∀ g, jobStep c s i g = .err := he
  cases hpc : b.pc with
  | ended => rfl
  | registering =>
    exfalso
    rcases next with ho | ⟨ho, g, hg⟩
    · have := he 0
      rw [jobStep, hi] at this
      dsimp only at this
      rw [hpc] at this
      dsimp only at this
      rw [if_pos ho] at this
      cases this
    · have := he g
      rw [jobStep, hi] at this
      dsimp only at this
      rw [hpc] at this
      dsimp only at this
      rw [if_neg (by rw [ho]; decide), if_pos hg] at this
      refine Outcome.bind_ne_err ?_ (fun _ _ => Outcome.ok_ne_err _) this
      rw [docStep]
      cases s.docs.get? g <;> exact nofun
  | launching =>
    exfalso
    have := he 0
    rw [jobStep, hi] at this
    dsimp only at this
    rw [hpc] at this
    dsimp only at this
    refine Outcome.bind_ne_err ?_ (fun _ _ => Outcome.ok_ne_err _) this
    generalize c.guests = gs
    have : ∀ (gs : List Int) (t : Sys K), launchAll c t b.job gs ≠ .err := by
      intro gs
      induction gs with
      | nil => exact fun t => nofun
      | cons g gs ih => exact fun t => Outcome.bind_ne_err (fun hx => (by cases nodeEvent_err hx)) fun t' _ => ih t'
    exact this gs s
  | waiting =>
    exfalso
    have := he 0
    rw [jobStep, hi] at this
    dsimp only at this
    rw [hpc] at this
    dsimp only at this
    rw [if_pos] at this
    · cases this
    · rw [List.all_eq_true]
      intro j hj
      have hu := List.getElem?_eq_getElem (h.l.own b hb j hj)
      have := quiet_runners h.whole hL hq hu
      rw [released, hu, Option.map_some, Option.getD_some, decide_eq_true_eq]
      omega
  | deregistering =>
    exfalso
    rcases next with ho | ⟨ho, g, hg⟩
    · have := he 0
      rw [jobStep, hi] at this
      dsimp only at this
      rw [hpc] at this
      dsimp only at this
      rw [if_pos ho] at this
      cases this
    · have := he g
      rw [jobStep, hi] at this
      dsimp only at this
      rw [hpc] at this
      dsimp only at this
      rw [if_neg (by rw [ho]; decide), if_pos hg] at this
      refine Outcome.bind_ne_err ?_ (fun _ _ => Outcome.ok_ne_err _) this
      rw [docStep]
      cases s.docs.get? g <;> exact nofun
  | printing =>
    exfalso
    rcases next with ho | ⟨ho, g, hg⟩
    · have := he 0
      rw [jobStep, hi] at this
      dsimp only at this
      rw [hpc] at this
      dsimp only at this
      rw [if_pos ho] at this
      cases this
    · have := he g
      rw [jobStep, hi] at this
      dsimp only at this
      rw [hpc] at this
      dsimp only at this
      rw [if_neg (by rw [ho]; decide), if_pos hg] at this
      refine Outcome.bind_ne_err ?_ (fun x _ => Outcome.bind_ne_err ?_ fun _ _ => Outcome.ok_ne_err _) this
      · rw [popOutput]
        cases s.outs.get? (1, g) <;> exact nofun
      · rw [printed.eq_def]
        cases x.2 with
        | none => exact nofun
        | some v => cases v <;> exact nofun

theorem quiet_reg {s : Sys K} (h : Known c W s) (hL : Late s) (hq : Quiet c s) (k : RunKey) : s.node.reg.runs.get? k = none := by
  cases hr : s.node.reg.runs.get? k with
  | none => rfl
  | some r =>
    exfalso
    obtain ⟨o, ho, hk⟩ := h.p.n.orig.runs.reg k r hr
    obtain ⟨u, hu, _, huk⟩ := h.p.n.orig.obj r o ho
    obtain ⟨j, hj⟩ := List.mem_iff_getElem?.1 hu
    have h9 := quiet_runners h.whole hL hq hj
    obtain ⟨hK, _⟩ := (h.p.n.good k).k (by rw [← hk, h.p.n.objPc ho]; decide) (h.p.n.uniq k)
    rcases (hK ⟨u, hu, h9, huk.trans hk⟩).2 with ⟨_, pre, m, post, e, _⟩ | ⟨hgone, _⟩
    · obtain ⟨e1, e2⟩ := quiet_cons h.whole hq (k.pc, k.gidx)
      rw [Node.seq, e1, e2] at e
      simp [Node.held] at e
    · rw [hr] at hgone; cases hgone

theorem quiet_allowances {s : Sys K} (h : Whole s) (hL : Late s) (hq : Quiet c s) (k : RunKey) : s.node.fw.allowances.get? k = none := by
  cases hr : s.node.fw.allowances.get? k with
  | none => rfl
  | some a =>
    exfalso
    obtain ⟨i, x, ⟨h1, h2, h3⟩, _⟩ := (h.good ⟨0, 0, ""⟩).r.fw.allowed k a hr
    have := quiet_calls h hL hq h1 h2
    omega

theorem quiet_latch {s : Sys K} (hL : Late s) (hq : Quiet c s) : s.node.fw.dropAll = false := by
  cases hd : s.node.fw.dropAll with
  | false => rfl
  | true =>
    exfalso
    have := nodeEvent_err (hq .latch rfl)
    rw [Node.step, Node.fwEvent, Firewall.step, if_pos ⟨hd, hL.drop⟩] at this
    cases this

/-- There is a time after any given ones. -/
theorem exists_ge (l : List Int) : ∃ t : Int, ∀ x ∈ l, x ≤ t := by
  induction l with
  | nil => exact ⟨0, fun x hx => absurd hx List.not_mem_nil⟩
  | cons a l ih =>
    obtain ⟨t, ht⟩ := ih
    refine ⟨max a t, fun x hx => ?_⟩
    rcases List.mem_cons.1 hx with rfl | hx
    · exact le_max_left _ _
    · exact (ht x hx).trans (le_max_right _ _)

/-- It can get late. -/
theorem late_tick {s : Sys K} (hlen : s.runs.length = s.node.reg.objs.length) : ∃ t, s.node.fw.now ≤ t ∧ ∃ s1, step c s (.tick t) = .ok s1 ∧
    Late s1 ∧ s1 = { s with node := { s.node with fw := { s.node.fw with now := t } } } := by
  obtain ⟨t, ht⟩ := exists_ge (s.node.fw.now :: s.node.fw.dropUntil ::
    (s.node.fw.calls.flatMap (fun x => [x.allow.buf, x.allow.start, x.allow.stop]) ++ s.node.runners.map (fun u => u.allow.start) ++
      s.runs.flatMap (fun u => [u.deadline, u.pauseEnd])))
  have hnow : s.node.fw.now ≤ t := ht _ (by simp)
  refine ⟨t, hnow, { s with node := { s.node with fw := { s.node.fw with now := t } } }, ?_, ⟨?_, ?_, ?_, ?_⟩, rfl⟩
  · rw [step, nodeEvent, Node.step, Node.fwEvent, Firewall.step, if_pos hnow, Outcome.bind_ok, Outcome.bind_ok]
    dsimp only
    rw [List.drop_length, List.foldl_nil, hlen, List.drop_length, List.map_nil, List.append_nil]
  · exact ht _ (by simp)
  · intro x hx
    have key : ∀ y ∈ [x.allow.buf, x.allow.start, x.allow.stop], y ≤ t := fun y hy => ht y (by
      rw [List.mem_cons, List.mem_cons, List.mem_append, List.mem_append, List.mem_flatMap]
      exact .inr (.inr (.inl (.inl ⟨x, hx, hy⟩))))
    exact ⟨key _ (by simp), key _ (by simp), key _ (by simp)⟩
  · intro u hu
    refine ht _ ?_
    rw [List.mem_cons, List.mem_cons, List.mem_append, List.mem_append]
    exact .inr (.inr (.inl (.inr (List.mem_map_of_mem (f := fun u : Node.Runner => u.allow.start) hu))))
  · intro u hu
    have key : ∀ y ∈ [u.deadline, u.pauseEnd], y ≤ t := fun y hy => ht y (by
      rw [List.mem_cons, List.mem_cons, List.mem_append, List.mem_flatMap]
      exact .inr (.inr (.inr ⟨u, hu, hy⟩)))
    exact ⟨key _ (by simp), key _ (by simp)⟩

end Verif.Program
