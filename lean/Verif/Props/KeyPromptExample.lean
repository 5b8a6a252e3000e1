import Verif.Props.KeyPromptStart
import Verif.Props.KeyExample
import Verif.Props.ProgramPromptExample

/-!
C98 is not vacuous: members 0 and 1 of `Verif.Props.KeyExample`, with everything done in its millisecond. The first attempt starts at 100 ms;
member 0 sends its deal at 130 ms, which reaches member 1 at 135 ms; the attempt ends at 625 ms.
-/
namespace Verif.Props.KeyStart
open Verif.Prot Verif.Layout Verif.Dto Verif.Dss Verif.Dkg Verif.Signode Verif.Tables Verif.Start Verif.Props Verif.Spec.Prot Verif.Spec.Signode
open Verif.Spec.KeyProgram Verif.Props.Start
open Verif.KeyProgram (Cfg Ev Sys)
open Verif.Props.Program (isErr isErr_iff)
variable {K : Type}

/-- Nothing but the main goroutine can do anything now. -/
def kpIdle (c : Cfg K) (s : Sys K) : Bool :=
  let p := s.prog
  let b := c.base
  isErr (Program.step b p .latch) && (List.range p.node.fw.calls.length).all (fun i => isErr (Program.step b p (.fwStep i))) &&
  b.guests.all (fun g => isErr (Program.step b p (.cons (0, g)))) &&
  (List.range p.node.reg.objs.length).all (fun i => isErr (Program.step b p (.thread i))) &&
  (List.range p.node.reg.tasks.length).all (fun i => isErr (Program.step b p (.task i))) &&
  (List.range p.node.runners.length).all (fun i => isErr (Program.step b p (.runner i)))

/-- Nothing can be done now. -/
def kpQuiet (c : Cfg K) (s : Sys K) : Bool :=
  kpIdle c s &&
  (s.file.isSome || (decide (s.main.pc = .waiting) && !s.main.runners.all (Program.released s.prog)))

/-- Only the queues of the guests are used. -/
theorem kp_cons_other {c : Cfg K} {W : Message Dto → Prop} {s : Sys K} (h : Verif.KeyProgram.Known c W s) {q : Int × Int}
    (hq : ∀ g ∈ c.base.guests, q ≠ (0, g)) : s.prog.node.cons q = .idle ∧ s.prog.node.queues q = [] := by
  have hQ := (h.i.p.n.good ⟨0, 0, ""⟩).q
  have bad : ∀ u ∈ s.prog.node.runners, q = (u.key.pc, u.key.gidx) → False := by
    intro u hu e
    obtain ⟨j, g, hg, hk, _⟩ := h.i.m.owner u hu
    rw [hk] at e
    exact hq g hg e
  have hseq : Node.seq s.prog.node q = [] := by
    cases hs : Node.seq s.prog.node q with
    | nil => rfl
    | cons m l =>
      have hm : m ∈ Node.seq s.prog.node q := by rw [hs]; exact List.mem_cons_self
      obtain ⟨_, e⟩ := hQ.at_ q m hm
      by_cases hn : m.pc < 0
      · obtain ⟨u, hu, _, hk⟩ := hQ.sig q m hm hn
        exact (bad u hu (by rw [hk]; exact e)).elim
      · obtain ⟨u, hu, _, hk⟩ := h.i.p.n.orig.way q m hm hn
        rw [Node.target_nonneg hn] at e
        exact (bad u hu (by rw [hk]; exact e)).elim
  rw [Node.seq, List.append_eq_nil_iff] at hseq
  refine ⟨?_, hseq.2⟩
  cases hc : s.prog.node.cons q with
  | idle => rfl
  | got m => rw [hc] at hseq; cases hseq.1
  | found m =>
    obtain ⟨o, ho, hk⟩ := h.i.p.f q m hc
    obtain ⟨j, g, hg, hk', _⟩ := Verif.KeyProgram.obj_owner h.i ho
    rw [hk'] at hk
    refine (hq _ hg ?_).elim
    rw [h.loc q m hc]
    exact congrArg (fun k : RunKey => (k.pc, k.gidx)) hk.symm

theorem kp_idle {c : Cfg K} {W : Message Dto → Prop} {s : Sys K} (h : Verif.KeyProgram.Known c W s) (hq : kpIdle c s = true)
    (e : Program.Ev) (he : own (.prog e) = true) : Verif.KeyProgram.step c s (.prog e) = .err := by
  rw [kpIdle] at hq
  simp only [Bool.and_eq_true, List.all_eq_true, List.mem_range] at hq
  obtain ⟨⟨⟨⟨⟨h1, h2⟩, h3⟩, h4⟩, h5⟩, h6⟩ := hq
  rw [Verif.KeyProgram.step.eq_def]
  by_cases hf : s.file.isSome = true
  · rw [if_pos hf]
  rw [if_neg hf]
  have key : Program.step c.base s.prog e = .err → (Verif.KeyProgram.progStep c s.prog e >>= fun p => .ok { s with prog := p }) = .err := by
    intro hx
    cases e with
    | request j => rfl
    | _ => rw [Verif.KeyProgram.progStep, hx] <;> first | rfl | exact nofun
  refine key ?_
  cases e with
  | tick t => cases he
  | net m => cases he
  | request j => cases he
  | latch => exact isErr_iff h1
  | fwStep i =>
    by_cases hi : i < s.prog.node.fw.calls.length
    · exact isErr_iff (h2 i hi)
    · have hn : s.prog.node.fw.calls[i]? = none := List.getElem?_eq_none (by omega)
      rw [Verif.Program.step, Program.nodeEvent, Node.step, Node.fwEvent, Firewall.step, Firewall.stateStep, hn]; rfl
  | cons q =>
    by_cases hg : ∃ g ∈ c.base.guests, q = (0, g)
    · obtain ⟨g, hg, rfl⟩ := hg
      exact isErr_iff (h3 g hg)
    · obtain ⟨e1, e2⟩ := kp_cons_other h (q := q) fun g hg' e => hg ⟨g, hg', e⟩
      rw [Verif.Program.step, Program.consStep, e1]
      dsimp only
      rw [Program.nodeEvent, Node.step, Node.consume, e1]
      dsimp only
      rw [e2]; rfl
  | thread i =>
    by_cases hi : i < s.prog.node.reg.objs.length
    · exact isErr_iff (h4 i hi)
    · have hn : s.prog.node.reg.objs[i]? = none := List.getElem?_eq_none (by omega)
      rw [Verif.Program.step, Program.threadStep, hn]
  | task i =>
    by_cases hi : i < s.prog.node.reg.tasks.length
    · exact isErr_iff (h5 i hi)
    · have hn : s.prog.node.reg.tasks[i]? = none := List.getElem?_eq_none (by omega)
      rw [Verif.Program.step, Program.nodeEvent, Node.step, Node.regEvent, Registry.step, Registry.taskStep, hn]; rfl
  | runner i =>
    by_cases hi : i < s.prog.node.runners.length
    · exact isErr_iff (h6 i hi)
    · have hn : s.prog.node.runners[i]? = none := List.getElem?_eq_none (by omega)
      rw [Verif.Program.step, Program.nodeEvent, Node.step, Node.runnerStep, hn]; rfl
  | job i g =>
    have hn : s.prog.jobs[i]? = none := by rw [h.i.p.jobs]; rfl
    rw [Verif.Program.step, Program.jobStep.eq_def, hn]

theorem kp_quiet {c : Cfg K} {W : Message Dto → Prop} {s : Sys K} (h : Verif.KeyProgram.Known c W s) (hq : kpQuiet c s = true) :
    ∀ e, own e = true → Verif.KeyProgram.step c s e = .err := by
  rw [kpQuiet, Bool.and_eq_true] at hq
  obtain ⟨hi, h7⟩ := hq
  intro e he
  rw [Verif.KeyProgram.step.eq_def]
  by_cases hf : s.file.isSome = true
  · rw [if_pos hf]
  rw [if_neg hf]
  rw [Bool.or_eq_true, Bool.and_eq_true, decide_eq_true_eq, Bool.not_eq_true'] at h7
  obtain ⟨h7, h8⟩ := h7.resolve_left hf
  cases e with
  | main g =>
    show Verif.KeyProgram.mainStep c s g = .err
    rw [Verif.KeyProgram.mainStep, h7]
    dsimp only
    rw [if_neg (by rw [h8]; simp)]
  | check o =>
    show Verif.KeyProgram.checkStep c s o = .err
    rw [Verif.KeyProgram.checkStep, if_neg (by rw [h7]; rintro ⟨h, _⟩; cases h)]
  | prog e =>
    have := kp_idle h hi e he
    rw [Verif.KeyProgram.step.eq_def, if_neg hf] at this
    exact this

/-- Nothing is late from this state on. -/
def kpPrompt (c : Cfg K) (s : Sys K) : List Ev → Bool
  | [] => true
  | e :: h =>
    (match e with
     | .prog (.tick t) => match Verif.KeyProgram.step c s (.prog (.tick (t - 1))) with
       | .ok s' => kpQuiet c s'
       | _ => true
     | _ => true) &&
    match Verif.KeyProgram.step c s e with
    | .ok s' => kpPrompt c s' h
    | _ => true

theorem kp_prompt {c : Cfg K} {h : List Ev} (hc : Verif.KeyProgram.Fit c) (hp : kpPrompt c (Verif.KeyProgram.init c) h = true) : Prompt c h := by
  have key : ∀ (h h0 : List Ev) (s0 : Sys K), Verif.KeyProgram.run c (Verif.KeyProgram.init c) h0 = .ok s0 → kpPrompt c s0 h = true →
      ∀ h1 t h2, h = h1 ++ .prog (.tick t) :: h2 → ∀ s, Verif.KeyProgram.run c s0 h1 = .ok s → s.prog.node.fw.now < t →
        ∀ s', Verif.KeyProgram.step c s (.prog (.tick (t - 1))) = .ok s' → ∀ e, own e = true → Verif.KeyProgram.step c s' e = .err := by
    intro h
    induction h with
    | nil => intro h0 s0 _ _ h1 t h2 e; simp at e
    | cons e h ih =>
      intro h0 s0 hr hp h1 t h2 he s hs ht s' hs'
      rw [kpPrompt.eq_def] at hp
      dsimp only at hp
      rw [Bool.and_eq_true] at hp
      cases h1 with
      | nil =>
        rw [List.nil_append] at he
        injection he with he _
        subst he
        rw [Verif.KeyProgram.run] at hs
        have := Outcome.ok.inj hs
        subst this
        have hq := hp.1
        dsimp only at hq
        rw [hs'] at hq
        have hR : Verif.KeyProgram.Reach c s0 := ⟨_, hr⟩
        exact kp_quiet ((hR.step hs').known hc) hq
      | cons e' h1 =>
        rw [List.cons_append] at he
        injection he with he1 he2
        subst he1
        rw [Verif.KeyProgram.run, Outcome.bind_eq_ok] at hs
        obtain ⟨s1, f1, f2⟩ := hs
        have hp2 := hp.2
        rw [f1] at hp2
        exact ih (h0 ++ [e]) s1 (Verif.KeyProgram.run_snoc hr f1) hp2 h1 t h2 he2 s f2 ht s' hs'
  exact fun h1 t h2 he s hs ht s' hs' => key h [] (Verif.KeyProgram.init c) rfl hp h1 t h2 he s hs ht s' hs'

/-- What happens in the process of member `i` before the stage of the deals is entered. -/
def kpBegin (i : Nat) : List Ev :=
  [.main i, .prog (.runner 0), .prog (.task 0), .prog (.runner 0), .prog (.fwStep 0), .prog (.tick 45), .prog .latch, .prog (.tick 95),
   .prog (.fwStep 0), .prog (.runner 0), .prog (.tick 100), .prog (.fwStep 0), .prog (.runner 0), .prog (.runner 0), .prog (.task 0),
   .prog (.thread 0), .prog (.thread 0), .prog (.tick 125), .prog (.thread 0), .prog (.tick 130)]

/-- The attempt goes on in the process of member `i`, and the next one begins. -/
def kpEnd (i : Nat) : List Ev :=
  [.prog (.cons (0, i)), .prog (.cons (0, i)), .prog (.cons (0, i))] ++
  [200, 275, 350, 375, 450, 525, 600].flatMap (fun t : Int => [.prog (.tick t), .prog (.thread 0), .prog (.tick (t + 5)), .prog (.thread 0)]) ++
  [.prog (.tick 625), .prog (.thread 0), .prog (.task 0), .prog (.task 0), .prog (.task 0), .prog (.task 0), .prog (.runner 0), .prog (.runner 0),
   .main i, .main i, .main i, .check [(i : Int)], .main i, .prog (.runner 1), .prog (.task 0), .prog (.runner 1), .prog (.fwStep 1),
   .prog (.tick 640)]

/-- The history of member 1. -/
def kpHistory : List Ev := kpBegin 1 ++ [.prog (.thread 0), .prog (.tick 135)] ++ .prog (.net (kxDeal 1 0 0)) :: kpEnd 1

/-- The history of member 0 up to its deals. -/
def kpOther : List Ev := kpBegin 0 ++ [.prog (.thread 0)]

def kpSent (u : Prot.Run Dto Obj (Data Unit)) : Bool := (sentOf 1 u.log).contains (kxDeal 1 0 0)

def kpCheck : Bool :=
  kpPrompt (kxCfg 1) (Verif.KeyProgram.init (kxCfg 1)) kpHistory && kpPrompt (kxCfg 0) (Verif.KeyProgram.init (kxCfg 0)) kpOther &&
  (match Verif.KeyProgram.run (kxCfg 1) (Verif.KeyProgram.init (kxCfg 1)) kpHistory with
   | .ok s => decide (s.prog.node.fw.now = 640)
   | _ => false) &&
  (match Verif.KeyProgram.run (kxCfg 1) (Verif.KeyProgram.init (kxCfg 1)) (kpBegin 1 ++ [.prog (.thread 0), .prog (.tick 135)]) with
   | .ok s => decide (s.prog.node.fw.now = 135) && (s.prog.node.queues (0, 1)).isEmpty
   | _ => false) &&
  match Verif.KeyProgram.run (kxCfg 0) (Verif.KeyProgram.init (kxCfg 0)) (kpBegin 0) with
  | .ok s => decide (s.prog.node.fw.now = 130) && s.prog.runs.all (fun u => !kpSent u) &&
    match Verif.KeyProgram.step (kxCfg 0) s (.prog (.thread 0)) with
    | .ok s' => s'.prog.runs.any kpSent
    | _ => false
  | _ => false

theorem kpCheck_ok : kpCheck = true := by decide +kernel

theorem kp_fit {i : Nat} : Verif.KeyProgram.Fit (kxCfg i) :=
  ⟨KeyProgram.inj (by show (0 : Int) ≤ 100000000; decide) (by show (0 : Int) ≤ 1525000000; decide), List.nodup_singleton _⟩

theorem kp_check : ∃ s : Sys Unit, Verif.KeyProgram.run (kxCfg 1) (Verif.KeyProgram.init (kxCfg 1)) kpHistory = .ok s ∧ s.prog.node.fw.now = 640 ∧
    Prompt (kxCfg 1) kpHistory ∧ Prompt (kxCfg 0) kpOther ∧ Arrives (kxCfg 1) kpHistory (kxDeal 1 0 0) 135 ∧
    Sends (kxCfg 0) kpOther (kxDeal 1 0 0) 130 ∧ ∃ s' : Sys Unit, Verif.KeyProgram.run (kxCfg 0) (Verif.KeyProgram.init (kxCfg 0)) kpOther = .ok s' := by
  have h := kpCheck_ok
  rw [kpCheck] at h
  simp only [Bool.and_eq_true] at h
  obtain ⟨⟨⟨⟨h1, h2⟩, h3⟩, h4⟩, h5⟩ := h
  have hP := kp_prompt kp_fit h1
  have hP' := kp_prompt kp_fit h2
  have hA : Arrives (kxCfg 1) kpHistory (kxDeal 1 0 0) 135 := by
    cases hs : Verif.KeyProgram.run (kxCfg 1) (Verif.KeyProgram.init (kxCfg 1)) (kpBegin 1 ++ [.prog (.thread 0), .prog (.tick 135)]) with
    | panic => rw [hs] at h4; cases h4
    | err => rw [hs] at h4; cases h4
    | ok s =>
      rw [hs] at h4
      dsimp only at h4
      rw [Bool.and_eq_true, decide_eq_true_eq, List.isEmpty_iff] at h4
      refine ⟨_, kpEnd 1, s, rfl, hs, h4.1, ?_⟩
      show (s.prog.node.queues (0, 1)).length < _
      rw [h4.2]; decide
  obtain ⟨hS, hr'⟩ : Sends (kxCfg 0) kpOther (kxDeal 1 0 0) 130 ∧
      ∃ s' : Sys Unit, Verif.KeyProgram.run (kxCfg 0) (Verif.KeyProgram.init (kxCfg 0)) kpOther = .ok s' := by
    cases hs : Verif.KeyProgram.run (kxCfg 0) (Verif.KeyProgram.init (kxCfg 0)) (kpBegin 0) with
    | panic => rw [hs] at h5; cases h5
    | err => rw [hs] at h5; cases h5
    | ok s =>
      rw [hs] at h5
      dsimp only at h5
      rw [Bool.and_eq_true, Bool.and_eq_true, decide_eq_true_eq, List.all_eq_true] at h5
      obtain ⟨⟨e1, e2⟩, e3⟩ := h5
      cases hs' : Verif.KeyProgram.step (kxCfg 0) s (.prog (.thread 0)) with
      | panic => rw [hs'] at e3; cases e3
      | err => rw [hs'] at e3; cases e3
      | ok s' =>
        rw [hs'] at e3
        dsimp only at e3
        rw [List.any_eq_true] at e3
        obtain ⟨u, hu, e4⟩ := e3
        refine ⟨⟨_, .prog (.thread 0), _, s, s', rfl, hs, hs', e1, fun v hv hm => ?_, u, hu, ?_⟩, s', Verif.KeyProgram.run_snoc hs hs'⟩
        · have := e2 v hv
          rw [Bool.not_eq_true', ← Bool.not_eq_true, kpSent, List.contains_iff_mem] at this
          exact this (List.mem_filterMap.2 ⟨_, hm, rfl⟩)
        · rw [kpSent, List.contains_iff_mem, sentOf, List.mem_filterMap] at e4
          obtain ⟨x, hx, hx'⟩ := e4
          cases x with
          | sent m =>
            dsimp only at hx'
            by_cases h1 : m.op = 1
            · rw [if_pos h1] at hx'
              rw [← Option.some.inj hx']; exact hx
            · rw [if_neg h1] at hx'; cases hx'
          | _ => cases hx'
  cases hs : Verif.KeyProgram.run (kxCfg 1) (Verif.KeyProgram.init (kxCfg 1)) kpHistory with
  | panic => rw [hs] at h3; cases h3
  | err => rw [hs] at h3; cases h3
  | ok s =>
    rw [hs] at h3
    exact ⟨s, rfl, of_decide_eq_true h3, hP, hP', hA, hS, hr'⟩

theorem kp_punctual {i : Nat} (hi : i < 2) {h : List Ev} {s : Sys Unit}
    (hr : Verif.KeyProgram.run (kxCfg i) (Verif.KeyProgram.init (kxCfg i)) h = .ok s) (hp : Prompt (kxCfg i) h) :
    Punctual sxWorld (kxCmd i) exHosts (kxStarted i) (kxRest i) h s :=
  ⟨exSort_contract, ⟨rfl, by decide⟩, kx_start hi, by show (0 : Int) ≤ 100000000; decide, by show (0 : Int) ≤ 45000000 / 1000000 + 55; decide, hr, hp⟩

/-- The first attempt of member 1 is over at 640 ms. -/
example : ∃ s : Sys Unit, Verif.KeyProgram.run (kxCfg 1) (Verif.KeyProgram.init (kxCfg 1)) kpHistory = .ok s ∧ (s.file.isSome = true ∨ 0 < s.main.i) := by
  obtain ⟨s, h1, h2, h3, _⟩ := kp_check
  refine ⟨s, h1, C98_over sxWorld (kxCmd 1) exHosts _ _ _ s (kp_punctual (by omega) h1 h3) 0 ?_⟩
  rw [h2]
  decide

/-- Member 1 has been given the deal of member 0 in time. -/
example : ∃ (s : Sys Unit) (j : Nat) (o : Registry.Obj) (u : Prot.Run Dto Obj (Data Unit)),
    Verif.KeyProgram.run (kxCfg 1) (Verif.KeyProgram.init (kxCfg 1)) kpHistory = .ok s ∧ s.prog.node.reg.objs[j]? = some o ∧
    o.key = ⟨0, 1, kxId 0⟩ ∧ s.prog.runs[j]? = some u ∧ kxDeal 1 0 0 ∈ early 1 u.log ++ inTime 1 u.log := by
  obtain ⟨s, h1, h2, h3, h4, h5, h6, s', h7⟩ := kp_check
  obtain ⟨j, o, u, e1, e2, e3, e4⟩ := C98_together sxWorld sxWorld (kxCmd 1) (kxCmd 0) exHosts exHosts _ _ _ _ _ _ s s'
    (kp_punctual (by omega) h1 h3) (kp_punctual (by omega) h7 h4) rfl 0 1 (by decide) (kxDeal 1 0 0) rfl 130 135 h6 h5 (by decide) (by decide)
    (by rw [h2]; decide)
  exact ⟨s, j, o, u, h1, e1, e2, e3, e4⟩

end Verif.Props.KeyStart
