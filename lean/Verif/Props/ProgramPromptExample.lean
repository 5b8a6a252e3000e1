import Verif.Props.ProgramTogether
import Verif.Props.ProgramAgreeExample

/-!
C91 is not vacuous: the processes of `Verif.Props.ProgramAgreeExample`, with everything done in its millisecond. Each sends its partial
signature 555 ms after the start; the one of the other process arrives 5 ms later.
-/
namespace Verif.Props.Program
open Verif.Prot Verif.Dto Verif.Dss Verif.Dkg Verif.Point Verif.Tables Verif.Signode Verif.Program Verif.Props Verif.Spec.Prot Verif.Spec.Program
variable {K : Type}

def isErr {α : Type} : Outcome α → Bool
  | .err => true
  | _ => false

theorem isErr_iff {α : Type} {a : Outcome α} (h : isErr a = true) : a = .err := by
  cases a <;> first | rfl | cases h

/-- A request with nothing to do. -/
def quietJob (s : Sys K) (b : JobSt) : Bool :=
  match b.pc with
  | .waiting => !b.runners.all (released s)
  | .ended => true
  | _ => false

/-- Nothing can be done now. -/
def quietNow (c : Cfg K) (s : Sys K) : Bool :=
  isErr (step c s .latch) && (List.range s.node.fw.calls.length).all (fun i => isErr (step c s (.fwStep i))) &&
  c.guests.all (fun g => isErr (step c s (.cons (1, g)))) && (List.range s.node.reg.objs.length).all (fun i => isErr (step c s (.thread i))) &&
  (List.range s.node.reg.tasks.length).all (fun i => isErr (step c s (.task i))) &&
  (List.range s.node.runners.length).all (fun i => isErr (step c s (.runner i))) && s.jobs.all (quietJob s)

/-- Nothing is late from this state on. -/
def promptFrom (c : Cfg K) (s : Sys K) : List Ev → Bool
  | [] => true
  | e :: h =>
    (match e with
     | .tick t => match step c s (.tick (t - 1)) with
       | .ok s' => quietNow c s'
       | _ => true
     | _ => true) &&
    match step c s e with
    | .ok s' => promptFrom c s' h
    | _ => true

/-- Only the queues of the guests are used. -/
theorem cons_other {c : Cfg K} {W : Message Dto → Prop} {s : Sys K} (h : Known c W s) {q : Int × Int} (hq : ∀ g ∈ c.guests, q ≠ (1, g)) :
    s.node.cons q = .idle ∧ s.node.queues q = [] := by
  have hQ := (h.p.n.good ⟨0, 0, ""⟩).q
  have bad : ∀ u ∈ s.node.runners, q = (u.key.pc, u.key.gidx) → False := by
    intro u hu e
    obtain ⟨b, _, _, g, hg, hk⟩ := h.p.j.owner u hu
    rw [hk] at e
    exact hq g hg e
  have hseq : Node.seq s.node q = [] := by
    cases hs : Node.seq s.node q with
    | nil => rfl
    | cons m l =>
      have hm : m ∈ Node.seq s.node q := by rw [hs]; exact List.mem_cons_self
      obtain ⟨_, e⟩ := hQ.at_ q m hm
      by_cases hn : m.pc < 0
      · obtain ⟨u, hu, _, hk⟩ := hQ.sig q m hm hn
        exact (bad u hu (by rw [hk]; exact e)).elim
      · obtain ⟨u, hu, _, hk⟩ := h.p.n.orig.way q m hm hn
        rw [Node.target_nonneg hn] at e
        exact (bad u hu (by rw [hk]; exact e)).elim
  rw [Node.seq, List.append_eq_nil_iff] at hseq
  refine ⟨?_, hseq.2⟩
  cases hc : s.node.cons q with
  | idle => rfl
  | got m => rw [hc] at hseq; cases hseq.1
  | found m =>
    obtain ⟨o, ho, hk⟩ := h.p.f q m hc
    obtain ⟨b, _, _, hg, hk'⟩ := job_of h.p.n h.p.j ho
    rw [hk'] at hk
    refine (hq _ hg ?_).elim
    rw [h.loc q m hc]
    exact congrArg (fun k : RunKey => (k.pc, k.gidx)) hk.symm

theorem quiet_now {c : Cfg K} {W : Message Dto → Prop} {s : Sys K} (h : Known c W s) (hq : quietNow c s = true) :
    ∀ e, own e = true → step c s e = .err := by
  rw [quietNow] at hq
  simp only [Bool.and_eq_true, List.all_eq_true, List.mem_range] at hq
  obtain ⟨⟨⟨⟨⟨⟨h1, h2⟩, h3⟩, h4⟩, h5⟩, h6⟩, h7⟩ := hq
  intro e he
  cases e with
  | tick t => cases he
  | net m => cases he
  | request j => cases he
  | latch => exact isErr_iff h1
  | fwStep i =>
    by_cases hi : i < s.node.fw.calls.length
    · exact isErr_iff (h2 i hi)
    · have hn : s.node.fw.calls[i]? = none := List.getElem?_eq_none (by omega)
      rw [Verif.Program.step, nodeEvent, Node.step, Node.fwEvent, Firewall.step, Firewall.stateStep, hn]; rfl
  | cons q =>
    by_cases hg : ∃ g ∈ c.guests, q = (1, g)
    · obtain ⟨g, hg, rfl⟩ := hg
      exact isErr_iff (h3 g hg)
    · obtain ⟨e1, e2⟩ := cons_other h (q := q) fun g hg' e => hg ⟨g, hg', e⟩
      rw [Verif.Program.step, consStep, e1]
      dsimp only
      rw [nodeEvent, Node.step, Node.consume, e1]
      dsimp only
      rw [e2]; rfl
  | thread i =>
    by_cases hi : i < s.node.reg.objs.length
    · exact isErr_iff (h4 i hi)
    · have hn : s.node.reg.objs[i]? = none := List.getElem?_eq_none (by omega)
      rw [Verif.Program.step, threadStep, hn]
  | task i =>
    by_cases hi : i < s.node.reg.tasks.length
    · exact isErr_iff (h5 i hi)
    · have hn : s.node.reg.tasks[i]? = none := List.getElem?_eq_none (by omega)
      rw [Verif.Program.step, nodeEvent, Node.step, Node.regEvent, Registry.step, Registry.taskStep, hn]; rfl
  | runner i =>
    by_cases hi : i < s.node.runners.length
    · exact isErr_iff (h6 i hi)
    · have hn : s.node.runners[i]? = none := List.getElem?_eq_none (by omega)
      rw [Verif.Program.step, nodeEvent, Node.step, Node.runnerStep, hn]; rfl
  | job i g =>
    rw [Verif.Program.step, jobStep.eq_def]
    cases hb : s.jobs[i]? with
    | none => rfl
    | some b =>
      have := h7 b (List.mem_of_getElem? hb)
      rw [quietJob] at this
      dsimp only
      cases hpc : b.pc with
      | waiting =>
        rw [hpc] at this
        dsimp only at this ⊢
        rw [Bool.not_eq_true'] at this
        rw [if_neg (by rw [this]; simp)]
      | ended => rfl
      | _ => rw [hpc] at this; cases this

theorem prompt_from {c : Cfg K} {h : List Ev} (hg : c.guests.Nodup) (hd : ((requests h).map jobId).Nodup)
    (hp : promptFrom c (init c) h = true) : Prompt c h := by
  have key : ∀ (h h0 : List Ev) (s0 : Sys K), Verif.Program.run c (init c) h0 = .ok s0 → ((requests (h0 ++ h)).map jobId).Nodup → promptFrom c s0 h = true →
      ∀ h1 t h2, h = h1 ++ .tick t :: h2 → ∀ s, Verif.Program.run c s0 h1 = .ok s → s.node.fw.now < t →
        ∀ s', step c s (.tick (t - 1)) = .ok s' → ∀ e, own e = true → step c s' e = .err := by
    intro h
    induction h with
    | nil => intro h0 s0 _ _ _ h1 t h2 e; simp at e
    | cons e h ih =>
      intro h0 s0 hr hd hp h1 t h2 he s hs ht s' hs'
      rw [promptFrom.eq_def] at hp
      dsimp only at hp
      rw [Bool.and_eq_true] at hp
      cases h1 with
      | nil =>
        rw [List.nil_append] at he
        injection he with he _
        subst he
        rw [Verif.Program.run] at hs
        have := Outcome.ok.inj hs
        subst this
        have hq := hp.1
        dsimp only at hq
        rw [hs'] at hq
        have hR : Reach c s0 := ⟨_, hr, nodup_prefix hd⟩
        have hR' : Reach c s' := ⟨_, run_snoc hr hs', by
          have := nodup_prefix hd
          rw [requests_append]
          simpa [requests] using this⟩
        exact quiet_now (hR'.known hg) hq
      | cons e' h1 =>
        rw [List.cons_append] at he
        injection he with he1 he2
        subst he1
        rw [Verif.Program.run, Outcome.bind_eq_ok] at hs
        obtain ⟨s1, f1, f2⟩ := hs
        have hp2 := hp.2
        rw [f1] at hp2
        exact ih (h0 ++ [e]) s1 (run_snoc hr f1) (by simpa using hd) hp2 h1 t h2 he2 s f2 ht s' hs'
  exact fun h1 t h2 he s hs ht s' hs' => key h [] (init c) rfl hd hp h1 t h2 he s hs ht s' hs'

/-- The stepping thread from stage to stage. -/
def lvStages (ns : List Int) : List Ev := ns.flatMap fun n => [.tick (100 + ends n), .thread 0, .tick (105 + ends n), .thread 0]

/-- What happens up to the partial signatures in the process of member `i`, which has one request. -/
def lvBegin (i : Nat) : List Ev :=
  [.job 0 i, .job 0 i, .job 0 i, .runner 0, .runner 0, .fwStep 0, .task 0, .tick 95, .fwStep 0, .runner 0,
   .tick 100, .fwStep 0, .runner 0, .runner 0, .task 0, .thread 0, .thread 0] ++ lvStages [0, 1, 2, 3, 4, 5, 6, 7, 8] ++ [.tick 650, .thread 0, .tick 655]

/-- What happens after the message of the other member has arrived. -/
def lvEnd (i : Nat) : List Ev :=
  [.cons (1, i), .cons (1, i), .cons (1, i)] ++ lvStages [10] ++
  [.tick 750, .thread 0, .task 0, .task 0, .runner 0, .job 0 i, .job 0 i, .job 0 i, .job 0 i, .job 0 i, .runner 0, .task 0, .task 0, .tick 751]

def lvHistory (i j : Nat) : List Ev := .request pgJob1 :: lvBegin i ++ .thread 0 :: ([.tick 660] ++ .net (agMsg j i) :: lvEnd i)

/-- Nothing is late; the run is not abandoned; the partial signature for `j` is sent at 655, that of `j` arrives at 660. -/
def lvCheck (i j : Nat) : Bool :=
  promptFrom (agCfg i) (init (agCfg i)) (lvHistory i j) &&
  (match run (agCfg i) (init (agCfg i)) (.request pgJob1 :: lvBegin i) with
   | .ok s => decide (s.node.fw.now = 655) && s.runs.all (fun u => !(sentOf 10 u.log).contains (agMsg i j)) &&
     match step (agCfg i) s (.thread 0) with
     | .ok s' => s'.runs.any fun u => (sentOf 10 u.log).contains (agMsg i j)
     | _ => false
   | _ => false) &&
  (match run (agCfg i) (init (agCfg i)) (.request pgJob1 :: lvBegin i ++ .thread 0 :: [.tick 660]) with
   | .ok s => decide (s.node.fw.now = 660) && (s.node.queues (1, (i : Int))).isEmpty
   | _ => false) &&
  match run (agCfg i) (init (agCfg i)) (lvHistory i j) with
  | .ok s => decide (s.node.fw.now = 751) &&
    match s.node.reg.objs, s.runs with
     | [o], [u] => decide (o.key = ⟨1, (i : Int), jobId pgJob1⟩) && !gaveUp u.log && decide (u.user.qual = some [0, 1, 2]) &&
       (sentOf 10 u.log).all fun m => decide (m.rcpt = 2) || decide (m = agMsg i j)
     | _, _ => false
  | _ => false

theorem lvCheck_ok : lvCheck 0 1 = true ∧ lvCheck 1 0 = true := by
  constructor <;> decide +kernel

theorem contains_sent {l : List (Entry Dto Obj)} {m : Message Dto} (hop : m.op = 10) (h : .sent m ∈ l) : m ∈ sentOf 10 l := by
  rw [sentOf, List.mem_filterMap]
  exact ⟨_, h, by dsimp only; rw [if_pos hop]⟩

theorem lv_requests {i j : Nat} (hi : i < 2) : requests (lvHistory i j) = [pgJob1] := by
  rcases (show i = 0 ∨ i = 1 by omega) with rfl | rfl <;> rfl

theorem lv_check {i j : Nat} (hi : i < 2) (h : lvCheck i j = true) : ∃ (s : Sys Unit) (o : Registry.Obj) (u : Prot.Run Dto Obj (Data Unit)),
    run (agCfg i) (init (agCfg i)) (lvHistory i j) = .ok s ∧ s.node.fw.now = 751 ∧ s.node.reg.objs = [o] ∧ s.runs = [u] ∧
    o.key = ⟨1, (i : Int), jobId pgJob1⟩ ∧ gaveUp u.log = false ∧ u.user.qual = some [0, 1, 2] ∧
    (∀ m, .sent m ∈ u.log → m.op = 10 → m.rcpt = 2 ∨ m = agMsg i j) ∧ Prompt (agCfg i) (lvHistory i j) ∧
    Asked (agCfg i) (lvHistory i j) pgJob1 ∧ Sends (agCfg i) (lvHistory i j) (agMsg i j) 655 ∧ Arrives (agCfg i) (lvHistory i j) (agMsg j i) 660 := by
  rw [lvCheck] at h
  simp only [Bool.and_eq_true] at h
  obtain ⟨⟨⟨h1, h2⟩, h3⟩, h4⟩ := h
  have hP : Prompt (agCfg i) (lvHistory i j) := prompt_from (List.nodup_singleton _) (by rw [lv_requests hi]; exact List.nodup_singleton _) h1
  have hA : Asked (agCfg i) (lvHistory i j) pgJob1 :=
    ⟨by show (95 : Int) ≤ 100; decide, by show (0 : Int) ≤ 100; decide, by show (100 : Int) + 650 ≤ 30000; decide,
      [], _, _, rfl, rfl, by show (0 : Int) ≤ 100; decide⟩
  have hS : Sends (agCfg i) (lvHistory i j) (agMsg i j) 655 := by
    cases hs : run (agCfg i) (init (agCfg i)) (.request pgJob1 :: lvBegin i) with
    | panic => rw [hs] at h2; cases h2
    | err => rw [hs] at h2; cases h2
    | ok s =>
      rw [hs] at h2
      dsimp only at h2
      rw [Bool.and_eq_true, Bool.and_eq_true, decide_eq_true_eq, List.all_eq_true] at h2
      obtain ⟨⟨e1, e2⟩, e3⟩ := h2
      cases hs' : step (agCfg i) s (.thread 0) with
      | panic => rw [hs'] at e3; cases e3
      | err => rw [hs'] at e3; cases e3
      | ok s' =>
        rw [hs'] at e3
        dsimp only at e3
        rw [List.any_eq_true] at e3
        obtain ⟨u, hu, e4⟩ := e3
        refine ⟨_, .thread 0, _, s, s', rfl, hs, hs', e1, fun v hv hm => ?_, u, hu, sent_of (List.contains_iff_mem.1 e4)⟩
        have := e2 v hv
        rw [Bool.not_eq_true', ← Bool.not_eq_true, List.contains_iff_mem] at this
        exact this (contains_sent rfl hm)
  have hR : Arrives (agCfg i) (lvHistory i j) (agMsg j i) 660 := by
    cases hs : run (agCfg i) (init (agCfg i)) (.request pgJob1 :: lvBegin i ++ .thread 0 :: [.tick 660]) with
    | panic => rw [hs] at h3; cases h3
    | err => rw [hs] at h3; cases h3
    | ok s =>
      rw [hs] at h3
      dsimp only at h3
      rw [Bool.and_eq_true, decide_eq_true_eq, List.isEmpty_iff] at h3
      refine ⟨_, lvEnd i, s, ?_, hs, h3.1, ?_⟩
      · rw [lvHistory]; simp
      · show (s.node.queues (1, (i : Int))).length < _
        rw [h3.2]; decide
  cases hs : run (agCfg i) (init (agCfg i)) (lvHistory i j) with
  | panic => rw [hs] at h4; cases h4
  | err => rw [hs] at h4; cases h4
  | ok s =>
    rw [hs] at h4
    dsimp only at h4
    rw [Bool.and_eq_true, decide_eq_true_eq] at h4
    obtain ⟨e1, e2⟩ := h4
    split at e2
    · rename_i o u ho hu
      rw [Bool.and_eq_true, Bool.and_eq_true, Bool.and_eq_true, decide_eq_true_eq, decide_eq_true_eq, Bool.not_eq_true', List.all_eq_true] at e2
      refine ⟨s, o, u, rfl, e1, ho, hu, e2.1.1.1, e2.1.1.2, e2.1.2, fun m hm hop => ?_, hP, hA, hS, hR⟩
      simpa using e2.2 m (contains_sent hop hm)
    · cases e2

theorem lv_ready {i j : Nat} (hi : i < 2) {s : Sys Unit} (hs : run (agCfg i) (init (agCfg i)) (lvHistory i j) = .ok s) :
    Process.Ready ⟨agCfg i, lvHistory i j, s⟩ sumHash exSH agGroup := by
  refine ⟨hs, List.nodup_singleton _, ?_, ⟨rfl, rfl⟩, rfl, rfl, rfl, ag_guest hi⟩
  show ((requests (lvHistory i j)).map jobId).Nodup
  rw [lv_requests hi]; exact List.nodup_singleton _

theorem lv_signs {i j : Nat} (hi : i < 2) {s : Sys Unit} {o : Registry.Obj} (ho : s.node.reg.objs = [o]) (hk : o.key.gidx = (i : Int)) :
    Process.Signs ⟨agCfg i, lvHistory i j, s⟩ agGroup pgJob1 := by
  refine ⟨?_, rfl, rfl, ag_random (s := s) ho hk⟩
  show pgJob1 ∈ requests (lvHistory i j)
  rw [lv_requests hi]; exact List.mem_singleton.2 rfl

/-- The process of member 0 prints a signature by C91. -/
example : ∃ (s : Sys Unit) (b : JobSt) (sig : Schnorr.Sig), run (agCfg 0) (init (agCfg 0)) (lvHistory 0 1) = .ok s ∧ b ∈ s.jobs ∧
    (0, some sig) ∈ b.lines ∧ Schnorr.verify sumHash (.pt (timesAdd base 5)) 9 sig = .ok () := by
  obtain ⟨s, o, u, h1, h2, h3, h4, h5, h6, _, _, h7, h8, _, h10⟩ := lv_check (by omega) lvCheck_ok.1
  obtain ⟨s', o', u', h1', h2', h3', h4', h5', h6', _, _, h7', h8', h9', _⟩ := lv_check (by omega) lvCheck_ok.2
  obtain ⟨b, hb, _, _, sig, g1, g2⟩ := C91_prints (g := agGroup) (fun b => by simp [sumHash]) agGroup_sound ⟨agCfg 0, lvHistory 0 1, s⟩
    (lv_ready (by omega) h1) pgJob1 (lv_signs (by omega) h3 (by rw [h5])) h7 h8 (by show (100 : Int) + 650 < s.node.fw.now; rw [h2]; decide) 0
    (List.mem_singleton.2 rfl)
    (fun r o1 u1 _ _ hu1 l1 l2 e => by
      have hm : u1 ∈ s.runs := List.mem_of_getElem? hu1
      rw [h4, List.mem_singleton] at hm
      subst hm
      have : gaveUp u1.log = true := by rw [e]; exact gaveUp_mid l1 l2
      rw [h6] at this; cases this)
    [1] (List.nodup_singleton _) (by decide) (by show (2 : Int) ≤ ((1 : Nat) : Int) + 1; decide)
    (fun r o1 u _ _ _ y hy random _ => by
      rw [List.mem_singleton] at hy
      subst hy
      show (1 : Int) ∈ ([0, 1, 2] : List Int)
      decide)
    (fun y hy => by
      rw [List.mem_singleton] at hy
      subst hy
      exact ⟨⟨agCfg 1, lvHistory 1 0, s'⟩, pgJob1, agMsg 1 0, 655, 660, lv_ready (by omega) h1', lv_signs (by omega) h3' (by rw [h5']), h7', h8', rfl,
        rfl, rfl, rfl, h9', h10, by decide, by decide⟩)
  exact ⟨s, b, sig, h1, hb, g1, g2⟩

/-- By C91 for all, both processes print the same signature. -/
example : ∃ (s s' : Sys Unit) (b b' : JobSt) (sig : Schnorr.Sig), run (agCfg 0) (init (agCfg 0)) (lvHistory 0 1) = .ok s ∧
    run (agCfg 1) (init (agCfg 1)) (lvHistory 1 0) = .ok s' ∧ b ∈ s.jobs ∧ b' ∈ s'.jobs ∧ (0, some sig) ∈ b.lines ∧ (1, some sig) ∈ b'.lines ∧
    Schnorr.verify sumHash (.pt (timesAdd base 5)) 9 sig = .ok () := by
  obtain ⟨s, o, u, h1, h2, h3, h4, h5, h6, hq, hm, h7, h8, h9, h10⟩ := lv_check (by omega) lvCheck_ok.1
  obtain ⟨s', o', u', h1', h2', h3', h4', h5', h6', hq', hm', h7', h8', h9', h10'⟩ := lv_check (by omega) lvCheck_ok.2
  have r0 := lv_ready (j := 1) (i := 0) (by omega) h1
  have r1 := lv_ready (j := 0) (i := 1) (by omega) h1'
  have k0 := lv_signs (j := 1) (i := 0) (by omega) h3 (by rw [h5])
  have k1 := lv_signs (j := 0) (i := 1) (by omega) h3' (by rw [h5'])
  have two : ∀ {P : Process Unit × Job → Prop}, P (⟨agCfg 0, lvHistory 0 1, s⟩, pgJob1) → P (⟨agCfg 1, lvHistory 1 0, s'⟩, pgJob1) →
      ∀ p ∈ [(⟨agCfg 0, lvHistory 0 1, s⟩, pgJob1), (⟨agCfg 1, lvHistory 1 0, s'⟩, pgJob1)], P p := by
    intro P a b p hp
    rcases List.mem_cons.1 hp with rfl | hp
    · exact a
    · rw [List.mem_singleton] at hp; subst hp; exact b
  have go : ∀ (v v1 : Prot.Run Dto Obj (Data Unit)) (n : Nat) (l : List (Prot.Run Dto Obj (Data Unit))), l = [v] → gaveUp v.log = false → l[n]? = some v1 →
      ∀ l1 l2, v1.log = l1 ++ .abandoned :: l2 → 9 < stageOf l1 := by
    intro v v1 n l e hv hn l1 l2 e2
    have hm := List.mem_of_getElem? hn
    rw [e, List.mem_singleton] at hm
    subst hm
    have : gaveUp v1.log = true := by rw [e2]; exact gaveUp_mid l1 l2
    rw [hv] at this; cases this
  have ql : ∀ (v v1 : Prot.Run Dto Obj (Data Unit)) (n : Nat) (l : List (Prot.Run Dto Obj (Data Unit))), l = [v] → v.user.qual = some [0, 1, 2] → l[n]? = some v1 →
      ∀ y : Int, y = 0 ∨ y = 1 → ∀ Q, v1.user.qual = some Q → y ∈ Q := by
    intro v v1 n l e hv hn y hy Q hQ
    have hm := List.mem_of_getElem? hn
    rw [e, List.mem_singleton] at hm
    subst hm
    rw [hv] at hQ
    rw [← Option.some.inj hQ]
    rcases hy with rfl | rfl <;> simp
  have kq : ∀ (i : Nat) (x : Int) (r : Nat) (y : Int), y = 0 ∨ y = 1 → ∀ k random, ((agCfg i).y x r).distKeyShare k = .ok random → y ∈ ((agCfg i).y x r).qual k := by
    intro i x r y hy k random _
    show y ∈ ([0, 1, 2] : List Int)
    rcases hy with rfl | rfl <;> decide
  have gs : ∀ q ∈ [(⟨agCfg 0, lvHistory 0 1, s⟩, pgJob1), (⟨agCfg 1, lvHistory 1 0, s'⟩, pgJob1)], ∀ y ∈ Cfg.guests (Process.c (Prod.fst q)), y = 0 ∨ y = 1 :=
    two (fun y hy => .inl (List.mem_singleton.1 hy)) (fun y hy => .inr (List.mem_singleton.1 hy))
  obtain ⟨sig, hv, hall⟩ := C91_all (g := agGroup) (SH := exSH) (fun b => by simp [sumHash]) agGroup_sound 100
    [(⟨agCfg 0, lvHistory 0 1, s⟩, pgJob1), (⟨agCfg 1, lvHistory 1 0, s'⟩, pgJob1)]
    ⟨two r0 r1, two k0 k1, two h7 h7', two h8 h8', two rfl rfl, two (by show (100 : Int) + 650 < s.node.fw.now; rw [h2]; decide)
      (by show (100 : Int) + 650 < s'.node.fw.now; rw [h2']; decide)⟩
    [0, 1] (by decide) (by decide)
    (fun x hx => by
      rcases List.mem_cons.1 hx with rfl | hx
      · exact ⟨_, List.mem_cons_self .., List.mem_singleton.2 rfl⟩
      · rw [List.mem_singleton] at hx; subst hx
        exact ⟨_, List.mem_cons_of_mem _ (List.mem_cons_self ..), List.mem_singleton.2 rfl⟩)
    (two (fun r o1 u1 _ _ hu => go u u1 r _ h4 h6 hu) (fun r o1 u1 _ _ hu => go u' u1 r _ h4' h6' hu))
    (two (fun r o1 u1 _ _ hu q hq1 y hy => ⟨ql u u1 r _ h4 hq hu y (gs q hq1 y hy), kq 0 _ r y (gs q hq1 y hy) _⟩)
      (fun r o1 u1 _ _ hu q hq1 y hy => ⟨ql u' u1 r _ h4' hq' hu y (gs q hq1 y hy), kq 1 _ r y (gs q hq1 y hy) _⟩))
    (by
      have s0 : ∀ m t, Sends (agCfg 0) (lvHistory 0 1) m t → m.runId = agGroup.id → m.op = 10 → t = 655 ∧ (m.rcpt = 2 ∨ m = agMsg 0 1) := by
        intro m t hS e1 e2
        obtain ⟨_, a, v, hv, hvm⟩ := C91_sends _ _ s r0.run r0.guests r0.ids h7 pgJob1 h8 m e1 t hS
        have e9 : ends (m.op - 1) = 550 := by rw [e2]; rfl
        rw [e9] at a
        rw [h4, List.mem_singleton] at hv
        subst hv
        exact ⟨a, hm m hvm e2⟩
      have s1 : ∀ m t, Sends (agCfg 1) (lvHistory 1 0) m t → m.runId = agGroup.id → m.op = 10 → t = 655 ∧ (m.rcpt = 2 ∨ m = agMsg 1 0) := by
        intro m t hS e1 e2
        obtain ⟨_, a, v, hv, hvm⟩ := C91_sends _ _ s' r1.run r1.guests r1.ids h7' pgJob1 h8' m e1 t hS
        have e9 : ends (m.op - 1) = 550 := by rw [e2]; rfl
        rw [e9] at a
        rw [h4', List.mem_singleton] at hv
        subst hv
        exact ⟨a, hm' m hvm e2⟩
      refine two (two (fun m t hS _ e1 e2 e3 => ?_) (fun m t hS _ e1 e2 e3 => ?_)) (two (fun m t hS _ e1 e2 e3 => ?_) (fun m t hS _ e1 e2 e3 => ?_))
      · have e3 : m.rcpt = 0 := List.mem_singleton.1 e3
        rcases (s0 m t hS e1 e2).2 with h | rfl
        · omega
        · cases e3
      · have e3 : m.rcpt = 0 := List.mem_singleton.1 e3
        obtain ⟨rfl, h | rfl⟩ := s1 m t hS e1 e2
        · omega
        · exact ⟨660, h10, by decide, by decide⟩
      · have e3 : m.rcpt = 1 := List.mem_singleton.1 e3
        obtain ⟨rfl, h | rfl⟩ := s0 m t hS e1 e2
        · omega
        · exact ⟨660, h10', by decide, by decide⟩
      · have e3 : m.rcpt = 1 := List.mem_singleton.1 e3
        rcases (s1 m t hS e1 e2).2 with h | rfl
        · omega
        · cases e3)
  obtain ⟨b, hb, _, _, hl⟩ := hall _ (List.mem_cons_self ..)
  obtain ⟨b', hb', _, _, hl'⟩ := hall _ (List.mem_cons_of_mem _ (List.mem_cons_self ..))
  exact ⟨s, s', b, b', sig, h1, h1', hb, hb', hl.mem_iff.2 (List.mem_singleton.2 rfl), hl'.mem_iff.2 (List.mem_singleton.2 rfl), hv⟩

end Verif.Props.Program
