import Verif.Proofs.Program
import Verif.Proofs.NodeSafe
import Verif.Props.Dkg

/-! Why the program does not panic as it signs. -/
namespace Verif.Program
open Verif.Prot Verif.Dto Verif.Dss Verif.Dkg Verif.Tables Verif.Signode Verif.Props Verif.Spec.Prot Verif.Spec.Program
open Verif.Registry (lt_of_some)
open Verif.Node (bind_ne_panic)
variable {K : Type} {c : Cfg K} {W : Message Dto → Prop}

/-- The tables have their entries, and the node knows its guests. -/
structure SInv (c : Cfg K) (s : Sys K) : Prop where
  sound : Node.Sound s.node
  known : ∀ k : RunKey, k.pc = 1 → k.gidx ∈ c.guests → Firewall.keyValid s.node.fw k = true
  docs : ∀ g ∈ c.guests, s.docs.get? g ≠ none
  outs : ∀ g ∈ c.guests, s.outs.get? (0, g) ≠ none ∧ s.outs.get? (1, g) ≠ none

theorem initOutputs_some (V : Type) (n : Nat) (guests : List Int) (k : Int × Int)
    (hk : ∃ pc : Nat, pc < n ∧ k.1 = pc ∧ k.2 ∈ guests) : (initOutputs V n guests).get? k ≠ none := by
  rw [initOutputs]
  have hm : k ∈ (List.range n).flatMap fun (pc : Nat) => guests.map fun g => ((pc : Int), g) := by
    obtain ⟨pc, h1, h2, h3⟩ := hk
    rw [List.mem_flatMap]
    exact ⟨pc, List.mem_range.2 h1, List.mem_map.2 ⟨k.2, h3, by rw [← h2]⟩⟩
  revert hm
  generalize ((List.range n).flatMap fun (pc : Nat) => guests.map fun g => ((pc : Int), g)) = l
  have : ∀ o : Outputs V, (k ∈ l ∨ o.get? k ≠ none) → (l.foldl (fun o k => o.set k []) o).get? k ≠ none := by
    induction l with
    | nil => exact fun o h => h.elim (fun h => absurd h List.not_mem_nil) id
    | cons x l ih =>
      intro o h
      rw [List.foldl_cons]
      refine ih _ ?_
      rw [GoMap.get?_set]
      by_cases e : x = k
      · exact .inr (by rw [if_pos e]; simp)
      · rw [if_neg e]
        exact h.imp (fun h => (List.mem_cons.1 h).resolve_left fun h => e h.symm) id
  exact fun hm => this [] (.inl hm)

theorem sinv_init (c : Cfg K) : SInv c (init c) := by
  refine ⟨Node.sound_make _ _ _ _ _ _, ?_, ?_, ?_⟩
  · intro k h1 h2
    rw [init, Node.make, Firewall.make, Firewall.keyValid]
    dsimp only
    rw [h1]
    simpa using h2
  · intro g hg
    rw [init]
    dsimp only
    rw [dssInit_get, if_pos hg]
    simp
  · intro g hg
    exact ⟨initOutputs_some _ _ _ _ ⟨0, by decide, rfl, hg⟩, initOutputs_some _ _ _ _ ⟨1, by decide, rfl, hg⟩⟩

theorem conf_node {n n' : Node.Sys Dto} {e : Node.Ev Dto} (hs : Node.step n e = .ok n') (k : RunKey) :
    Firewall.keyValid n'.fw k = Firewall.keyValid n.fw k := by
  have conf : ∀ {fe : Firewall.Ev Dto} {f' : Firewall.Fw Dto} {qs : Int × Int → List (Message Dto)}, Node.FwDone n fe f' qs →
      Firewall.keyValid f' k = Firewall.keyValid n.fw k := by
    intro fe f' qs hd
    obtain ⟨e1, e2⟩ := Firewall.step_conf hd.1
    exact Firewall.keyValid_congr e1 e2 k
  cases Node.step_shape hs with
  | fw he hd => exact conf hd
  | allow hu h1 hd => exact conf hd
  | read hu h1 hd => exact conf hd
  | _ => rfl

theorem sinv_node {s s' : Sys K} {e : Node.Ev Dto} (hn : NInv W s.node) (h : SInv c s)
    (hl : ∀ k a, e = .launch k a → k.pc = 1 ∧ k.gidx ∈ c.guests) (hs : nodeEvent c s e = .ok s') : SInv c s' := by
  obtain ⟨n, h1, rfl⟩ := node_ok hs
  refine ⟨Node.sound_step (hn.good ⟨0, 0, ""⟩).r h.sound (fun k a he => ?_) h1, fun k h2 h3 => ?_, h.docs, h.outs⟩
  · obtain ⟨h2, h3⟩ := hl k a he
    exact ⟨by rw [h2]; decide, h.known k h2 h3⟩
  · dsimp only
    rw [conf_node h1]
    exact h.known k h2 h3

theorem node_safe {s : Sys K} {e : Node.Ev Dto} (hn : NInv W s.node) (h : SInv c s) : nodeEvent c s e ≠ .panic := by
  rw [nodeEvent]
  exact bind_ne_panic (Node.step_safe h.sound hn.orig e) fun _ _ hc => by cases hc

/-- Nothing in the table of outputs is lost as a whole. -/
theorem push_keys {o o' : Outputs Output} {pc g : Int} {id : String} {v : Output} (h : pushOutput o pc g id v = .ok o') (k : Int × Int)
    (hk : o.get? k ≠ none) : o'.get? k ≠ none := by
  rw [pushOutput] at h
  cases hm : o.get? (pc, g) with
  | none => rw [hm] at h; cases h
  | some m =>
    rw [hm] at h
    rw [← Outcome.ok.inj h, GoMap.get?_set]
    by_cases e : (pc, g) = k
    · rw [if_pos e]; simp
    · rw [if_neg e]; exact hk

theorem pop_keys {o o' : Outputs Output} {pc g : Int} {id : String} {v : Option Output} (h : popOutput o pc g id = .ok (o', v))
    (k : Int × Int) (hk : o.get? k ≠ none) : o'.get? k ≠ none := by
  rw [popOutput] at h
  cases hm : o.get? (pc, g) with
  | none => rw [hm] at h; cases h
  | some m =>
    rw [hm] at h
    rw [← (Prod.mk.inj (Outcome.ok.inj h)).1, GoMap.get?_set]
    by_cases e : (pc, g) = k
    · rw [if_pos e]; simp
    · rw [if_neg e]; exact hk

theorem pushAll_keys {o o' : Outputs Output} {k : RunKey} {vs : List Output} (h : pushAll o k vs = .ok o') (q : Int × Int)
    (hk : o.get? q ≠ none) : o'.get? q ≠ none := by
  induction vs generalizing o with
  | nil => rw [pushAll] at h; rw [← Outcome.ok.inj h]; exact hk
  | cons v vs ih =>
    rw [pushAll, Outcome.bind_eq_ok] at h
    obtain ⟨o1, h1, h2⟩ := h
    exact ih h2 (push_keys h1 q hk)

theorem pushAll_safe {o : Outputs Output} {k : RunKey} {vs : List Output} (h0 : o.get? (0, k.gidx) ≠ none) (h1 : o.get? (1, k.gidx) ≠ none) :
    pushAll o k vs ≠ .panic := by
  induction vs generalizing o with
  | nil => intro h; cases h
  | cons v vs ih =>
    rw [pushAll]
    refine bind_ne_panic ?_ fun o1 ho => ih (push_keys ho _ h0) (push_keys ho _ h1)
    rw [pushOutput]
    have : o.get? (outputCode v, k.gidx) ≠ none := by cases v <;> assumption
    cases hm : o.get? (outputCode v, k.gidx) with
    | none => exact absurd hm this
    | some m => intro h; cases h

theorem docs_keys {d d' : Docs} {op : DocOp} (h : docStep d op = .ok d') (g : Int) (hk : d.get? g ≠ none) : d'.get? g ≠ none := by
  cases op with
  | register g' id doc =>
    rw [docStep] at h
    cases hm : d.get? g' with
    | none => rw [hm] at h; cases h
    | some m =>
      rw [hm] at h
      rw [← Outcome.ok.inj h, GoMap.get?_set]
      by_cases e : g' = g
      · rw [if_pos e]; simp
      · rw [if_neg e]; exact hk
  | deregister g' id =>
    rw [docStep] at h
    cases hm : d.get? g' with
    | none => rw [hm] at h; rw [← Outcome.ok.inj h]; exact hk
    | some m =>
      rw [hm] at h
      rw [← Outcome.ok.inj h, GoMap.get?_set]
      by_cases e : g' = g
      · rw [if_pos e]; simp
      · rw [if_neg e]; exact hk

theorem sinv_run {s s' : Sys K} {r : Nat} {e : Prot.Ev Dto} (h : SInv c s) (hs : runEvent c s r e = .ok s') : SInv c s' := by
  obtain ⟨u, o, u', outs, _, _, _, hp, rfl⟩ := run_ok hs
  exact ⟨h.sound, h.known, h.docs, fun g hg => ⟨pushAll_keys hp _ (h.outs g hg).1, pushAll_keys hp _ (h.outs g hg).2⟩⟩

/-- The generators do not panic, and every guest has a long-term share. -/
structure Sane (c : Cfg K) : Prop where
  calm : ∀ g ∈ c.guests, ∀ r, Calm (c.y g r)
  env : ∀ g ∈ c.guests, ∀ r d, GoodEnv (c.y g r) (env c r g (some d))

/-- The runs of the guests do not panic, if they are given messages for them that satisfy `W`. -/
def RunsSafe (c : Cfg K) (W : Message Dto → Prop) : Prop :=
  ∀ g ∈ c.guests, ∀ r id doc t0 hist, (∀ m ∈ msgs hist, W m ∧ 0 ≤ m.op ∧ m.key = ⟨1, g, id⟩) →
    exec (dssConf (c.y g r) c.H c.SH (env c r g (some doc)) id g c.members) (newRun Dto Obj (newData (c.gen g r)) t0) hist ≠ .panic

theorem sane_runs (hc : Sane c) (hW : ∀ m, W m → Complete m.dto) : RunsSafe c W := fun g hg r id doc t0 hist hm =>
  C60_dss_partial (c.y g r) (hc.calm _ hg r) c.H c.SH _ (hc.env _ hg r doc) id g c.members (c.gen g r) t0 hist
    fun m hx => ⟨(hm m hx).2.1, hW m (hm m hx).1⟩

theorem run_safe (hc : RunsSafe c W) {s : Sys K} (h : PInv c W s) (hS : SInv c s) {r : Nat} {e : Prot.Ev Dto}
    (he : e = .thread ∨ ∃ m, e = .msg m ∧ W m ∧ 0 ≤ m.op ∧ ∃ o, s.node.reg.objs[r]? = some o ∧ o.key = m.key) : runEvent c s r e ≠ .panic := by
  rw [runEvent]
  cases hr : s.runs[r]? with
  | none => intro h; cases h
  | some u =>
    cases ho : s.node.reg.objs[r]? with
    | none => intro h; cases h
    | some o =>
      dsimp only
      obtain ⟨b, hb, hp, hg, hk⟩ := job_of h.n h.j ho
      refine bind_ne_panic ?_ fun u' _ => bind_ne_panic (pushAll_safe (hS.outs _ hg).1 (hS.outs _ hg).2) fun _ _ hc => by cases hc
      rw [conf_dss (by rw [hk])]
      obtain ⟨t0, hist, hm, htr⟩ := h.u.trace r o u ho hr b hb (by rw [hk])
      have hkey : o.key = ⟨1, o.key.gidx, o.key.runId⟩ := by rw [hk]
      have key : ∀ e : Prot.Ev Dto, (e = .thread ∨ ∃ m, e = .msg m ∧ W m ∧ 0 ≤ m.op ∧ m.key = o.key) →
          exec (dssConf (c.y o.key.gidx r) c.H c.SH (env c r o.key.gidx (some b.job.doc)) o.key.runId o.key.gidx c.members) u
            [.tick s.node.fw.now, e] ≠ .panic := by
        intro e he
        have := hc o.key.gidx hg r o.key.runId b.job.doc t0 (hist ++ [.tick s.node.fw.now, e]) (fun m hx => by
            rw [msgs_append] at hx
            rcases List.mem_append.1 hx with hx | hx
            · exact ⟨(hm m hx).1, (hm m hx).2.1, (hm m hx).2.2.trans hkey⟩
            · rcases he with rfl | ⟨m', rfl, h1, h2, h3⟩
              · cases hx
              · have : m = m' := by simpa [msgs] using hx
                subst this
                exact ⟨h1, h2, h3.trans hkey⟩)
        rw [exec_append, htr, Outcome.bind_ok] at this
        exact this
      rcases he with rfl | ⟨m, rfl, h1, h2, o', h3, h4⟩
      · by_cases hd : u.phase = .done
        · intro hx
          rw [exec, Prot.step] at hx
          by_cases ht : u.now ≤ s.node.fw.now
          · rw [if_pos ht, Outcome.bind_ok, exec, Prot.step, thread, hd] at hx; cases hx
          · rw [if_neg ht] at hx; cases hx
        · have hw := job_waits h.n h.j h.u hb hp ho hr hg hk hd
          have : docFor s.docs o.key.gidx o.key.runId = some b.job.doc :=
            (h.j.docs _ _ _).2 ⟨hg, b, hb, (by rw [hk]), .inr (.inr (.inl hw)), rfl⟩
          rw [this]
          exact key _ (.inl rfl)
      · rw [exec_msg_congr (dss_noSteps (env c r o.key.gidx (docFor s.docs o.key.gidx o.key.runId)) (env c r o.key.gidx (some b.job.doc)) _ _ _)]
        rw [ho] at h3
        cases h3
        exact key _ (.inr ⟨m, rfl, h1, h2, h4.symm⟩)

theorem launchAll_safe {j : Job} {gs : List Int} {s : Sys K} : launchAll c s j gs ≠ .panic := by
  induction gs generalizing s with
  | nil => intro h; cases h
  | cons g gs ih =>
    rw [launchAll]
    refine bind_ne_panic ?_ fun _ _ => ih
    rw [nodeEvent, Node.step]
    intro h; cases h

theorem launchAll_sinv {j : Job} {gs : List Int} {s s' : Sys K} (hn : NInv W s.node) (h : SInv c s)
    (hg : ∀ g ∈ gs, g ∈ c.guests) (hnd : gs.Nodup) (hf : ∀ g ∈ gs, (⟨1, g, jobId j⟩ : RunKey) ∉ s.node.runners.map Node.Runner.key)
    (hs : launchAll c s j gs = .ok s') : SInv c s' := by
  induction gs generalizing s with
  | nil => rw [launchAll] at hs; rw [← Outcome.ok.inj hs]; exact h
  | cons g gs ih =>
    rw [launchAll, Outcome.bind_eq_ok] at hs
    obtain ⟨s1, h1, h2⟩ := hs
    have h3 := sinv_node hn h (fun k a he => by cases he; exact ⟨rfl, hg g (List.mem_cons_self ..)⟩) h1
    obtain ⟨n, h4, rfl⟩ := node_ok h1
    have hn1 : NInv W n := ninv_step hn (fun m he => by cases he)
      (fun k a he => by cases he; exact ⟨hf g (List.mem_cons_self ..), rfl⟩) h4
    rw [Node.step] at h4
    refine ih hn1 h3 (fun g' hg' => hg g' (List.mem_cons_of_mem _ hg')) (List.nodup_cons.1 hnd).2 (fun g' hg' hm => ?_) h2
    rw [← Outcome.ok.inj h4] at hm
    dsimp only at hm
    rw [List.map_append, List.mem_append] at hm
    rcases hm with hm | hm
    · exact hf g' (List.mem_cons_of_mem _ hg') hm
    · rw [List.map_singleton, List.mem_singleton] at hm
      have : g' = g := congrArg RunKey.gidx hm
      subst this
      exact (List.nodup_cons.1 hnd).1 hg'

theorem launch_fresh {s : Sys K} (h : PInv c W s) (hd : Distinct s.jobs) {b : JobSt} (hb : b ∈ s.jobs) (hpc : b.pc = .launching) (g : Int) :
    (⟨1, g, jobId b.job⟩ : RunKey) ∉ s.node.runners.map Node.Runner.key := by
  intro hm
  obtain ⟨u, hu, hk⟩ := List.mem_map.1 hm
  obtain ⟨b', hb', hp, g', _, hk'⟩ := h.j.owner u hu
  have : jobId b.job = jobId b'.job := congrArg RunKey.runId (hk.symm.trans hk')
  have := hd.eq hb hb' this
  subst this
  rw [hpc] at hp
  cases hp

/-- The next section of a job: it does not panic, and the tables keep their entries. -/
theorem job_safe {s : Sys K} {i : Nat} {g : Int} (h : PInv c W s) (hS : SInv c s) (hd : Distinct s.jobs) (hgn : c.guests.Nodup) :
    jobStep c s i g ≠ .panic ∧ ∀ s', jobStep c s i g = .ok s' → SInv c s' := by
  have same : ∀ {jobs : List JobSt}, SInv c { s with jobs := jobs } := ⟨hS.sound, hS.known, hS.docs, hS.outs⟩
  have no : ∀ {P : Sys K → Prop}, (Outcome.err : Outcome (Sys K)) ≠ .panic ∧ ∀ s', (Outcome.err : Outcome (Sys K)) = .ok s' → P s' :=
    ⟨fun h => (by cases h), fun _ h => (by cases h)⟩
  have fine : ∀ {t : Sys K}, SInv c t → (Outcome.ok t : Outcome (Sys K)) ≠ .panic ∧ ∀ s', (Outcome.ok t : Outcome (Sys K)) = .ok s' → SInv c s' :=
    fun ht => ⟨fun h => (by cases h), fun _ h => by rw [← Outcome.ok.inj h]; exact ht⟩
  have docs : ∀ (op : DocOp) (f : Docs → Sys K), (∀ id d, op = .register g id d → g ∈ c.guests) → (∃ id d, op = .register g id d ∨ op = .deregister g id) →
      (∀ d, (f d).docs = d ∧ (f d).outs = s.outs ∧ (f d).node = s.node) →
      (docStep s.docs op >>= fun d => .ok (f d)) ≠ .panic ∧ ∀ s', (docStep s.docs op >>= fun d => .ok (f d)) = .ok s' → SInv c s' := by
    intro op f h1 h2 h3
    refine ⟨bind_ne_panic ?_ fun _ _ hc => (by cases hc), fun s' hs => ?_⟩
    · obtain ⟨id, d, rfl | rfl⟩ := h2
      · rw [docStep]
        cases hm : s.docs.get? g with
        | none => exact absurd hm (hS.docs g (h1 id d rfl))
        | some m => intro hc; cases hc
      · rw [docStep]
        cases hm : s.docs.get? g with
        | none => intro hc; cases hc
        | some m => intro hc; cases hc
    · rw [Outcome.bind_eq_ok] at hs
      obtain ⟨d, hd, hs⟩ := hs
      rw [← Outcome.ok.inj hs]
      obtain ⟨e1, e2, e3⟩ := h3 d
      refine ⟨by rw [e3]; exact hS.sound, by rw [e3]; exact hS.known, ?_, by rw [e2]; exact hS.outs⟩
      rw [e1]
      exact fun g hg => docs_keys hd g (hS.docs g hg)
  rw [jobStep]
  cases hb : s.jobs[i]? with
  | none => exact no
  | some b =>
    dsimp only
    have hbm := List.mem_of_getElem? hb
    cases hpc : b.pc with
    | registering =>
      dsimp only
      by_cases ho : (c.guests.all fun g => decide (g ∈ b.done)) = true
      · rw [if_pos ho]; exact fine same
      · rw [if_neg ho]
        by_cases hm : (decide (g ∈ c.guests) && decide (g ∉ b.done)) = true
        · rw [if_pos hm]
          exact docs _ _ (fun _ _ _ => by simp at hm; exact hm.1) ⟨_, _, .inl rfl⟩ (fun _ => ⟨rfl, rfl, rfl⟩)
        · rw [if_neg hm]; exact no
    | launching =>
      dsimp only
      refine ⟨bind_ne_panic launchAll_safe fun _ _ hc => (by cases hc), fun s' hs => ?_⟩
      rw [Outcome.bind_eq_ok] at hs
      obtain ⟨s1, h1, hs⟩ := hs
      have h2 := launchAll_sinv h.n hS (fun g hg => hg) hgn (fun g _ => launch_fresh h hd hbm hpc g) h1
      rw [← Outcome.ok.inj hs]
      exact ⟨h2.sound, h2.known, h2.docs, h2.outs⟩
    | waiting =>
      dsimp only
      by_cases ho : b.runners.all (released s) = true
      · rw [if_pos ho]; exact fine same
      · rw [if_neg ho]; exact no
    | deregistering =>
      dsimp only
      by_cases ho : (c.guests.all fun g => decide (g ∈ b.done)) = true
      · rw [if_pos ho]; exact fine same
      · rw [if_neg ho]
        by_cases hm : (decide (g ∈ c.guests) && decide (g ∉ b.done)) = true
        · rw [if_pos hm]
          exact docs _ _ (fun _ _ hx => by cases hx) ⟨_, 0, .inr rfl⟩ (fun _ => ⟨rfl, rfl, rfl⟩)
        · rw [if_neg hm]; exact no
    | printing =>
      dsimp only
      by_cases ho : (c.guests.all fun g => decide (g ∈ b.done)) = true
      · rw [if_pos ho]; exact fine same
      · rw [if_neg ho]
        by_cases hm : (decide (g ∈ c.guests) && decide (g ∉ b.done)) = true
        · rw [if_pos hm]
          have hm : g ∈ c.guests ∧ g ∉ b.done := by simpa using hm
          refine ⟨bind_ne_panic ?_ fun x hx => bind_ne_panic ?_ fun _ _ hc => (by cases hc), fun s' hs => ?_⟩
          · rw [popOutput]
            cases hq : s.outs.get? (1, g) with
            | none => exact absurd hq (hS.outs g hm.1).2
            | some m => intro hc; cases hc
          · obtain ⟨o1, v⟩ := x
            have hv := (pop_waiting hx 1 g (jobId b.job)).1
            obtain ⟨r, o, u, h3, h4, h5, h6⟩ := finished h.n h.j h.u hbm (by rw [hpc]; rfl) (by rw [hpc]; decide) hm.1
            have h7 := h.u.out r o u h3 h5 b hbm (by rw [h4]) (by
              rw [h4]
              rintro (⟨_, hx⟩ | hx)
              · exact hm.2 hx
              · rw [hpc] at hx; cases hx)
            rw [h4] at h7
            dsimp only at h7 ⊢
            rw [hv, h7]
            cases lastSig u.user.out <;> intro hc <;> cases hc
          · rw [Outcome.bind_eq_ok] at hs
            obtain ⟨⟨o1, v⟩, h1, hs⟩ := hs
            rw [Outcome.bind_eq_ok] at hs
            obtain ⟨l, h2, hs⟩ := hs
            rw [← Outcome.ok.inj hs]
            exact ⟨hS.sound, hS.known, hS.docs, fun g' hg' => ⟨pop_keys h1 _ (hS.outs g' hg').1, pop_keys h1 _ (hS.outs g' hg').2⟩⟩
        · rw [if_neg hm]; exact no
    | ended => exact no

theorem runEvent_node {s s' : Sys K} {r : Nat} {e : Prot.Ev Dto} (h : runEvent c s r e = .ok s') : s'.node = s.node := by
  obtain ⟨_, _, _, _, _, _, _, _, rfl⟩ := run_ok h; rfl

theorem step_safe (hc : RunsSafe c W) {s : Sys K} (h : PInv c W s) (hS : SInv c s) (hd : Distinct s.jobs) (hgn : c.guests.Nodup)
    (e : Ev) : step c s e ≠ .panic ∧ ∀ s', step c s e = .ok s' → SInv c s' := by
  have node : ∀ {e : Node.Ev Dto}, (∀ k a, e ≠ .launch k a) →
      nodeEvent c s e ≠ .panic ∧ ∀ s', nodeEvent c s e = .ok s' → SInv c s' :=
    fun hl => ⟨node_safe h.n hS, fun s' hs => sinv_node h.n hS (fun k a he => absurd he (hl k a)) hs⟩
  cases e with
  | tick t => exact node (fun k a he => by cases he)
  | latch => exact node (fun k a he => by cases he)
  | net m => exact node (fun k a he => by cases he)
  | fwStep i => exact node (fun k a he => by cases he)
  | task i => exact node (fun k a he => by cases he)
  | runner j => exact node (fun k a he => by cases he)
  | request j => exact ⟨fun h => (by cases h), fun s' hs => by
      rw [step] at hs; rw [← Outcome.ok.inj hs]; exact ⟨hS.sound, hS.known, hS.docs, hS.outs⟩⟩
  | job i g => exact job_safe h hS hd hgn
  | thread r =>
    rw [step, threadStep]
    cases ho : s.node.reg.objs[r]? with
    | none => exact ⟨fun h => (by cases h), fun _ h => (by cases h)⟩
    | some o =>
      dsimp only
      by_cases hst : o.started = 0
      · rw [if_pos hst]; exact ⟨fun h => (by cases h), fun _ h => (by cases h)⟩
      · rw [if_neg hst]
        refine ⟨bind_ne_panic (run_safe hc h hS (.inl rfl)) fun s1 h1 => ?_, fun s' hs => ?_⟩
        · by_cases hp : phaseOf s1 r = some .done
          · rw [if_pos hp]
            exact node_safe (by rw [runEvent_node h1]; exact h.n) (sinv_run hS h1)
          · rw [if_neg hp]; intro hx; cases hx
        · rw [Outcome.bind_eq_ok] at hs
          obtain ⟨s1, h1, h2⟩ := hs
          by_cases hp : phaseOf s1 r = some .done
          · rw [if_pos hp] at h2
            exact sinv_node (by rw [runEvent_node h1]; exact h.n) (sinv_run hS h1) (fun k a he => by cases he) h2
          · rw [if_neg hp] at h2
            rw [← Outcome.ok.inj h2]
            exact sinv_run hS h1
  | cons q =>
    rw [step, consStep]
    cases hq : s.node.cons q with
    | idle => exact node (fun k a he => by cases he)
    | got x =>
      dsimp only
      refine ⟨bind_ne_panic (node_safe h.n hS) fun _ _ hc => (by cases hc), fun s' hs => ?_⟩
      rw [Outcome.bind_eq_ok] at hs
      obtain ⟨s1, h1, h2⟩ := hs
      have h3 := sinv_node h.n hS (fun k a he => by cases he) h1
      rw [← Outcome.ok.inj h2]
      exact ⟨h3.sound, h3.known, h3.docs, h3.outs⟩
    | found x =>
      dsimp only
      obtain ⟨hx, hr⟩ := h.n.carry.hold q x hq
      refine ⟨bind_ne_panic (run_safe hc h hS (.inr ⟨x, rfl, hx, hr.1, h.f q x hq⟩)) fun s1 h1 => ?_, fun s' hs => ?_⟩
      · exact node_safe (by rw [runEvent_node h1]; exact h.n) (sinv_run hS h1)
      · rw [Outcome.bind_eq_ok] at hs
        obtain ⟨s1, h1, h2⟩ := hs
        exact sinv_node (by rw [runEvent_node h1]; exact h.n) (sinv_run hS h1) (fun k a he => by cases he) h2

/-- A state of the program from which on it does not panic. -/
theorem run_all_safe (hc : RunsSafe c W) (hgn : c.guests.Nodup) (h : List Ev) {s : Sys K} (hP : PInv c W s)
    (hS : SInv c s) (hd : ((reqs s ++ requests h).map jobId).Nodup) (hm : ∀ m, .net m ∈ h → W m) : run c s h ≠ .panic := by
  have hD : ∀ t : Sys K, Distinct t.jobs ↔ ((reqs t).map jobId).Nodup := by
    intro t
    rw [Distinct, reqs, List.map_map]
    exact Iff.rfl
  induction h generalizing s with
  | nil => intro hx; cases hx
  | cons e h ih =>
    have hd0 : Distinct s.jobs := by
      rw [hD]
      rw [List.map_append, List.nodup_append] at hd
      exact hd.1
    obtain ⟨h1, h2⟩ := step_safe hc hP hS hd0 hgn e
    rw [run]
    refine bind_ne_panic h1 fun s1 hs => ?_
    have hr : reqs s1 ++ requests h = reqs s ++ requests (e :: h) := by
      rw [reqs_step hs, requests_cons e h, List.append_assoc]
    have hd1 : Distinct s1.jobs := by
      rw [hD]
      rw [← hr, List.map_append, List.nodup_append] at hd
      exact hd.1
    exact ih (pinv_step hP hd1 hgn (fun m x => hm m (by rw [x]; exact List.mem_cons_self ..)) hs) (h2 s1 hs) (by rw [hr]; exact hd)
      (fun m x => hm m (List.mem_cons_of_mem _ x))

end Verif.Program
