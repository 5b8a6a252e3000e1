import Verif.Model.KeyProgram
import Verif.Spec.KeyProgram
import Verif.Proofs.Program
import Verif.Proofs.ProtStage
import Verif.Props.Signode

/-! What holds at every moment in the program as it makes long-term keys. -/
namespace Verif.KeyProgram
open Verif.Prot Verif.Dto Verif.Dss Verif.Dkg Verif.Tables Verif.Signode Verif.Props Verif.Spec.Prot Verif.Spec.Signode
open Verif.Spec.KeyProgram
open Verif.Registry (lt_of_some)
open Verif.Program (nodeEvent runEvent threadStep consStep phaseOf released pushAll outputCode node_ok run_ok runs_node objs_step
  thread_done msgs_append FInv finv_node ensure_ok)
variable {K : Type} {W : Message Dto → Prop} {P : Int → String → Prop}

/-! The node. -/

/-- What is known of the node. -/
structure NInv (W : Message Dto → Prop) (n : Node.Sys Dto) : Prop where
  good : ∀ k, Node.Good k n
  orig : Node.Orig n
  carry : Node.Carry W n
  keys : (n.runners.map Node.Runner.key).Nodup
  pc : ∀ u ∈ n.runners, u.key.pc = 0
  stages : n.stages = Program.stageCount
  nil : n.nil = .other

theorem stages_step {n n' : Node.Sys Dto} {e : Node.Ev Dto} (hs : Node.step n e = .ok n') : n'.stages = n.stages ∧ n'.nil = n.nil := by
  cases Node.step_shape hs <;> exact ⟨rfl, rfl⟩

theorem ninv_step {n n' : Node.Sys Dto} (hecho : ∀ g id, W (echo g id)) (h : NInv W n) {e : Node.Ev Dto} (hw : ∀ m, e = .net m → W m)
    (hl : ∀ k a, e = .launch k a → k ∉ n.runners.map Node.Runner.key ∧ k.pc = 0) (hs : Node.step n e = .ok n') : NInv W n' := by
  have hk := Node.keys_step hs
  have hpc : ∀ k ∈ n'.runners.map Node.Runner.key, k.pc = 0 := by
    intro k hm
    rw [hk, List.mem_append] at hm
    rcases hm with hm | hm
    · obtain ⟨u, hu, rfl⟩ := List.mem_map.1 hm
      exact h.pc u hu
    · cases e with
      | launch k' a =>
        rw [Spec.Node.launched, Spec.Node.launched, List.mem_singleton] at hm
        subst hm
        exact (hl k a rfl).2
      | _ => cases hm
  have hsig : ∀ u ∈ n.runners, Node.signal n u.key = echo u.key.gidx u.key.runId := by
    intro u hu
    rw [Node.signal, h.nil, h.pc u hu]
    rfl
  refine ⟨fun k => Node.good_step (h.good k) hs, Node.orig_step (h.good ⟨0, 0, ""⟩).r h.orig hs,
    Node.carry_step h.carry (fun u hu => .inr ?_) hw hs, ?_, fun u hu => hpc _ (List.mem_map_of_mem hu),
    (stages_step hs).1.trans h.stages, (stages_step hs).2.trans h.nil⟩
  · rw [hsig u hu, h.stages]
    exact ⟨hecho _ _, Int.le_refl 0, (by decide : (0 : Int) < (Program.stageCount 0 : Nat))⟩
  rw [hk]
  cases e with
  | launch k a =>
    rw [Spec.Node.launched, Spec.Node.launched, List.nodup_append]
    refine ⟨h.keys, List.nodup_singleton k, fun x hx y hy e => ?_⟩
    rw [List.mem_singleton] at hy
    subst hy; subst e
    exact (hl _ a rfl).1 hx
  | _ => simpa [Spec.Node.launched] using h.keys

theorem NInv.objPc {n : Node.Sys Dto} (h : NInv W n) {r : Nat} {o : Registry.Obj} (ho : n.reg.objs[r]? = some o) : o.key.pc = 0 := by
  obtain ⟨u, hu, _, hk⟩ := h.orig.obj r o ho
  rw [← hk]
  exact h.pc u hu

theorem NInv.objKey {n : Node.Sys Dto} (h : NInv W n) {r : Nat} {o : Registry.Obj} (ho : n.reg.objs[r]? = some o) :
    o.key = ⟨0, o.key.gidx, o.key.runId⟩ := by
  have := h.objPc ho
  cases hk : o.key
  rw [hk] at this
  dsimp only at this
  rw [this]

/-- There is one run object for each key: none is deleted. -/
theorem NInv.one {n : Node.Sys Dto} (h : NInv W n) {r r' : Nat} {o o' : Registry.Obj} (ho : n.reg.objs[r]? = some o)
    (ho' : n.reg.objs[r']? = some o') (hk : o'.key = o.key) : r = r' := by
  refine Node.one_obj h.orig.runs (k := o.key) (fun l1 l2 r e => ?_) ho ho' rfl hk
  have := ((h.good o.key).q.del o.key (by rw [e]; exact List.mem_append_right _ (List.mem_cons_self ..))).1
  rw [h.objPc ho] at this
  exact absurd this (by decide)

/-! The runs. -/

/-- How the r-th run got to its state: by a history of the key generation, in which the messages satisfy `W` and are for this run. -/
def Trace (c : Program.Cfg K) (W : Message Dto → Prop) (r : Nat) (k : RunKey) (u : Run Dto Obj (Data K)) : Prop :=
  ∃ (t0 : Int) (h : List (Prot.Ev Dto)), (∀ m ∈ msgs h, W m ∧ 0 ≤ m.op ∧ m.key = k) ∧
    exec (dkgConf (c.y k.gidx r) k.runId k.gidx c.members) (newRun Dto Obj (newData (c.gen k.gidx r)) t0) h = .ok u

/-- What is known of the runs and their outputs, when the outputs for `P` have been taken. -/
structure UInv (c : Program.Cfg K) (W : Message Dto → Prop) (P : Int → String → Prop) (s : Program.Sys K) : Prop where
  len : s.runs.length = s.node.reg.objs.length
  term : ∀ (r : Nat) (o : Registry.Obj) (u : Run Dto Obj (Data K)), s.node.reg.objs[r]? = some o → s.runs[r]? = some u →
    o.terminated = true → u.phase = .done
  trace : ∀ (r : Nat) (o : Registry.Obj) (u : Run Dto Obj (Data K)), s.node.reg.objs[r]? = some o → s.runs[r]? = some u →
    Trace c W r o.key u
  out : ∀ (r : Nat) (o : Registry.Obj) (u : Run Dto Obj (Data K)), s.node.reg.objs[r]? = some o → s.runs[r]? = some u →
    ¬ P o.key.gidx o.key.runId → waiting s.outs 0 o.key.gidx o.key.runId = u.user.out.head?
  live : ∀ (r : Nat) (o : Registry.Obj) (u : Run Dto Obj (Data K)), s.node.reg.objs[r]? = some o → s.runs[r]? = some u →
    P o.key.gidx o.key.runId → u.phase = .done
  outs : ∀ g id, waiting s.outs 0 g id ≠ none →
    (∃ (r : Nat) (o : Registry.Obj), s.node.reg.objs[r]? = some o ∧ o.key = ⟨0, g, id⟩) ∧ ¬ P g id

/-- Ended runs stay as they are. -/
def Later (s s' : Program.Sys K) : Prop :=
  ∀ (r : Nat) (o : Registry.Obj) (u : Run Dto Obj (Data K)), s.node.reg.objs[r]? = some o → s.runs[r]? = some u → u.phase = .done →
    ∃ o' u', s'.node.reg.objs[r]? = some o' ∧ o'.key = o.key ∧ s'.runs[r]? = some u' ∧ u'.phase = .done ∧ u'.user.out = u.user.out

theorem Later.refl (s : Program.Sys K) : Later s s := fun _ o u h1 h2 h3 => ⟨o, u, h1, rfl, h2, h3, rfl⟩

theorem Later.trans {s s' s'' : Program.Sys K} (h : Later s s') (h' : Later s' s'') : Later s s'' := by
  intro r o u h1 h2 h3
  obtain ⟨o', u', a1, a2, a3, a4, a5⟩ := h r o u h1 h2 h3
  obtain ⟨o2, u2, b1, b2, b3, b4, b5⟩ := h' r o' u' a1 a3 a4
  exact ⟨o2, u2, b1, b2.trans a2, b3, b4, b5.trans a5⟩

theorem uinv_node {c : Program.Cfg K} {s s' : Program.Sys K} {e : Node.Ev Dto} (hu : UInv c W P s)
    (hp : ∀ (o : Registry.Obj), s'.node.reg.objs[s.runs.length]? = some o → ¬ P o.key.gidx o.key.runId)
    (hf : ∀ r, e = .finish r → ∀ u, s.runs[r]? = some u → u.phase = .done) (hs : nodeEvent c s e = .ok s')
    (hn : NInv W s'.node) : UInv c W P s' ∧ Later s s' := by
  obtain ⟨n, h1, e1⟩ := node_ok hs
  have f := objs_step h1
  obtain ⟨l1, l2, l3⟩ := runs_node (c := c) hu.len f.len rfl
  subst e1
  have fresh : ∀ (o : Registry.Obj), n.reg.objs[s.runs.length]? = some o → waiting s.outs 0 o.key.gidx o.key.runId = none := by
    intro o ho
    by_contra hc
    obtain ⟨⟨r0, o0, h2, h3⟩, _⟩ := hu.outs _ _ hc
    obtain ⟨o1, h4, h5⟩ := f.fwd r0 o0 h2
    have e : r0 = s.runs.length := hn.one h4 ho (by rw [h5, h3]; exact hn.objKey ho)
    have := lt_of_some h2
    rw [hu.len] at e
    omega
  have same : ∀ (r : Nat) (o : Registry.Obj) (u : Run Dto Obj (Data K)), n.reg.objs[r]? = some o → s.runs[r]? = some u →
      ∃ o0, s.node.reg.objs[r]? = some o0 ∧ o.key = o0.key ∧ (o.terminated = true → o0.terminated = true ∨ e = .finish r) := by
    intro r o u ho hr
    rcases f.back r o ho with h | ⟨h, _⟩
    · exact h
    · have := lt_of_some hr
      rw [hu.len] at this
      omega
  refine ⟨⟨l1, ?_, ?_, ?_, ?_, ?_⟩, ?_⟩
  · intro r o u ho hr ht
    rcases l3 r u hr with hr | ⟨rfl, o', t0, ho', rfl⟩
    · obtain ⟨o0, h2, h3, h4⟩ := same r o u ho hr
      rcases h4 ht with h4 | h4
      · exact hu.term r o0 u h2 hr h4
      · exact hf r h4 u hr
    · rcases f.back _ o ho with ⟨o0, h2, _⟩ | ⟨_, h2⟩
      · have := lt_of_some h2
        rw [hu.len] at this
        omega
      · rw [h2] at ht; cases ht
  · intro r o u ho hr
    rcases l3 r u hr with hr | ⟨rfl, o', t0, ho', rfl⟩
    · obtain ⟨o0, h2, h3, _⟩ := same r o u ho hr
      rw [h3]
      exact hu.trace r o0 u h2 hr
    · have := Option.some.inj (ho.symm.trans ho')
      subst this
      exact ⟨t0, [], (by intro m hm; cases hm), rfl⟩
  · intro r o u ho hr hnp
    rcases l3 r u hr with hr | ⟨rfl, o', t0, ho', rfl⟩
    · obtain ⟨o0, h2, h3, _⟩ := same r o u ho hr
      rw [h3] at hnp ⊢
      exact hu.out r o0 u h2 hr hnp
    · exact fresh o ho
  · intro r o u ho hr hP
    rcases l3 r u hr with hr | ⟨rfl, o', t0, ho', rfl⟩
    · obtain ⟨o0, h2, h3, _⟩ := same r o u ho hr
      rw [h3] at hP
      exact hu.live r o0 u h2 hr hP
    · exact absurd hP (hp o ho)
  · intro g id hne
    obtain ⟨⟨r0, o0, h2, h3⟩, h4⟩ := hu.outs g id hne
    obtain ⟨o1, h5, h6⟩ := f.fwd r0 o0 h2
    exact ⟨⟨r0, o1, h5, h6.trans h3⟩, h4⟩
  · intro r o u ho hr hd
    obtain ⟨o1, h5, h6⟩ := f.fwd r o ho
    exact ⟨o1, u, h5, h6, l2 r u hr, hd, rfl⟩

/-- What the calls of `push_output` of a key generation leave. -/
theorem pushAll_key {o o' : Outputs Output} {k : RunKey} {vs : List Output} (h : pushAll o k vs = .ok o')
    (hv : vs = [] ∨ ∃ s q, vs = [.key s q]) (g : Int) (id : String) :
    waiting o' 0 g id = if k.gidx = g ∧ k.runId = id ∧ vs ≠ [] then vs.head? else waiting o 0 g id := by
  rcases hv with rfl | ⟨s, q, rfl⟩
  · rw [pushAll] at h
    rw [← Outcome.ok.inj h, if_neg (fun x => x.2.2 rfl)]
  · rw [pushAll, Outcome.bind_eq_ok] at h
    obtain ⟨o1, h1, h2⟩ := h
    rw [pushAll] at h2
    rw [← Outcome.ok.inj h2, push_waiting h1 0 g id]
    by_cases e : k.gidx = g ∧ k.runId = id
    · rw [if_pos ⟨rfl, e⟩, if_pos ⟨e.1, e.2, by simp⟩]; rfl
    · rw [if_neg fun x => e x.2, if_neg fun x => e ⟨x.1, x.2.1⟩]

theorem conf_dkg {c : Program.Cfg K} {r : Nat} {k : RunKey} (hk : k.pc = 0) (doc : Option Int) :
    Program.conf c r k doc = dkgConf (c.y k.gidx r) k.runId k.gidx c.members := by
  rw [Program.conf, if_pos hk]

theorem uinv_run {c : Program.Cfg K} {s s' : Program.Sys K} (hn : NInv W s.node) (hu : UInv c W P s) {r : Nat} {e : Prot.Ev Dto}
    (he : e = .thread ∨ ∃ m, e = .msg m ∧ W m ∧ 0 ≤ m.op ∧ ∀ o, s.node.reg.objs[r]? = some o → m.key = o.key)
    (hs : runEvent c s r e = .ok s') : UInv c W P s' ∧ Later s s' ∧ s'.node = s.node ∧ s'.jobs = s.jobs ∧ s'.found = s.found := by
  obtain ⟨u, o, u', outs, hr, ho, hx, hpush, rfl⟩ := run_ok hs
  rw [conf_dkg (hn.objPc ho)] at hx
  have htr' : Trace c W r o.key u' := by
    obtain ⟨t0, h, hm, htr⟩ := hu.trace r o u ho hr
    refine ⟨t0, h ++ [.tick s.node.fw.now, e], ?_, by rw [exec_append, htr, Outcome.bind_ok]; exact hx⟩
    intro m hy
    rw [msgs_append] at hy
    rcases List.mem_append.1 hy with hy | hy
    · exact hm m hy
    · rcases he with rfl | ⟨m', rfl, hW⟩
      · cases hy
      · have : m = m' := by simpa [msgs] using hy
        subst this
        exact ⟨hW.1, hW.2.1, hW.2.2 o ho⟩
  have hfin : Final (c.y o.key.gidx r) u'.user := by
    obtain ⟨t0, h, _, h2⟩ := htr'
    exact dkg_final h2
  obtain ⟨add, hadd⟩ : u.user.out <+: u'.user.out := dkg_out_prefix hx
  have hdrop : u'.user.out.drop u.user.out.length = add := by rw [← hadd]; simp
  rw [hdrop] at hpush
  have hone : add = [] ∨ (u.user.out = [] ∧ add = u'.user.out ∧ ∃ sh q, add = [.key sh q]) := by
    rcases hfin with h0 | ⟨sh, q, h1, _⟩
    · rw [h0] at hadd; exact .inl (List.append_eq_nil_iff.1 hadd).2
    · cases hu0 : u.user.out with
      | nil => rw [hu0, List.nil_append] at hadd; exact .inr ⟨rfl, hadd, sh, q, hadd.trans h1⟩
      | cons x xs =>
        rw [hu0, h1] at hadd
        injection hadd with _ h2
        exact .inl (List.append_eq_nil_iff.1 h2).2
  have hend : u.phase = .done → u'.phase = .done ∧ add = [] := by
    intro hph
    rcases he with rfl | ⟨m, rfl, _⟩
    · exact absurd hx (thread_done hph)
    · obtain ⟨t0, h, _, htr⟩ := hu.trace r o u ho hr
      have hout := dkg_msg_out hx
      refine ⟨?_, by rw [hout] at hadd; simpa using hadd⟩
      have hrun := hx
      rw [exec, Outcome.bind_eq_ok] at hrun
      obtain ⟨u1, e1, hrun⟩ := hrun
      rw [exec, Outcome.bind_eq_ok] at hrun
      obtain ⟨u2, e2, hrun⟩ := hrun
      rw [exec] at hrun
      have hinv : Inv _ u1 := (agree_exec (h := h ++ [.tick s.node.fw.now]) (u := newData (c.gen o.key.gidx r)) (t0 := t0)
        (by rw [exec_append, htr, Outcome.bind_ok, exec, e1]; rfl)).inv
      rw [Prot.step] at e2
      have h1 : u1.phase = u.phase := by
        rw [Prot.step] at e1
        by_cases ht : u.now ≤ s.node.fw.now
        · rw [if_pos ht] at e1; rw [← Outcome.ok.inj e1]
        · rw [if_neg ht] at e1; cases e1
      rw [← Outcome.ok.inj hrun, (receive_ok hinv e2).2.1, h1, hph]
  have old : ∀ (r1 : Nat) (u1 : Run Dto Obj (Data K)), (s.runs.set r u')[r1]? = some u1 → (r1 = r ∧ u1 = u') ∨ (r1 ≠ r ∧ s.runs[r1]? = some u1) :=
    fun r1 u1 h => Firewall.getElem?_set_some hr h
  have new : ∀ {r1 : Nat} {u1 : Run Dto Obj (Data K)}, r1 ≠ r → s.runs[r1]? = some u1 → (s.runs.set r u')[r1]? = some u1 :=
    fun hne h => by rw [Firewall.getElem?_set_other _ hne]; exact h
  have hwait := pushAll_key hpush (hone.imp id fun h => h.2.2)
  refine ⟨⟨?_, ?_, ?_, ?_, ?_, ?_⟩, ?_, rfl, rfl, rfl⟩
  · rw [List.length_set]; exact hu.len
  · intro r1 o1 u1 ho1 hr1 ht
    rcases old r1 u1 hr1 with ⟨rfl, rfl⟩ | ⟨_, hr1⟩
    · rw [ho] at ho1
      have := Option.some.inj ho1
      subst this
      exact (hend (hu.term r1 o u ho hr ht)).1
    · exact hu.term r1 o1 u1 ho1 hr1 ht
  · intro r1 o1 u1 ho1 hr1
    rcases old r1 u1 hr1 with ⟨rfl, rfl⟩ | ⟨_, hr1⟩
    · rw [ho] at ho1
      have := Option.some.inj ho1
      subst this
      exact htr'
    · exact hu.trace r1 o1 u1 ho1 hr1
  · intro r1 o1 u1 ho1 hr1 hnp
    dsimp only
    rw [hwait]
    rcases old r1 u1 hr1 with ⟨rfl, rfl⟩ | ⟨hne, hr1⟩
    · rw [ho] at ho1
      have := Option.some.inj ho1
      subst this
      rcases hone with h0 | ⟨h1, h2, sh, q, h3⟩
      · rw [if_neg fun x => x.2.2 h0, hu.out r1 o u ho hr hnp, ← hadd, h0, List.append_nil]
      · rw [if_pos ⟨rfl, rfl, by rw [h3]; simp⟩, h2]
    · rw [if_neg]
      · exact hu.out r1 o1 u1 ho1 hr1 hnp
      · rintro ⟨e1, e2, _⟩
        refine hne (hn.one ho ho1 ?_).symm
        rw [hn.objKey ho, hn.objKey ho1, e1, e2]
  · intro r1 o1 u1 ho1 hr1 hP
    rcases old r1 u1 hr1 with ⟨rfl, rfl⟩ | ⟨_, hr1⟩
    · rw [ho] at ho1
      have := Option.some.inj ho1
      subst this
      exact (hend (hu.live r1 o u ho hr hP)).1
    · exact hu.live r1 o1 u1 ho1 hr1 hP
  · intro g id hne
    dsimp only at hne
    rw [hwait] at hne
    by_cases hk : o.key.gidx = g ∧ o.key.runId = id ∧ add ≠ []
    · obtain ⟨rfl, rfl, ha⟩ := hk
      exact ⟨⟨r, o, ho, hn.objKey ho⟩, fun hP => ha (hend (hu.live r o u ho hr hP)).2⟩
    · rw [if_neg hk] at hne
      exact hu.outs g id hne
  · intro r1 o1 u1 ho1 hr1 hd
    by_cases hne : r1 = r
    · subst hne
      rw [hr] at hr1
      have := Option.some.inj hr1
      subst this
      obtain ⟨e1, e2⟩ := hend hd
      exact ⟨o1, u', ho1, rfl, Firewall.getElem?_set_self _ hr, e1, by rw [← hadd, e2, List.append_nil]⟩
    · exact ⟨o1, u1, ho1, rfl, new hne hr1, hd, rfl⟩

/-! The program without its main goroutine. -/

/-- What holds at every moment. -/
structure PInv (c : Program.Cfg K) (W : Message Dto → Prop) (P : Int → String → Prop) (s : Program.Sys K) : Prop where
  n : NInv W s.node
  u : UInv c W P s
  f : FInv s
  jobs : s.jobs = []

/-- What an event does to the runners and the ended runs. -/
structure After (s s' : Program.Sys K) : Prop where
  later : Later s s'
  le : Node.RunnersLe s.node.runners s'.node.runners
  keys : s'.node.runners.map Node.Runner.key = s.node.runners.map Node.Runner.key

theorem After.refl (s : Program.Sys K) : After s s := ⟨Later.refl s, fun _ u h => ⟨u, h, rfl, Nat.le_refl _⟩, rfl⟩

theorem After.trans {s s' s'' : Program.Sys K} (h : After s s') (h' : After s' s'') : After s s'' :=
  ⟨h.later.trans h'.later, h.le.trans h'.le, h'.keys.trans h.keys⟩

/-- The outputs are taken for runs with a runner only after the run has been created. -/
def Made (P : Int → String → Prop) (n : Node.Sys Dto) : Prop :=
  ∀ u ∈ n.runners, P u.key.gidx u.key.runId → ∃ (r : Nat) (o : Registry.Obj), n.reg.objs[r]? = some o ∧ o.key = u.key

/-- An event of the node that starts no runner, as far as what the consumers have found is not concerned. -/
theorem pinv_node0 {c : Program.Cfg K} {s s' : Program.Sys K} {e : Node.Ev Dto} (hecho : ∀ g id, W (echo g id)) (h : PInv c W P s)
    (hP : Made P s.node) (hw : ∀ m, e = .net m → W m) (hl : ∀ k a, e ≠ .launch k a)
    (hf : ∀ r, e = .finish r → ∀ u, s.runs[r]? = some u → u.phase = .done)
    (hs : nodeEvent c s e = .ok s') : NInv W s'.node ∧ UInv c W P s' ∧ s'.jobs = [] ∧ After s s' ∧ s'.found = s.found := by
  obtain ⟨n, h1, e1⟩ := node_ok hs
  have hn : NInv W s'.node := by subst e1; exact ninv_step hecho h.n hw (fun k a he => absurd he (hl k a)) h1
  have hk : n.runners.map Node.Runner.key = s.node.runners.map Node.Runner.key := by
    rw [Node.keys_step h1]
    cases e with
    | launch k a => exact absurd rfl (hl k a)
    | _ => simp [Spec.Node.launched]
  have hu := uinv_node h.u (fun o ho hx => ?_) hf hs hn
  · exact ⟨hn, hu.1, by rw [e1]; exact h.jobs, ⟨hu.2, by rw [e1]; exact (Node.aside_step h1).1, by rw [e1]; exact hk⟩, by rw [e1]⟩
  · obtain ⟨v, hv, _, hvk⟩ := hn.orig.obj _ o ho
    have : v.key ∈ s.node.runners.map Node.Runner.key := by
      rw [← hk]
      have := List.mem_map_of_mem (f := Node.Runner.key) hv
      rw [e1] at this
      exact this
    obtain ⟨w, hw', hwk⟩ := List.mem_map.1 this
    rw [← hvk, ← hwk] at hx
    obtain ⟨r0, o0, h2, h3⟩ := hP w hw' hx
    obtain ⟨o1, h4, h5⟩ := (objs_step h1).fwd r0 o0 h2
    rw [e1] at ho hn
    have e : r0 = s.runs.length := hn.one h4 ho (by rw [h5, h3, hwk, hvk])
    have := lt_of_some h2
    rw [h.u.len] at e
    omega

theorem Made.step {c : Program.Cfg K} {s s' : Program.Sys K} {e : Node.Ev Dto} (h : Made P s.node) (hs : nodeEvent c s e = .ok s')
    (hk : s'.node.runners.map Node.Runner.key = s.node.runners.map Node.Runner.key) : Made P s'.node := by
  obtain ⟨n, h1, rfl⟩ := node_ok hs
  intro u hu hp
  have : u.key ∈ s.node.runners.map Node.Runner.key := by rw [← hk]; exact List.mem_map_of_mem hu
  obtain ⟨w, hw, hwk⟩ := List.mem_map.1 this
  rw [← hwk] at hp
  obtain ⟨r0, o0, h2, h3⟩ := h w hw hp
  obtain ⟨o1, h4, h5⟩ := (objs_step h1).fwd r0 o0 h2
  exact ⟨r0, o1, h4, by rw [h5, h3, hwk]⟩

theorem pinv_node {c : Program.Cfg K} {s s' : Program.Sys K} {e : Node.Ev Dto} (hecho : ∀ g id, W (echo g id)) (h : PInv c W P s)
    (hP : Made P s.node) (hw : ∀ m, e = .net m → W m) (hl : ∀ k a, e ≠ .launch k a)
    (hc : ∀ q, e ≠ .cons q) (hf : ∀ r, e = .finish r → ∀ u, s.runs[r]? = some u → u.phase = .done)
    (hs : nodeEvent c s e = .ok s') : PInv c W P s' ∧ After s s' := by
  obtain ⟨h1, h2, h3, h4, h5⟩ := pinv_node0 hecho h hP hw hl hf hs
  refine ⟨⟨h1, h2, finv_node h.f (fun q m hq => ?_) hs, h3⟩, h4⟩
  obtain ⟨n, g1, e1⟩ := node_ok hs
  have : s'.node.cons q = s.node.cons q := by rw [e1]; exact (Node.aside_step g1).2 q (hc q)
  rw [← this]; exact hq

theorem pinv_thread {c : Program.Cfg K} {s s' : Program.Sys K} {r : Nat} (hecho : ∀ g id, W (echo g id)) (h : PInv c W P s)
    (hP : Made P s.node) (hs : threadStep c s r = .ok s') : PInv c W P s' ∧ After s s' := by
  rw [threadStep] at hs
  cases ho : s.node.reg.objs[r]? with
  | none => rw [ho] at hs; cases hs
  | some o =>
    rw [ho] at hs
    dsimp only at hs
    by_cases hst : o.started = 0
    · rw [if_pos hst] at hs; cases hs
    · rw [if_neg hst, Outcome.bind_eq_ok] at hs
      obtain ⟨s1, h1, h2⟩ := hs
      obtain ⟨hu, hlat, e1, e2, e3⟩ := uinv_run h.n h.u (.inl rfl) h1
      have h' : PInv c W P s1 := ⟨by rw [e1]; exact h.n, hu, (by intro q m; rw [e1, e3]; exact h.f q m), e2.trans h.jobs⟩
      have ha : After s s1 := ⟨hlat, by rw [e1]; exact (After.refl s).le, by rw [e1]⟩
      by_cases hp : phaseOf s1 r = some .done
      · rw [if_pos hp] at h2
        have := pinv_node hecho h' (by rw [e1]; exact hP) (fun m he => by cases he) (fun k a he => by cases he) (fun q he => by cases he)
          (fun r' he u hr => ?_) h2
        · exact ⟨this.1, ha.trans this.2⟩
        · cases he
          rw [phaseOf, hr] at hp
          exact Option.some.inj hp
      · rw [if_neg hp] at h2
        rw [← Outcome.ok.inj h2]
        exact ⟨h', ha⟩

/-- An event of a consumer. -/
theorem pinv_cons {c : Program.Cfg K} {s s' : Program.Sys K} {q : Int × Int} (hecho : ∀ g id, W (echo g id)) (h : PInv c W P s)
    (hP : Made P s.node) (hs : nodeEvent c s (.cons q) = .ok s') :
    NInv W s'.node ∧ UInv c W P s' ∧ s'.jobs = [] ∧ After s s' ∧ (∀ q' m, q' ≠ q → s'.node.cons q' = .found m →
      ∃ o, s'.node.reg.objs[s'.found q']? = some o ∧ o.key = m.key) := by
  obtain ⟨h1, h2, h3, h4, h5⟩ := pinv_node0 hecho h hP (fun m he => by cases he) (fun k a he => by cases he) (fun r he => by cases he) hs
  refine ⟨h1, h2, h3, h4, fun q' m hq hm => ?_⟩
  obtain ⟨n, g1, e1⟩ := node_ok hs
  have : s'.node.cons q' = s.node.cons q' := by rw [e1]; exact (Node.aside_step g1).2 q' (fun he => hq (by cases he; rfl))
  rw [this] at hm
  obtain ⟨o, h6, h7⟩ := h.f q' m hm
  obtain ⟨o', h8, h9⟩ := (objs_step g1).fwd _ o h6
  exact ⟨o', by rw [h5, e1]; exact h8, h9.trans h7⟩

theorem pinv_consStep {c : Program.Cfg K} {s s' : Program.Sys K} {q : Int × Int} (hecho : ∀ g id, W (echo g id)) (h : PInv c W P s)
    (hP : Made P s.node) (hs : consStep c s q = .ok s') : PInv c W P s' ∧ After s s' := by
  rw [consStep] at hs
  cases hq : s.node.cons q with
  | idle =>
    rw [hq] at hs
    dsimp only at hs
    obtain ⟨i1, i2, i3, i4, i5⟩ := pinv_cons hecho h hP hs
    refine ⟨⟨i1, i2, fun q' m hm => ?_, i3⟩, i4⟩
    by_cases e : q' = q
    · subst e
      obtain ⟨n, h1, rfl⟩ := node_ok hs
      rw [Node.step, Node.consume, hq] at h1
      dsimp only at h1
      cases hqq : s.node.queues q' with
      | nil => rw [hqq] at h1; cases h1
      | cons x xs =>
        rw [hqq] at h1
        rw [← Outcome.ok.inj h1] at hm
        dsimp only at hm
        rw [Node.update, if_pos rfl] at hm
        cases hm
    · exact i5 q' m e hm
  | got x =>
    rw [hq] at hs
    dsimp only at hs
    rw [Outcome.bind_eq_ok] at hs
    obtain ⟨s1, h1, h2⟩ := hs
    obtain ⟨i1, i2, i3, i4, i5⟩ := pinv_cons hecho h hP h1
    have e := Outcome.ok.inj h2
    subst e
    refine ⟨⟨i1, ⟨i2.1, i2.2, i2.3, i2.4, i2.5, i2.6⟩, fun q' m hm => ?_, i3⟩, ⟨i4.1, i4.2, i4.3⟩⟩
    dsimp only at hm ⊢
    by_cases e : q' = q
    · subst e
      rw [Node.update, if_pos rfl]
      obtain ⟨n, h3, rfl⟩ := node_ok h1
      dsimp only at hm i1 ⊢
      rw [Node.step, Node.consume, hq] at h3
      dsimp only at h3
      by_cases hneg : x.pc < 0
      · rw [if_pos hneg, Node.regEventAt] at h3
        by_cases hv : Firewall.keyValid s.node.fw ⟨-x.pc, x.rcpt, x.runId⟩ = true
        · rw [if_pos hv, Node.regEvent, Outcome.bind_eq_ok] at h3
          obtain ⟨r1, _, h3⟩ := h3
          rw [← Outcome.ok.inj h3] at hm
          dsimp only at hm
          rw [Node.update, if_pos rfl] at hm
          cases hm
        · rw [if_neg hv] at h3; cases h3
      · rw [if_neg hneg, Node.regEventAt] at h3
        by_cases hv : Firewall.keyValid s.node.fw x.key = true
        · rw [if_pos hv, Node.regEvent, Outcome.bind_eq_ok] at h3
          obtain ⟨r1, h4, h3⟩ := h3
          rw [← Outcome.ok.inj h3] at hm i1 ⊢
          dsimp only at hm i1 ⊢
          rw [Node.update, if_pos rfl] at hm
          cases hm
          obtain ⟨r, hr⟩ := ensure_ok h4
          rw [hr]
          exact i1.orig.runs.reg _ r hr
        · rw [if_neg hv] at h3; cases h3
    · rw [Node.update, if_neg e]
      exact i5 q' m e hm
  | found x =>
    rw [hq] at hs
    dsimp only at hs
    rw [Outcome.bind_eq_ok] at hs
    obtain ⟨s1, h1, h2⟩ := hs
    obtain ⟨hW, hr⟩ := h.n.carry.hold q x hq
    obtain ⟨o, ho, hk⟩ := h.f q x hq
    obtain ⟨hu, hlat, e1, e2, e3⟩ := uinv_run h.n h.u (.inr ⟨x, rfl, hW, hr.1, fun o' ho' => by
      rw [ho] at ho'; rw [← Option.some.inj ho', hk]⟩) h1
    have h' : PInv c W P s1 := ⟨by rw [e1]; exact h.n, hu, (by intro q m; rw [e1, e3]; exact h.f q m), e2.trans h.jobs⟩
    have ha : After s s1 := ⟨hlat, by rw [e1]; exact (After.refl s).le, by rw [e1]⟩
    obtain ⟨i1, i2, i3, i4, i5⟩ := pinv_cons hecho h' (by rw [e1]; exact hP) h2
    refine ⟨⟨i1, i2, fun q' m hm => ?_, i3⟩, ha.trans i4⟩
    by_cases e : q' = q
    · subst e
      obtain ⟨n, h3, rfl⟩ := node_ok h2
      rw [Node.step, Node.consume, e1, hq] at h3
      rw [← Outcome.ok.inj h3] at hm
      dsimp only at hm
      rw [Node.update, if_pos rfl] at hm
      cases hm
    · exact i5 q' m e hm

theorem pinv_progStep {c : Cfg K} {s s' : Program.Sys K} {e : Program.Ev} (hecho : ∀ g id, W (echo g id)) (h : PInv c.base W P s)
    (hP : Made P s.node) (hw : ∀ m, e = .net m → W m) (hs : progStep c s e = .ok s') : PInv c.base W P s' ∧ After s s' := by
  have node : ∀ {e' : Node.Ev Dto}, nodeEvent c.base s e' = .ok s' → (∀ m, e' = .net m → e = .net m) → (∀ k a, e' ≠ .launch k a) →
      (∀ q, e' ≠ .cons q) → (∀ r, e' ≠ .finish r) → PInv c.base W P s' ∧ After s s' :=
    fun hs h1 h2 h3 h4 => pinv_node hecho h hP (fun m he => hw m (h1 m he)) h2 h3 (fun r he => absurd he (h4 r)) hs
  cases e with
  | tick t => exact node hs (by intro m he; cases he) (by intro k a he; cases he) (by intro q he; cases he) (by intro r he; cases he)
  | latch => exact node hs (by intro m he; cases he) (by intro k a he; cases he) (by intro q he; cases he) (by intro r he; cases he)
  | net m => exact node hs (by intro m' he; cases he; rfl) (by intro k a he; cases he) (by intro q he; cases he) (by intro r he; cases he)
  | fwStep i => exact node hs (by intro m he; cases he) (by intro k a he; cases he) (by intro q he; cases he) (by intro r he; cases he)
  | task i => exact node hs (by intro m he; cases he) (by intro k a he; cases he) (by intro q he; cases he) (by intro r he; cases he)
  | runner j => exact node hs (by intro m he; cases he) (by intro k a he; cases he) (by intro q he; cases he) (by intro r he; cases he)
  | cons q => exact pinv_consStep hecho h hP hs
  | thread r => exact pinv_thread hecho h hP hs
  | request j => cases hs
  | job i g =>
    change Program.jobStep c.base s i g = .ok s' at hs
    rw [Program.jobStep, h.jobs] at hs
    cases hs

end Verif.KeyProgram
