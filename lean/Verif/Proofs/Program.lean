import Verif.Model.Program
import Verif.Spec.Program
import Verif.Proofs.NodeCarry
import Verif.Proofs.ProtDoc
import Verif.Props.Tables
import Mathlib.Data.List.Nodup

/-! What holds at every moment in the program as it signs. -/
namespace Verif.Program
open Verif.Prot Verif.Dto Verif.Dss Verif.Dkg Verif.Tables Verif.Signode Verif.Props Verif.Spec.Prot Verif.Spec.Program
open Verif.Registry (lt_of_some)
variable {K : Type} {c : Cfg K} {W : Message Dto → Prop}

/-! The node. -/

/-- What is known of the node. -/
structure NInv (W : Message Dto → Prop) (n : Node.Sys Dto) : Prop where
  good : ∀ k, Node.Good k n
  orig : Node.Orig n
  carry : Node.Carry W n
  keys : (n.runners.map Node.Runner.key).Nodup
  pc : ∀ u ∈ n.runners, u.key.pc = 1

theorem ninv_step {n n' : Node.Sys Dto} (h : NInv W n) {e : Node.Ev Dto} (hw : ∀ m, e = .net m → W m)
    (hl : ∀ k a, e = .launch k a → k ∉ n.runners.map Node.Runner.key ∧ k.pc = 1) (hs : Node.step n e = .ok n') : NInv W n' := by
  have hk := Node.keys_step hs
  have hpc : ∀ k ∈ n'.runners.map Node.Runner.key, k.pc = 1 := by
    intro k hm
    rw [hk, List.mem_append] at hm
    rcases hm with hm | hm
    · obtain ⟨u, hu, rfl⟩ := List.mem_map.1 hm
      exact h.pc u hu
    · cases e with
      | launch k' a =>
        rw [Spec.Node.launched, Spec.Node.launched, List.mem_singleton] at hm
        subst hm
        exact (hl k a rfl).2
      | _ => cases hm
  refine ⟨fun k => Node.good_step (h.good k) hs, Node.orig_step (h.good ⟨0, 0, ""⟩).r h.orig hs,
    Node.carry_step h.carry (fun u hu => .inl (by rw [h.pc u hu]; decide)) hw hs, ?_, fun u hu => hpc _ (List.mem_map_of_mem hu)⟩
  rw [hk]
  cases e with
  | launch k a =>
    rw [Spec.Node.launched, Spec.Node.launched, List.nodup_append]
    refine ⟨h.keys, List.nodup_singleton k, fun x hx y hy e => ?_⟩
    rw [List.mem_singleton] at hy
    subst hy; subst e
    exact (hl _ a rfl).1 hx
  | _ => simpa [Spec.Node.launched] using h.keys

theorem NInv.objPc {n : Node.Sys Dto} (h : NInv W n) {r : Nat} {o : Registry.Obj} (ho : n.reg.objs[r]? = some o) : o.key.pc = 1 := by
  obtain ⟨u, hu, _, hk⟩ := h.orig.obj r o ho
  rw [← hk]
  exact h.pc u hu

theorem NInv.uniq {n : Node.Sys Dto} (h : NInv W n) (k : RunKey) : Node.Uniq k n.runners :=
  Node.uniq_of_count (List.nodup_iff_count_le_one.1 h.keys k)

/-- There is one run object for each key. -/
theorem NInv.one {n : Node.Sys Dto} (h : NInv W n) {r r' : Nat} {o o' : Registry.Obj} (ho : n.reg.objs[r]? = some o)
    (ho' : n.reg.objs[r']? = some o') (hk : o'.key = o.key) : r = r' :=
  Node.one_obj h.orig.runs ((h.good o.key).k (by rw [h.objPc ho]; decide) (h.uniq _)).2 ho ho' rfl hk

/-- What a node event does to the run objects. -/
structure ObjsStep (n : Node.Sys Dto) (e : Node.Ev Dto) (n' : Node.Sys Dto) : Prop where
  back : ∀ (r : Nat) (o' : Registry.Obj), n'.reg.objs[r]? = some o' →
    (∃ o, n.reg.objs[r]? = some o ∧ o'.key = o.key ∧ (o'.terminated = true → o.terminated = true ∨ e = .finish r)) ∨
    (r = n.reg.objs.length ∧ o'.terminated = false)
  fwd : ∀ (r : Nat) (o : Registry.Obj), n.reg.objs[r]? = some o → ∃ o', n'.reg.objs[r]? = some o' ∧ o'.key = o.key
  len : n.reg.objs.length ≤ n'.reg.objs.length ∧ n'.reg.objs.length ≤ n.reg.objs.length + 1

theorem objs_step {n n' : Node.Sys Dto} {e : Node.Ev Dto} (hs : Node.step n e = .ok n') : ObjsStep n e n' := by
  rcases Node.reg_event hs with h | ⟨re, h, hf⟩
  · refine ⟨?_, ?_, ?_⟩
    · rw [h]; exact fun r o ho => .inl ⟨o, ho, rfl, .inl⟩
    · rw [h]; exact fun r o ho => ⟨o, ho, rfl⟩
    · rw [h]; exact ⟨Nat.le_refl _, Nat.le_succ _⟩
  · have f := Registry.frame_step h
    refine ⟨fun r o' ho' => ?_, fun r o ho => ?_, f.len⟩
    · rcases f.back r o' ho' with ⟨o, h1, h2, h3⟩ | ⟨h1, _, h3⟩
      · exact .inl ⟨o, h1, h2, fun x => (h3 x).imp id (hf r)⟩
      · exact .inr ⟨h1, h3⟩
    · obtain ⟨o', h1, h2, _⟩ := f.fwd r o ho
      exact ⟨o', h1, h2⟩

/-! Jobs. -/

/-- The runners have been started. -/
def past : JobPc → Bool
  | .registering => false
  | .launching => false
  | _ => true

/-- The document of the job is registered for guest `g`. -/
def Registered (b : JobSt) (g : Int) : Prop :=
  (b.pc = .registering ∧ g ∈ b.done) ∨ b.pc = .launching ∨ b.pc = .waiting ∨ (b.pc = .deregistering ∧ g ∉ b.done)

/-- The job has printed the line of guest `g`. -/
def Printed (b : JobSt) (g : Int) : Prop := (b.pc = .printing ∧ g ∈ b.done) ∨ b.pc = .ended

/-- No two jobs have the same run id. -/
def Distinct (jobs : List JobSt) : Prop := (jobs.map fun b => jobId b.job).Nodup

theorem Distinct.eq {jobs : List JobSt} (h : Distinct jobs) {b b' : JobSt} (hb : b ∈ jobs) (hb' : b' ∈ jobs)
    (e : jobId b.job = jobId b'.job) : b = b' := List.inj_on_of_nodup_map h hb hb' e

/-- One job changed. -/
theorem mem_set {jobs : List JobSt} (h : Distinct jobs) {i : Nat} {b b1 : JobSt} (hb : jobs[i]? = some b) (b' : JobSt) :
    b' ∈ jobs.set i b1 ↔ b' = b1 ∨ (b' ∈ jobs ∧ jobId b'.job ≠ jobId b.job) := by
  constructor
  · intro hm
    obtain ⟨j, hj⟩ := List.mem_iff_getElem?.1 hm
    by_cases e : i = j
    · subst e
      rw [List.getElem?_set_self (lt_of_some hb)] at hj
      exact .inl (Option.some.inj hj).symm
    · rw [List.getElem?_set_ne e] at hj
      refine .inr ⟨List.mem_of_getElem? hj, fun hid => e ?_⟩
      have h1 : (jobs.map fun b => jobId b.job)[i]? = some (jobId b.job) := by rw [List.getElem?_map, hb]; rfl
      have h2 : (jobs.map fun b => jobId b.job)[j]? = some (jobId b'.job) := by rw [List.getElem?_map, hj]; rfl
      rw [hid] at h2
      exact (List.getElem?_inj (by simpa using lt_of_some hb) h).1 (h1.trans h2.symm)
  · rintro (rfl | ⟨hm, hid⟩)
    · exact List.mem_iff_getElem?.2 ⟨i, List.getElem?_set_self (lt_of_some hb)⟩
    · obtain ⟨j, hj⟩ := List.mem_iff_getElem?.1 hm
      refine List.mem_iff_getElem?.2 ⟨j, ?_⟩
      rw [List.getElem?_set_ne]
      · exact hj
      · rintro rfl
        have := Option.some.inj (hb.symm.trans hj)
        subst this
        exact hid rfl

/-- What is known of the jobs. -/
structure JInv (c : Cfg K) (s : Sys K) : Prop where
  owner : ∀ u ∈ s.node.runners, ∃ b ∈ s.jobs, past b.pc = true ∧ ∃ g ∈ c.guests, u.key = ⟨1, g, jobId b.job⟩
  mine : ∀ b ∈ s.jobs, past b.pc = true → ∀ g ∈ c.guests, ∃ (j : Nat) (u : Node.Runner), s.node.runners[j]? = some u ∧
    u.key = ⟨1, g, jobId b.job⟩ ∧ (b.pc = .waiting → j ∈ b.runners) ∧ (b.pc ≠ .waiting → 6 ≤ u.pos)
  docs : ∀ g id d, docFor s.docs g id = some d ↔ g ∈ c.guests ∧ ∃ b ∈ s.jobs, jobId b.job = id ∧ Registered b g ∧ b.job.doc = d
  done : ∀ b ∈ s.jobs, b.done.Nodup ∧ (∀ g ∈ b.done, g ∈ c.guests) ∧ (b.pc = .launching ∨ b.pc = .waiting → b.done = [])
  lines : ∀ b ∈ s.jobs, (b.pc = .printing → b.lines.map Prod.fst = b.done.reverse) ∧
    (b.pc = .ended → (b.lines.map Prod.fst).Perm c.guests) ∧ (b.pc ≠ .printing → b.pc ≠ .ended → b.lines = [])

/-- How the r-th run got to its state: by a history of the signing protocol for the document, in which the messages satisfy `W`
and are for this run. -/
def Trace (c : Cfg K) (W : Message Dto → Prop) (r : Nat) (k : RunKey) (doc : Int) (u : Run Dto Obj (Data K)) : Prop :=
  ∃ (t0 : Int) (h : List (Prot.Ev Dto)), (∀ m ∈ msgs h, W m ∧ 0 ≤ m.op ∧ m.key = k) ∧
    exec (dssConf (c.y k.gidx r) c.H c.SH (env c r k.gidx (some doc)) k.runId k.gidx c.members)
      (newRun Dto Obj (newData (c.gen k.gidx r)) t0) h = .ok u

/-- What is known of the runs and their outputs. -/
structure UInv (c : Cfg K) (W : Message Dto → Prop) (s : Sys K) : Prop where
  len : s.runs.length = s.node.reg.objs.length
  term : ∀ (r : Nat) (o : Registry.Obj) (u : Run Dto Obj (Data K)), s.node.reg.objs[r]? = some o → s.runs[r]? = some u →
    o.terminated = true → u.phase = .done
  trace : ∀ (r : Nat) (o : Registry.Obj) (u : Run Dto Obj (Data K)), s.node.reg.objs[r]? = some o → s.runs[r]? = some u →
    ∀ b ∈ s.jobs, jobId b.job = o.key.runId → Trace c W r o.key b.job.doc u
  out : ∀ (r : Nat) (o : Registry.Obj) (u : Run Dto Obj (Data K)), s.node.reg.objs[r]? = some o → s.runs[r]? = some u →
    ∀ b ∈ s.jobs, jobId b.job = o.key.runId → ¬ Printed b o.key.gidx →
      waiting s.outs 1 o.key.gidx o.key.runId = (lastSig u.user.out).map .sig
  outs : ∀ g id, waiting s.outs 1 g id ≠ none →
    (∃ (r : Nat) (o : Registry.Obj), s.node.reg.objs[r]? = some o ∧ o.key = ⟨1, g, id⟩) ∧ ∀ b ∈ s.jobs, jobId b.job = id → ¬ Printed b g
  line : ∀ b ∈ s.jobs, ∀ p ∈ b.lines, ∃ (r : Nat) (o : Registry.Obj) (u : Run Dto Obj (Data K)), s.node.reg.objs[r]? = some o ∧
    o.key = ⟨1, p.1, jobId b.job⟩ ∧ s.runs[r]? = some u ∧ u.phase = .done ∧ p.2 = lastSig u.user.out

/-- What the consumers have found. -/
def FInv (s : Sys K) : Prop :=
  ∀ q m, s.node.cons q = .found m → ∃ o, s.node.reg.objs[s.found q]? = some o ∧ o.key = m.key

/-- The runs of a job that no longer waits have ended. -/
theorem finished {s : Sys K} (hn : NInv W s.node) (hj : JInv c s) (hu : UInv c W s) {b : JobSt} (hb : b ∈ s.jobs)
    (hp : past b.pc = true) (hw : b.pc ≠ .waiting) {g : Int} (hg : g ∈ c.guests) :
    ∃ (r : Nat) (o : Registry.Obj) (u : Run Dto Obj (Data K)), s.node.reg.objs[r]? = some o ∧ o.key = ⟨1, g, jobId b.job⟩ ∧
      s.runs[r]? = some u ∧ u.phase = .done := by
  obtain ⟨j, v, hv, hk, _, h6⟩ := hj.mine b hb hp g hg
  obtain ⟨r, o, ho, hok, ht⟩ := hn.orig.term hv (h6 hw)
  have hlt : r < s.runs.length := by rw [hu.len]; exact lt_of_some ho
  exact ⟨r, o, s.runs[r], ho, hok.trans hk, List.getElem?_eq_getElem hlt, hu.term r o _ ho (List.getElem?_eq_getElem hlt) ht⟩

/-! Events of the node. -/

theorem node_ok {s s' : Sys K} {e : Node.Ev Dto} (h : nodeEvent c s e = .ok s') : ∃ n, Node.step s.node e = .ok n ∧
    s' = { s with
      node := n
      runs := s.runs ++ (n.reg.objs.drop s.runs.length).map fun o =>
        newRun Dto Obj (newData (c.gen o.key.gidx s.runs.length)) n.fw.now } := by
  rw [nodeEvent, Outcome.bind_eq_ok] at h
  obtain ⟨n, h1, h2⟩ := h
  exact ⟨n, h1, (Outcome.ok.inj h2).symm⟩

theorem jinv_node {s s' : Sys K} {e : Node.Ev Dto} (hj : JInv c s) (hl : ∀ k a, e ≠ .launch k a) (hs : nodeEvent c s e = .ok s') :
    JInv c s' := by
  obtain ⟨n, h1, rfl⟩ := node_ok hs
  have hk : n.runners.map Node.Runner.key = s.node.runners.map Node.Runner.key := by
    rw [Node.keys_step h1]
    cases e with
    | launch k a => exact absurd rfl (hl k a)
    | _ => simp [Spec.Node.launched]
  refine ⟨fun u hu => ?_, fun b hb hp g hg => ?_, hj.docs, hj.done, hj.lines⟩
  · have : u.key ∈ s.node.runners.map Node.Runner.key := by rw [← hk]; exact List.mem_map_of_mem hu
    obtain ⟨v, hv, e⟩ := List.mem_map.1 this
    rw [← e]
    exact hj.owner v hv
  · obtain ⟨j, u, hu, hk, h3, h4⟩ := hj.mine b hb hp g hg
    obtain ⟨u', hu', hk', hp'⟩ := (Node.aside_step h1).1 j u hu
    exact ⟨j, u', hu', hk'.trans hk, h3, fun x => Nat.le_trans (h4 x) hp'⟩

/-- The runs after an event of the node. -/
theorem runs_node {s : Sys K} {n : Node.Sys Dto} (hlen : s.runs.length = s.node.reg.objs.length)
    (hl : s.node.reg.objs.length ≤ n.reg.objs.length ∧ n.reg.objs.length ≤ s.node.reg.objs.length + 1)
    {rs : List (Run Dto Obj (Data K))} (hrs : rs = s.runs ++ (n.reg.objs.drop s.runs.length).map fun o =>
        newRun Dto Obj (newData (c.gen o.key.gidx s.runs.length)) n.fw.now) :
    rs.length = n.reg.objs.length ∧ (∀ (r : Nat) u, s.runs[r]? = some u → rs[r]? = some u) ∧
    ∀ (r : Nat) u, rs[r]? = some u → s.runs[r]? = some u ∨ (r = s.runs.length ∧ ∃ o t0, n.reg.objs[r]? = some o ∧
      u = newRun Dto Obj (newData (c.gen o.key.gidx r)) t0) := by
  subst hrs
  refine ⟨by rw [List.length_append, List.length_map, List.length_drop]; omega, fun r u hu => ?_, fun r u hu => ?_⟩
  · rw [List.getElem?_append_left (lt_of_some hu)]; exact hu
  · by_cases hr : r < s.runs.length
    · rw [List.getElem?_append_left hr] at hu; exact .inl hu
    · rw [List.getElem?_append_right (by omega), List.getElem?_map, List.getElem?_drop] at hu
      right
      have hle : r < n.reg.objs.length := by
        by_contra hc
        rw [List.getElem?_eq_none (by omega)] at hu
        cases hu
      have hre : r = s.runs.length := by omega
      subst hre
      rw [Nat.sub_self, Nat.add_zero] at hu
      cases ho : n.reg.objs[s.runs.length]? with
      | none => rw [ho] at hu; cases hu
      | some o =>
        rw [ho] at hu
        exact ⟨rfl, o, n.fw.now, rfl, (Option.some.inj hu).symm⟩

theorem uinv_node {s s' : Sys K} {e : Node.Ev Dto} (hu : UInv c W s)
    (hf : ∀ r, e = .finish r → ∀ u, s.runs[r]? = some u → u.phase = .done) (hs : nodeEvent c s e = .ok s')
    (hn : NInv W s'.node) : UInv c W s' := by
  obtain ⟨n, h1, e1⟩ := node_ok hs
  have f := objs_step h1
  obtain ⟨l1, l2, l3⟩ := runs_node (c := c) hu.len f.len rfl
  subst e1
  have fresh : ∀ (o : Registry.Obj), n.reg.objs[s.runs.length]? = some o → waiting s.outs 1 o.key.gidx o.key.runId = none := by
    intro o ho
    by_contra hc
    obtain ⟨⟨r0, o0, h2, h3⟩, _⟩ := hu.outs _ _ hc
    obtain ⟨o1, h4, h5⟩ := f.fwd r0 o0 h2
    have hpc := hn.objPc ho
    have e : r0 = s.runs.length := hn.one h4 ho (by rw [h5, h3, ← hpc])
    have := lt_of_some h2
    rw [hu.len] at e
    omega
  have same : ∀ (r : Nat) (o : Registry.Obj) (u : Run Dto Obj (Data K)), n.reg.objs[r]? = some o → s.runs[r]? = some u →
      ∃ o0, s.node.reg.objs[r]? = some o0 ∧ o.key = o0.key ∧ (o.terminated = true → o0.terminated = true ∨ e = .finish r) := by
    intro r o u ho hr
    rcases f.back r o ho with h | ⟨h, _⟩
    · exact h
    · have := lt_of_some hr
      rw [hu.len] at this
      omega
  refine ⟨l1, ?_, ?_, ?_, ?_, ?_⟩
  · intro r o u ho hr ht
    rcases l3 r u hr with hr | ⟨rfl, o', t0, ho', rfl⟩
    · obtain ⟨o0, h2, h3, h4⟩ := same r o u ho hr
      rcases h4 ht with h4 | h4
      · exact hu.term r o0 u h2 hr h4
      · exact hf r h4 u hr
    · rcases f.back _ o ho with ⟨o0, h2, _⟩ | ⟨_, h2⟩
      · have := lt_of_some h2
        rw [hu.len] at this
        omega
      · rw [h2] at ht; cases ht
  · intro r o u ho hr b hb hid
    rcases l3 r u hr with hr | ⟨rfl, o', t0, ho', rfl⟩
    · obtain ⟨o0, h2, h3, _⟩ := same r o u ho hr
      rw [h3] at hid ⊢
      exact hu.trace r o0 u h2 hr b hb hid
    · have := Option.some.inj (ho.symm.trans ho')
      subst this
      exact ⟨t0, [], (by intro m hm; cases hm), rfl⟩
  · intro r o u ho hr b hb hid hp
    rcases l3 r u hr with hr | ⟨rfl, o', t0, ho', rfl⟩
    · obtain ⟨o0, h2, h3, _⟩ := same r o u ho hr
      rw [h3] at hid hp ⊢
      exact hu.out r o0 u h2 hr b hb hid hp
    · exact fresh o ho
  · intro g id hne
    obtain ⟨⟨r0, o0, h2, h3⟩, h4⟩ := hu.outs g id hne
    obtain ⟨o1, h5, h6⟩ := f.fwd r0 o0 h2
    exact ⟨⟨r0, o1, h5, h6.trans h3⟩, h4⟩
  · intro b hb p hp
    obtain ⟨r, o, u, h2, h3, h4, h5, h6⟩ := hu.line b hb p hp
    obtain ⟨o1, h7, h8⟩ := f.fwd r o h2
    exact ⟨r, o1, u, h7, h8.trans h3, l2 r u h4, h5, h6⟩

/-! Events of runs. -/

theorem msgs_append (h g : List (Prot.Ev Dto)) : msgs (h ++ g) = msgs h ++ msgs g := by
  induction h with
  | nil => rfl
  | cons x h ih => cases x <;> simp [msgs, ih]

/-- What calls of `push_output` leave under the protocol code of signing. -/
def foldSig (a : Option Output) (vs : List Output) : Option Output :=
  vs.foldl (fun a v => match v with | .sig s => some (.sig s) | .key _ _ => a) a

theorem foldSig_append (l vs : List Output) : foldSig ((lastSig l).map .sig) vs = (lastSig (l ++ vs)).map .sig := by
  rw [lastSig, lastSig, List.foldl_append]
  generalize l.foldl (fun a v => match v with | .sig s => some s | .key _ _ => a) (none : Option Schnorr.Sig) = a
  induction vs generalizing a with
  | nil => rfl
  | cons v vs ih =>
    rw [foldSig, List.foldl_cons, List.foldl_cons]
    cases v with
    | key s q => exact ih a
    | sig s => exact ih (some s)

theorem pushAll_waiting {o o' : Outputs Output} {k : RunKey} {vs : List Output} (h : pushAll o k vs = .ok o') (g : Int) (id : String) :
    waiting o' 1 g id = if k.gidx = g ∧ k.runId = id then foldSig (waiting o 1 g id) vs else waiting o 1 g id := by
  induction vs generalizing o with
  | nil =>
    rw [pushAll] at h
    rw [← Outcome.ok.inj h]
    by_cases e : k.gidx = g ∧ k.runId = id
    · rw [if_pos e]; rfl
    · rw [if_neg e]
  | cons v vs ih =>
    rw [pushAll, Outcome.bind_eq_ok] at h
    obtain ⟨o1, h1, h2⟩ := h
    rw [ih h2, push_waiting h1 1 g id]
    by_cases e : k.gidx = g ∧ k.runId = id
    · rw [if_pos e, if_pos e]
      cases v with
      | key s q => rw [if_neg (by rw [outputCode]; rintro ⟨h, _⟩; cases h)]; rfl
      | sig s => rw [if_pos ⟨rfl, e⟩]; rfl
    · rw [if_neg e, if_neg e, if_neg fun h => e h.2]

theorem run_ok {s s' : Sys K} {r : Nat} {e : Prot.Ev Dto} (h : runEvent c s r e = .ok s') :
    ∃ u o u' outs, s.runs[r]? = some u ∧ s.node.reg.objs[r]? = some o ∧
      exec (conf c r o.key (docFor s.docs o.key.gidx o.key.runId)) u [.tick s.node.fw.now, e] = .ok u' ∧
      pushAll s.outs o.key (u'.user.out.drop u.user.out.length) = .ok outs ∧ s' = { s with runs := s.runs.set r u', outs := outs } := by
  rw [runEvent] at h
  cases hu : s.runs[r]? with
  | none => rw [hu] at h; cases h
  | some u =>
    cases ho : s.node.reg.objs[r]? with
    | none => rw [hu, ho] at h; cases h
    | some o =>
      rw [hu, ho] at h
      dsimp only at h
      rw [Outcome.bind_eq_ok] at h
      obtain ⟨u', h1, h⟩ := h
      rw [Outcome.bind_eq_ok] at h
      obtain ⟨outs, h2, h⟩ := h
      exact ⟨u, o, u', outs, rfl, rfl, h1, h2, (Outcome.ok.inj h).symm⟩

theorem conf_dss {r : Nat} {k : RunKey} (hk : k.pc = 1) (doc : Option Int) :
    conf c r k doc = dssConf (c.y k.gidx r) c.H c.SH (env c r k.gidx doc) k.runId k.gidx c.members := by
  rw [conf, if_neg (by rw [hk]; decide)]

/-- The thread of a finished run does nothing. -/
theorem thread_done {cf : Conf Dto Obj (Data K)} {u u' : Run Dto Obj (Data K)} {t : Int} (hd : u.phase = .done) :
    exec cf u [.tick t, .thread] ≠ .ok u' := by
  intro h
  rw [exec, Outcome.bind_eq_ok] at h
  obtain ⟨u1, h1, h⟩ := h
  rw [Prot.step] at h1
  by_cases ht : u.now ≤ t
  · rw [if_pos ht] at h1
    rw [← Outcome.ok.inj h1, exec, Prot.step, thread, hd] at h
    cases h
  · rw [if_neg ht] at h1; cases h1

/-- Every run belongs to a job. -/
theorem job_of {s : Sys K} (hn : NInv W s.node) (hj : JInv c s) {r : Nat} {o : Registry.Obj} (ho : s.node.reg.objs[r]? = some o) :
    ∃ b ∈ s.jobs, past b.pc = true ∧ o.key.gidx ∈ c.guests ∧ o.key = ⟨1, o.key.gidx, jobId b.job⟩ := by
  obtain ⟨v, hv, _, hvk⟩ := hn.orig.obj r o ho
  obtain ⟨b, hb, hp, g, hg, hk⟩ := hj.owner v hv
  rw [hvk] at hk
  exact ⟨b, hb, hp, by rw [hk]; exact hg, by rw [hk]⟩

/-- While a run has not ended, its job waits. -/
theorem job_waits {s : Sys K} (hn : NInv W s.node) (hj : JInv c s) (hu : UInv c W s) {b : JobSt} (hb : b ∈ s.jobs) (hp : past b.pc = true)
    {r : Nat} {o : Registry.Obj} {u : Run Dto Obj (Data K)} (ho : s.node.reg.objs[r]? = some o) (hr : s.runs[r]? = some u)
    (hg : o.key.gidx ∈ c.guests) (hk : o.key = ⟨1, o.key.gidx, jobId b.job⟩) (hd : u.phase ≠ .done) : b.pc = .waiting := by
  by_contra hw
  obtain ⟨r1, o1, u1, h1, h2, h3, h4⟩ := finished hn hj hu hb hp hw hg
  have e : r = r1 := hn.one ho h1 (h2.trans hk.symm)
  subst e
  rw [hr] at h3
  have := Option.some.inj h3
  subst this
  exact hd h4

/-- What a section of a run does. -/
structure Section (c : Cfg K) (W : Message Dto → Prop) (s : Sys K) (r : Nat) (e : Prot.Ev Dto) (b : JobSt) (o : Registry.Obj)
    (u u' : Run Dto Obj (Data K)) : Prop where
  job : b ∈ s.jobs
  past : past b.pc = true
  guest : o.key.gidx ∈ c.guests
  key : o.key = ⟨1, o.key.gidx, jobId b.job⟩
  run : exec (dssConf (c.y o.key.gidx r) c.H c.SH (env c r o.key.gidx (some b.job.doc)) o.key.runId o.key.gidx c.members) u
    [.tick s.node.fw.now, e] = .ok u'

theorem section_of {s : Sys K} (hn : NInv W s.node) (hj : JInv c s) (hu : UInv c W s) {r : Nat} {e : Prot.Ev Dto}
    (he : e = .thread ∨ ∃ m, e = .msg m ∧ W m ∧ 0 ≤ m.op ∧ ∀ o, s.node.reg.objs[r]? = some o → m.key = o.key) {o : Registry.Obj} {u u' : Run Dto Obj (Data K)}
    (ho : s.node.reg.objs[r]? = some o) (hr : s.runs[r]? = some u)
    (h : exec (conf c r o.key (docFor s.docs o.key.gidx o.key.runId)) u [.tick s.node.fw.now, e] = .ok u') :
    ∃ b, Section c W s r e b o u u' := by
  obtain ⟨b, hb, hp, hg, hk⟩ := job_of hn hj ho
  refine ⟨b, hb, hp, hg, hk, ?_⟩
  rw [conf_dss (by rw [hk])] at h
  rcases he with rfl | ⟨m, rfl, _⟩
  · have hd : u.phase ≠ .done := fun hd => thread_done hd h
    have hw := job_waits hn hj hu hb hp ho hr hg hk hd
    have : docFor s.docs o.key.gidx o.key.runId = some b.job.doc :=
      (hj.docs _ _ _).2 ⟨hg, b, hb, (by rw [hk]), .inr (.inr (.inl hw)), rfl⟩
    rw [this] at h
    exact h
  · rw [exec_msg_congr (dss_noSteps (env c r o.key.gidx (docFor s.docs o.key.gidx o.key.runId)) (env c r o.key.gidx (some b.job.doc)) _ _ _)] at h
    exact h

theorem jinv_same {s s' : Sys K} (hj : JInv c s) (h1 : s'.node = s.node) (h2 : s'.jobs = s.jobs) (h3 : s'.docs = s.docs) : JInv c s' := by
  refine ⟨?_, ?_, ?_, ?_, ?_⟩
  · rw [h1, h2]; exact hj.owner
  · rw [h1, h2]; exact hj.mine
  · rw [h3, h2]; exact hj.docs
  · rw [h2]; exact hj.done
  · rw [h2]; exact hj.lines

theorem uinv_run {s s' : Sys K} (hn : NInv W s.node) (hj : JInv c s) (hu : UInv c W s) (hd : Distinct s.jobs) {r : Nat} {e : Prot.Ev Dto}
    (he : e = .thread ∨ ∃ m, e = .msg m ∧ W m ∧ 0 ≤ m.op ∧ ∀ o, s.node.reg.objs[r]? = some o → m.key = o.key) (hs : runEvent c s r e = .ok s') :
    UInv c W s' ∧ s'.node = s.node ∧ s'.jobs = s.jobs ∧ s'.docs = s.docs ∧ s'.found = s.found := by
  obtain ⟨u, o, u', outs, hr, ho, hx, hpush, rfl⟩ := run_ok hs
  obtain ⟨b, sec⟩ := section_of hn hj hu he ho hr hx
  refine ⟨?_, rfl, rfl, rfl, rfl⟩
  have hpre : u.user.out <+: u'.user.out := dss_thread_out sec.run
  obtain ⟨add, hadd⟩ := hpre
  have hdrop : u'.user.out.drop u.user.out.length = add := by rw [← hadd]; simp
  rw [hdrop] at hpush
  have hend : u.phase = .done → u'.phase = .done ∧ add = [] := by
    intro hph
    rcases he with rfl | ⟨m, rfl, _⟩
    · exact absurd sec.run (thread_done hph)
    · obtain ⟨t0, h, _, htr⟩ := hu.trace r o u ho hr b sec.job (by rw [sec.key])
      have hout := dss_msg_out sec.run
      refine ⟨?_, by rw [hout] at hadd; simpa using hadd⟩
      have hrun := sec.run
      rw [exec, Outcome.bind_eq_ok] at hrun
      obtain ⟨u1, e1, hrun⟩ := hrun
      rw [exec, Outcome.bind_eq_ok] at hrun
      obtain ⟨u2, e2, hrun⟩ := hrun
      rw [exec] at hrun
      have hinv : Inv _ u1 := (agree_exec (h := h ++ [.tick s.node.fw.now]) (u := newData (c.gen o.key.gidx r)) (t0 := t0)
        (by rw [exec_append, htr, Outcome.bind_ok, exec, e1]; rfl)).inv
      rw [Prot.step] at e2
      have h1 : u1.phase = u.phase := by
        rw [Prot.step] at e1
        by_cases ht : u.now ≤ s.node.fw.now
        · rw [if_pos ht] at e1; rw [← Outcome.ok.inj e1]
        · rw [if_neg ht] at e1; cases e1
      rw [← Outcome.ok.inj hrun, (receive_ok hinv e2).2.1, h1, hph]
  have old : ∀ (r1 : Nat) (u1 : Run Dto Obj (Data K)), (s.runs.set r u')[r1]? = some u1 → (r1 = r ∧ u1 = u') ∨ (r1 ≠ r ∧ s.runs[r1]? = some u1) :=
    fun r1 u1 h => Firewall.getElem?_set_some hr h
  have new : ∀ {r1 : Nat} {u1 : Run Dto Obj (Data K)}, r1 ≠ r → s.runs[r1]? = some u1 → (s.runs.set r u')[r1]? = some u1 :=
    fun hne h => by rw [Firewall.getElem?_set_other _ hne]; exact h
  have hmine : waiting s.outs 1 o.key.gidx o.key.runId = (lastSig u.user.out).map .sig ∨ add = [] := by
    by_cases hph : u.phase = .done
    · exact .inr (hend hph).2
    · have hw := job_waits hn hj hu sec.job sec.past ho hr sec.guest sec.key hph
      refine .inl (hu.out r o u ho hr b sec.job (by rw [sec.key]) ?_)
      rintro (⟨h1, _⟩ | h1) <;> rw [hw] at h1 <;> cases h1
  have hwait := pushAll_waiting hpush
  refine ⟨?_, ?_, ?_, ?_, ?_, ?_⟩
  · rw [List.length_set]; exact hu.len
  · intro r1 o1 u1 ho1 hr1 ht
    rcases old r1 u1 hr1 with ⟨rfl, rfl⟩ | ⟨_, hr1⟩
    · rw [ho] at ho1
      have := Option.some.inj ho1
      subst this
      exact (hend (hu.term r1 o u ho hr ht)).1
    · exact hu.term r1 o1 u1 ho1 hr1 ht
  · intro r1 o1 u1 ho1 hr1 b1 hb1 hid
    rcases old r1 u1 hr1 with ⟨rfl, rfl⟩ | ⟨_, hr1⟩
    · rw [ho] at ho1
      have := Option.some.inj ho1
      subst this
      have hbb : b1 = b := hd.eq hb1 sec.job (by rw [hid, sec.key])
      subst hbb
      obtain ⟨t0, h, hm, htr⟩ := hu.trace r1 o u ho hr b1 hb1 hid
      refine ⟨t0, h ++ [.tick s.node.fw.now, e], ?_, by rw [exec_append, htr, Outcome.bind_ok]; exact sec.run⟩
      intro m hx
      rw [msgs_append] at hx
      rcases List.mem_append.1 hx with hx | hx
      · exact hm m hx
      · rcases he with rfl | ⟨m', rfl, hW⟩
        · cases hx
        · have : m = m' := by simpa [msgs] using hx
          subst this
          exact ⟨hW.1, hW.2.1, hW.2.2 o ho⟩
    · exact hu.trace r1 o1 u1 ho1 hr1 b1 hb1 hid
  · intro r1 o1 u1 ho1 hr1 b1 hb1 hid hnp
    dsimp only
    rw [hwait]
    rcases old r1 u1 hr1 with ⟨rfl, rfl⟩ | ⟨hne, hr1⟩
    · rw [ho] at ho1
      have := Option.some.inj ho1
      subst this
      rw [if_pos ⟨rfl, rfl⟩, hu.out r1 o u ho hr b1 hb1 hid hnp, foldSig_append, hadd]
    · rw [if_neg]
      · exact hu.out r1 o1 u1 ho1 hr1 b1 hb1 hid hnp
      · rintro ⟨e1, e2⟩
        refine hne (hn.one ho ho1 ?_).symm
        have p1 := hn.objPc ho
        have p2 := hn.objPc ho1
        cases hk : o.key
        cases hk1 : o1.key
        rw [hk] at e1 e2 p1
        rw [hk1] at e1 e2 p2
        dsimp only at e1 e2 p1 p2
        rw [e1, e2, p1, p2]
  · intro g id hne
    dsimp only at hne
    rw [hwait] at hne
    by_cases hk : o.key.gidx = g ∧ o.key.runId = id
    · obtain ⟨rfl, rfl⟩ := hk
      refine ⟨⟨r, o, ho, by rw [← hn.objPc ho]⟩, fun b1 hb1 hid => ?_⟩
      have hbb : b1 = b := hd.eq hb1 sec.job (by rw [hid, sec.key])
      subst hbb
      by_cases hph : u.phase = .done
      · rw [if_pos ⟨rfl, rfl⟩, (hend hph).2] at hne
        exact (hu.outs _ _ hne).2 b1 hb1 hid
      · have hw := job_waits hn hj hu sec.job sec.past ho hr sec.guest sec.key hph
        rintro (⟨h1, _⟩ | h1) <;> rw [hw] at h1 <;> cases h1
    · rw [if_neg hk] at hne
      exact hu.outs g id hne
  · intro b1 hb1 p hp
    obtain ⟨r1, o1, u1, h1, h2, h3, h4, h5⟩ := hu.line b1 hb1 p hp
    by_cases hne : r1 = r
    · subst hne
      rw [hr] at h3
      have := Option.some.inj h3
      subst this
      obtain ⟨e1, e2⟩ := hend h4
      refine ⟨r1, o1, u', h1, h2, Firewall.getElem?_set_self _ hr, e1, ?_⟩
      rw [h5, ← hadd, e2, List.append_nil]
    · exact ⟨r1, o1, u1, h1, h2, new hne h3, h4, h5⟩

/-! The whole. -/

/-- What holds at every moment. -/
structure PInv (c : Cfg K) (W : Message Dto → Prop) (s : Sys K) : Prop where
  n : NInv W s.node
  j : JInv c s
  u : UInv c W s
  f : FInv s

/-- The requests of the jobs stay as they are. -/
def reqs (s : Sys K) : List Job := s.jobs.map JobSt.job

theorem finv_node {s s' : Sys K} {e : Node.Ev Dto} (hf : FInv s) (hc : ∀ q m, s'.node.cons q = .found m → s.node.cons q = .found m)
    (hs : nodeEvent c s e = .ok s') : FInv s' := by
  obtain ⟨n, h1, rfl⟩ := node_ok hs
  intro q m hq
  obtain ⟨o, h2, h3⟩ := hf q m (hc q m hq)
  obtain ⟨o', h4, h5⟩ := (objs_step h1).fwd _ o h2
  exact ⟨o', h4, h5.trans h3⟩

/-- An event of the node that starts no runner and is not of a consumer. -/
theorem pinv_node {s s' : Sys K} {e : Node.Ev Dto} (h : PInv c W s) (hw : ∀ m, e = .net m → W m) (hl : ∀ k a, e ≠ .launch k a)
    (hc : ∀ q, e ≠ .cons q) (hf : ∀ r, e = .finish r → ∀ u, s.runs[r]? = some u → u.phase = .done)
    (hs : nodeEvent c s e = .ok s') : PInv c W s' ∧ s'.jobs = s.jobs := by
  obtain ⟨n, h1, e1⟩ := node_ok hs
  have hn : NInv W s'.node := by subst e1; exact ninv_step h.n hw (fun k a he => absurd he (hl k a)) h1
  refine ⟨⟨hn, jinv_node h.j hl hs, uinv_node h.u hf hs hn, finv_node h.f (fun q m hq => ?_) hs⟩, by subst e1; rfl⟩
  have : s'.node.cons q = s.node.cons q := by subst e1; exact (Node.aside_step h1).2 q (hc q)
  rw [← this]; exact hq

theorem pinv_thread {s s' : Sys K} {r : Nat} (h : PInv c W s) (hd : Distinct s.jobs) (hs : threadStep c s r = .ok s') :
    PInv c W s' ∧ s'.jobs = s.jobs := by
  rw [threadStep] at hs
  cases ho : s.node.reg.objs[r]? with
  | none => rw [ho] at hs; cases hs
  | some o =>
    rw [ho] at hs
    dsimp only at hs
    by_cases hst : o.started = 0
    · rw [if_pos hst] at hs; cases hs
    · rw [if_neg hst, Outcome.bind_eq_ok] at hs
      obtain ⟨s1, h1, h2⟩ := hs
      obtain ⟨hu, e1, e2, e3, e4⟩ := uinv_run h.n h.j h.u hd (.inl rfl) h1
      have h' : PInv c W s1 := ⟨by rw [e1]; exact h.n, jinv_same h.j e1 e2 e3, hu, by intro q m; rw [e1, e4]; exact h.f q m⟩
      by_cases hp : phaseOf s1 r = some .done
      · rw [if_pos hp] at h2
        have := pinv_node h' (fun m he => by cases he) (fun k a he => by cases he) (fun q he => by cases he) (fun r' he u hr => ?_) h2
        · exact ⟨this.1, this.2.trans e2⟩
        · cases he
          rw [phaseOf, hr] at hp
          exact Option.some.inj hp
      · rw [if_neg hp] at h2
        rw [← Outcome.ok.inj h2]
        exact ⟨h', e2⟩

/-- An event of a consumer, as far as what it has found is not concerned. -/
theorem pinv_cons {s s' : Sys K} {q : Int × Int} (h : PInv c W s) (hs : nodeEvent c s (.cons q) = .ok s') :
    NInv W s'.node ∧ JInv c s' ∧ UInv c W s' ∧ s'.jobs = s.jobs ∧ s'.found = s.found ∧
    (∀ q', q' ≠ q → s'.node.cons q' = s.node.cons q') ∧ (∀ q' m, q' ≠ q → s'.node.cons q' = .found m →
      ∃ o, s'.node.reg.objs[s'.found q']? = some o ∧ o.key = m.key) := by
  obtain ⟨n, h1, e1⟩ := node_ok hs
  have hn : NInv W s'.node := by subst e1; exact ninv_step h.n (fun m he => by cases he) (fun k a he => by cases he) h1
  have hc : ∀ q', q' ≠ q → s'.node.cons q' = s.node.cons q' := by
    intro q' hq
    subst e1
    exact (Node.aside_step h1).2 q' (fun he => hq (by cases he; rfl))
  refine ⟨hn, jinv_node h.j (fun k a he => by cases he) hs, uinv_node h.u (fun r he => by cases he) hs hn, by subst e1; rfl,
    by subst e1; rfl, hc, ?_⟩
  intro q' m hq hm
  rw [hc q' hq] at hm
  obtain ⟨o, h2, h3⟩ := h.f q' m hm
  subst e1
  obtain ⟨o', h4, h5⟩ := (objs_step h1).fwd _ o h2
  exact ⟨o', h4, h5.trans h3⟩

theorem ensure_ok {n n' : Registry.Reg} {k : RunKey} (h : Registry.step n (.ensure k) = .ok n') : ∃ r, n'.runs.get? k = some r := by
  rw [Registry.step] at h
  rw [← Outcome.ok.inj h, Registry.ensure]
  cases hr : n.runs.get? k with
  | some r => exact ⟨r, hr⟩
  | none => exact ⟨n.objs.length, by dsimp only; rw [GoMap.get?_set, if_pos rfl]⟩

theorem pinv_consStep {s s' : Sys K} {q : Int × Int} (h : PInv c W s) (hd : Distinct s.jobs) (hs : consStep c s q = .ok s') :
    PInv c W s' ∧ s'.jobs = s.jobs := by
  rw [consStep] at hs
  cases hq : s.node.cons q with
  | idle =>
    rw [hq] at hs
    dsimp only at hs
    obtain ⟨i1, i2, i3, i4, i5, i6, i7⟩ := pinv_cons h hs
    refine ⟨⟨i1, i2, i3, fun q' m hm => ?_⟩, i4⟩
    by_cases e : q' = q
    · subst e
      obtain ⟨n, h1, rfl⟩ := node_ok hs
      rw [Node.step, Node.consume, hq] at h1
      dsimp only at h1
      cases hqq : s.node.queues q' with
      | nil => rw [hqq] at h1; cases h1
      | cons x xs =>
        rw [hqq] at h1
        rw [← Outcome.ok.inj h1] at hm
        dsimp only at hm
        rw [Node.update, if_pos rfl] at hm
        cases hm
    · exact i7 q' m e hm
  | got x =>
    rw [hq] at hs
    dsimp only at hs
    rw [Outcome.bind_eq_ok] at hs
    obtain ⟨s1, h1, h2⟩ := hs
    obtain ⟨i1, i2, i3, i4, i5, i6, i7⟩ := pinv_cons h h1
    have e := Outcome.ok.inj h2
    subst e
    refine ⟨⟨i1, jinv_same i2 rfl rfl rfl, ⟨i3.1, i3.2, i3.3, i3.4, i3.5, i3.6⟩, fun q' m hm => ?_⟩, i4⟩
    dsimp only at hm ⊢
    by_cases e : q' = q
    · subst e
      rw [Node.update, if_pos rfl]
      obtain ⟨n, h3, rfl⟩ := node_ok h1
      dsimp only at hm i1 ⊢
      rw [Node.step, Node.consume, hq] at h3
      dsimp only at h3
      by_cases hneg : x.pc < 0
      · rw [if_pos hneg, Node.regEventAt] at h3
        by_cases hv : Firewall.keyValid s.node.fw ⟨-x.pc, x.rcpt, x.runId⟩ = true
        · rw [if_pos hv, Node.regEvent, Outcome.bind_eq_ok] at h3
          obtain ⟨r1, _, h3⟩ := h3
          rw [← Outcome.ok.inj h3] at hm
          dsimp only at hm
          rw [Node.update, if_pos rfl] at hm
          cases hm
        · rw [if_neg hv] at h3; cases h3
      · rw [if_neg hneg, Node.regEventAt] at h3
        by_cases hv : Firewall.keyValid s.node.fw x.key = true
        · rw [if_pos hv, Node.regEvent, Outcome.bind_eq_ok] at h3
          obtain ⟨r1, h4, h3⟩ := h3
          rw [← Outcome.ok.inj h3] at hm i1 ⊢
          dsimp only at hm i1 ⊢
          rw [Node.update, if_pos rfl] at hm
          cases hm
          obtain ⟨r, hr⟩ := ensure_ok h4
          rw [hr]
          exact i1.orig.runs.reg _ r hr
        · rw [if_neg hv] at h3; cases h3
    · rw [Node.update, if_neg e]
      exact i7 q' m e hm
  | found x =>
    rw [hq] at hs
    dsimp only at hs
    rw [Outcome.bind_eq_ok] at hs
    obtain ⟨s1, h1, h2⟩ := hs
    obtain ⟨hW, hr⟩ := h.n.carry.hold q x hq
    obtain ⟨o, ho, hk⟩ := h.f q x hq
    obtain ⟨hu, e1, e2, e3, e4⟩ := uinv_run h.n h.j h.u hd (.inr ⟨x, rfl, hW, hr.1, fun o' ho' => by
      rw [ho] at ho'; rw [← Option.some.inj ho', hk]⟩) h1
    have h' : PInv c W s1 := ⟨by rw [e1]; exact h.n, jinv_same h.j e1 e2 e3, hu, by intro q m; rw [e1, e4]; exact h.f q m⟩
    obtain ⟨i1, i2, i3, i4, i5, i6, i7⟩ := pinv_cons h' h2
    refine ⟨⟨i1, i2, i3, fun q' m hm => ?_⟩, i4.trans e2⟩
    by_cases e : q' = q
    · subst e
      obtain ⟨n, h3, rfl⟩ := node_ok h2
      rw [Node.step, Node.consume, e1, hq] at h3
      rw [← Outcome.ok.inj h3] at hm
      dsimp only at hm
      rw [Node.update, if_pos rfl] at hm
      cases hm
    · exact i7 q' m e hm

/-! Events of the jobs. -/

theorem distinct_set {jobs : List JobSt} {i : Nat} {b b1 : JobSt} (hb : jobs[i]? = some b) (hjob : b1.job = b.job) :
    (jobs.set i b1).map JobSt.job = jobs.map JobSt.job := by
  rw [List.map_set]
  refine List.ext_getElem? fun j => ?_
  rw [List.getElem?_set]
  by_cases e : i = j
  · subst e
    rw [if_pos rfl, List.length_map, if_pos (lt_of_some hb), List.getElem?_map, hb, hjob]
    rfl
  · rw [if_neg e]

/-- The document of a job is registered as its state says. -/
theorem doc_of {s : Sys K} (hj : JInv c s) (hd : Distinct s.jobs) {b : JobSt} (hb : b ∈ s.jobs) (g d : Int) :
    docFor s.docs g (jobId b.job) = some d ↔ g ∈ c.guests ∧ Registered b g ∧ b.job.doc = d := by
  rw [hj.docs]
  constructor
  · rintro ⟨hg, b', hb', hid, hr, rfl⟩
    have := hd.eq hb' hb hid
    subst this
    exact ⟨hg, hr, rfl⟩
  · rintro ⟨hg, hr, rfl⟩
    exact ⟨hg, b, hb, rfl, hr, rfl⟩

/-- One job goes on. -/
theorem jinv_job {s s' : Sys K} (hj : JInv c s) (hd : Distinct s.jobs) {i : Nat} {b b1 : JobSt} (hb : s.jobs[i]? = some b)
    (hjob : b1.job = b.job) (hjobs : s'.jobs = s.jobs.set i b1) (hpast : past b.pc = true → past b1.pc = true)
    (hown : ∀ u ∈ s'.node.runners, u ∈ s.node.runners ∨ (past b1.pc = true ∧ ∃ g ∈ c.guests, u.key = ⟨1, g, jobId b.job⟩))
    (hrun : ∀ (j : Nat) (u : Node.Runner), s.node.runners[j]? = some u → s'.node.runners[j]? = some u)
    (hmine : past b1.pc = true → ∀ g ∈ c.guests, ∃ (j : Nat) (u : Node.Runner), s'.node.runners[j]? = some u ∧
      u.key = ⟨1, g, jobId b.job⟩ ∧ (b1.pc = .waiting → j ∈ b1.runners) ∧ (b1.pc ≠ .waiting → 6 ≤ u.pos))
    (hd1 : ∀ g d, docFor s'.docs g (jobId b.job) = some d ↔ g ∈ c.guests ∧ Registered b1 g ∧ b.job.doc = d)
    (hd2 : ∀ g id, id ≠ jobId b.job → docFor s'.docs g id = docFor s.docs g id)
    (hdone : b1.done.Nodup ∧ (∀ g ∈ b1.done, g ∈ c.guests) ∧ (b1.pc = .launching ∨ b1.pc = .waiting → b1.done = []))
    (hlines : (b1.pc = .printing → b1.lines.map Prod.fst = b1.done.reverse) ∧
      (b1.pc = .ended → (b1.lines.map Prod.fst).Perm c.guests) ∧ (b1.pc ≠ .printing → b1.pc ≠ .ended → b1.lines = [])) :
    JInv c s' := by
  have hm : ∀ b', b' ∈ s'.jobs ↔ b' = b1 ∨ (b' ∈ s.jobs ∧ jobId b'.job ≠ jobId b.job) := by
    rw [hjobs]; exact mem_set hd hb
  have hbm := List.mem_of_getElem? hb
  refine ⟨fun u hu => ?_, fun b' hb' hp g hg => ?_, fun g id d => ?_, fun b' hb' => ?_, fun b' hb' => ?_⟩
  · rcases hown u hu with hu | ⟨hp, g, hg, hk⟩
    · obtain ⟨b', hb', hp, g, hg, hk⟩ := hj.owner u hu
      by_cases hid : jobId b'.job = jobId b.job
      · have := hd.eq hb' hbm hid
        subst this
        exact ⟨b1, (hm b1).2 (.inl rfl), hpast hp, g, hg, by rw [hk, hjob]⟩
      · exact ⟨b', (hm b').2 (.inr ⟨hb', hid⟩), hp, g, hg, hk⟩
    · exact ⟨b1, (hm b1).2 (.inl rfl), hp, g, hg, by rw [hk, hjob]⟩
  · rcases (hm b').1 hb' with rfl | ⟨hb', _⟩
    · rw [hjob]; exact hmine hp g hg
    · obtain ⟨j, u, h1, h2, h3, h4⟩ := hj.mine b' hb' hp g hg
      exact ⟨j, u, hrun j u h1, h2, h3, h4⟩
  · by_cases hid : id = jobId b.job
    · subst hid
      rw [hd1]
      constructor
      · rintro ⟨hg, hr, rfl⟩
        exact ⟨hg, b1, (hm b1).2 (.inl rfl), by rw [hjob], hr, by rw [hjob]⟩
      · rintro ⟨hg, b', hb', hid', hr, rfl⟩
        rcases (hm b').1 hb' with rfl | ⟨_, hne⟩
        · exact ⟨hg, hr, by rw [hjob]⟩
        · exact absurd hid' hne
    · rw [hd2 g id hid, hj.docs]
      constructor
      · rintro ⟨hg, b', hb', hid', hr, hdoc⟩
        exact ⟨hg, b', (hm b').2 (.inr ⟨hb', by rw [hid']; exact hid⟩), hid', hr, hdoc⟩
      · rintro ⟨hg, b', hb', hid', hr, hdoc⟩
        rcases (hm b').1 hb' with rfl | ⟨hb', _⟩
        · rw [hjob] at hid'
          exact absurd hid'.symm hid
        · exact ⟨hg, b', hb', hid', hr, hdoc⟩
  · rcases (hm b').1 hb' with rfl | ⟨hb', _⟩
    · exact hdone
    · exact hj.done b' hb'
  · rcases (hm b').1 hb' with rfl | ⟨hb', _⟩
    · exact hlines
    · exact hj.lines b' hb'

/-- One job goes on without printing. -/
theorem uinv_job {s s' : Sys K} (hn : NInv W s.node) (hj : JInv c s) (hu : UInv c W s) (hd : Distinct s.jobs) {i : Nat} {b b1 : JobSt}
    (hb : s.jobs[i]? = some b) (hjob : b1.job = b.job) (hjobs : s'.jobs = s.jobs.set i b1) (hlines : b1.lines = b.lines)
    (hreg : s'.node.reg = s.node.reg) (hruns : s'.runs = s.runs) (houts : s'.outs = s.outs)
    (hp1 : ∀ g, Printed b g → Printed b1 g) (hp2 : ∀ g ∈ c.guests, Printed b1 g → Printed b g) : UInv c W s' := by
  have hm : ∀ b', b' ∈ s'.jobs ↔ b' = b1 ∨ (b' ∈ s.jobs ∧ jobId b'.job ≠ jobId b.job) := by
    rw [hjobs]; exact mem_set hd hb
  have hbm := List.mem_of_getElem? hb
  refine ⟨?_, ?_, ?_, ?_, ?_, ?_⟩
  · rw [hreg, hruns]; exact hu.len
  · rw [hreg, hruns]; exact hu.term
  · rw [hreg, hruns]
    intro r o u ho hr b' hb' hid
    rcases (hm b').1 hb' with rfl | ⟨hb', _⟩
    · rw [hjob] at hid ⊢; exact hu.trace r o u ho hr b hbm hid
    · exact hu.trace r o u ho hr b' hb' hid
  · rw [hreg, hruns, houts]
    intro r o u ho hr b' hb' hid hp
    rcases (hm b').1 hb' with rfl | ⟨hb', _⟩
    · rw [hjob] at hid
      exact hu.out r o u ho hr b hbm hid fun h => hp (hp1 _ h)
    · exact hu.out r o u ho hr b' hb' hid hp
  · rw [hreg, houts]
    intro g id hne
    obtain ⟨⟨r, o, ho, hk⟩, h2⟩ := hu.outs g id hne
    refine ⟨⟨r, o, ho, hk⟩, fun b' hb' hid => ?_⟩
    rcases (hm b').1 hb' with rfl | ⟨hb', _⟩
    · rw [hjob] at hid
      obtain ⟨_, _, _, hg, _⟩ := job_of hn hj ho
      rw [hk] at hg
      exact fun h => h2 b hbm hid (hp2 g hg h)
    · exact h2 b' hb' hid
  · rw [hreg, hruns]
    intro b' hb' p hp
    rcases (hm b').1 hb' with rfl | ⟨hb', _⟩
    · rw [hlines] at hp
      rw [hjob]
      exact hu.line b hbm p hp
    · exact hu.line b' hb' p hp

theorem launchAll_inv {j : Job} {gs : List Int} {s s' : Sys K} (hn : NInv W s.node) (hlen : s.runs.length = s.node.reg.objs.length)
    (hnd : gs.Nodup) (hf : ∀ g ∈ gs, (⟨1, g, jobId j⟩ : RunKey) ∉ s.node.runners.map Node.Runner.key)
    (hs : launchAll c s j gs = .ok s') : NInv W s'.node ∧
      s' = { s with node := { s.node with runners := s.node.runners ++ gs.map fun g => ⟨⟨1, g, jobId j⟩, c.allow j, 0, 0, 0⟩ } } := by
  induction gs generalizing s with
  | nil =>
    rw [launchAll] at hs
    rw [← Outcome.ok.inj hs]
    exact ⟨hn, by rw [List.map_nil, List.append_nil]⟩
  | cons g gs ih =>
    rw [launchAll, Outcome.bind_eq_ok] at hs
    obtain ⟨s1, h1, h2⟩ := hs
    obtain ⟨n, h3, e⟩ := node_ok h1
    have hn1 : NInv W n := ninv_step hn (fun m he => by cases he)
      (fun k a he => by cases he; exact ⟨hf g (List.mem_cons_self ..), rfl⟩) h3
    rw [Node.step] at h3
    have h3 := Outcome.ok.inj h3
    have e1 : s1 = { s with node := n } := by
      rw [e]
      have : n.reg.objs.drop s.runs.length = [] := by
        rw [← h3]; exact List.drop_eq_nil_of_le (Nat.le_of_eq hlen.symm)
      rw [this, List.map_nil, List.append_nil]
    subst e1
    obtain ⟨h4, h5⟩ := ih hn1 (by rw [← h3]; exact hlen) (List.nodup_cons.1 hnd).2 (fun g' hg' hm => by
      rw [← h3] at hm
      dsimp only at hm
      rw [List.map_append, List.mem_append] at hm
      rcases hm with hm | hm
      · exact hf g' (List.mem_cons_of_mem _ hg') hm
      · rw [List.map_singleton, List.mem_singleton] at hm
        have : g' = g := congrArg RunKey.gidx hm
        subst this
        exact (List.nodup_cons.1 hnd).1 hg') h2
    refine ⟨h4, ?_⟩
    rw [h5, ← h3]
    dsimp only
    rw [List.append_assoc, List.map_cons]
    rfl

theorem docStep_self {d d' : Docs} {g : Int} {id : String} {doc : Int} (h : docStep d (.register g id doc) = .ok d') :
    docFor d' g id = some doc := by
  rw [docStep] at h
  cases hm : d.get? g with
  | none => rw [hm] at h; cases h
  | some m =>
    rw [hm] at h
    rw [← Outcome.ok.inj h, docFor, GoMap.get?_set, if_pos rfl, Option.bind_some, GoMap.get?_set, if_pos rfl]

theorem docStep_gone {d d' : Docs} {g : Int} {id : String} (h : docStep d (.deregister g id) = .ok d') : docFor d' g id = none := by
  rw [docStep] at h
  cases hm : d.get? g with
  | none => rw [hm] at h; rw [← Outcome.ok.inj h, docFor, hm]; rfl
  | some m =>
    rw [hm] at h
    rw [← Outcome.ok.inj h, docFor, GoMap.get?_set, if_pos rfl, Option.bind_some, GoMap.get?_delete, if_pos rfl]

/-- A job goes on without printing, and the node does nothing. -/
theorem pinv_job0 {s : Sys K} (h : PInv c W s) (hd : Distinct s.jobs) {i : Nat} {b b1 : JobSt} (hb : s.jobs[i]? = some b)
    (hjob : b1.job = b.job) {docs : Docs} (hpast : past b.pc = past b1.pc) (hlines : b1.lines = b.lines)
    (hmine : past b1.pc = true → b1.runners = b.runners ∧ b.pc ≠ .launching ∧ (b1.pc = .waiting → b.pc = .waiting) ∧
      (b1.pc ≠ .waiting → b.pc = .waiting → b.runners.all (released s) = true))
    (hd1 : ∀ g d, docFor docs g (jobId b.job) = some d ↔ g ∈ c.guests ∧ Registered b1 g ∧ b.job.doc = d)
    (hd2 : ∀ g id, id ≠ jobId b.job → docFor docs g id = docFor s.docs g id)
    (hdone : b1.done.Nodup ∧ (∀ g ∈ b1.done, g ∈ c.guests) ∧ (b1.pc = .launching ∨ b1.pc = .waiting → b1.done = []))
    (hl : (b1.pc = .printing → b1.lines.map Prod.fst = b1.done.reverse) ∧
      (b1.pc = .ended → (b1.lines.map Prod.fst).Perm c.guests) ∧ (b1.pc ≠ .printing → b1.pc ≠ .ended → b1.lines = []))
    (hp1 : ∀ g, Printed b g → Printed b1 g) (hp2 : ∀ g ∈ c.guests, Printed b1 g → Printed b g) :
    PInv c W { s with docs := docs, jobs := s.jobs.set i b1 } := by
  refine ⟨h.n, jinv_job h.j hd hb hjob rfl (fun x => by rw [← hpast]; exact x) (fun u hu => .inl hu) (fun _ _ x => x) ?_ hd1 hd2 hdone hl,
    uinv_job h.n h.j h.u hd hb hjob rfl hlines rfl rfl rfl hp1 hp2, h.f⟩
  intro hp g hg
  obtain ⟨h1, _, h2, h3⟩ := hmine hp
  obtain ⟨j, u, hu, hk, h4, h5⟩ := h.j.mine b (List.mem_of_getElem? hb) (by rw [hpast]; exact hp) g hg
  refine ⟨j, u, hu, hk, fun hw => by rw [h1]; exact h4 (h2 hw), fun hw => ?_⟩
  by_cases hbw : b.pc = .waiting
  · have := List.all_eq_true.1 (h3 hw hbw) j (h4 hbw)
    rw [released, hu] at this
    simpa using this
  · exact h5 hbw

theorem pinv_jobStep {s s' : Sys K} {i : Nat} {g : Int} (h : PInv c W s) (hd : Distinct s.jobs) (hgn : c.guests.Nodup)
    (hs : jobStep c s i g = .ok s') : PInv c W s' ∧ reqs s' = reqs s := by
  rw [jobStep] at hs
  cases hb : s.jobs[i]? with
  | none => rw [hb] at hs; cases hs
  | some b =>
    rw [hb] at hs
    dsimp only at hs
    have hbm := List.mem_of_getElem? hb
    have hdoc := doc_of h.j hd hbm
    obtain ⟨hnd, hsub, hnil⟩ := h.j.done b hbm
    obtain ⟨hl1, hl2, hl3⟩ := h.j.lines b hbm
    have hover : (c.guests.all fun g => decide (g ∈ b.done)) = true → ∀ g ∈ c.guests, g ∈ b.done :=
      fun ho g hg => of_decide_eq_true (List.all_eq_true.1 ho g hg)
    have hself : (decide (g ∈ c.guests) && decide (g ∉ b.done)) = true → g ∈ c.guests ∧ g ∉ b.done := by
      intro hm; simpa using hm
    have hcons : g ∈ c.guests ∧ g ∉ b.done → (g :: b.done).Nodup ∧ ∀ g' ∈ g :: b.done, g' ∈ c.guests := by
      rintro ⟨h1, h2⟩
      refine ⟨List.nodup_cons.2 ⟨h2, hnd⟩, fun g' hg' => ?_⟩
      rcases List.mem_cons.1 hg' with rfl | hg'
      · exact h1
      · exact hsub g' hg'
    cases hpc : b.pc with
    | registering =>
      rw [hpc] at hs
      dsimp only at hs
      have hlb : b.lines = [] := hl3 (by rw [hpc]; decide) (by rw [hpc]; decide)
      by_cases ho : (c.guests.all fun g => decide (g ∈ b.done)) = true
      · rw [if_pos ho] at hs
        rw [← Outcome.ok.inj hs]
        refine ⟨pinv_job0 h hd hb (b1 := { b with pc := .launching, done := [] }) rfl (by rw [hpc]; rfl) rfl (fun x => (by cases x)) (fun g d => ?_) (fun _ _ _ => rfl)
          ⟨List.nodup_nil, by simp, fun _ => rfl⟩ ⟨by simp, by simp, fun _ _ => hlb⟩ ?_ ?_, distinct_set hb rfl⟩
        · rw [hdoc]
          constructor
          · rintro ⟨h1, h2, h3⟩; exact ⟨h1, .inr (.inl rfl), h3⟩
          · rintro ⟨h1, h2, h3⟩; exact ⟨h1, .inl ⟨hpc, hover ho g h1⟩, h3⟩
        · rintro g (⟨h1, _⟩ | h1) <;> rw [hpc] at h1 <;> cases h1
        · rintro g _ (⟨h1, _⟩ | h1) <;> cases h1
      · rw [if_neg ho] at hs
        by_cases hm : (decide (g ∈ c.guests) && decide (g ∉ b.done)) = true
        · rw [if_pos hm, Outcome.bind_eq_ok] at hs
          obtain ⟨d, h1, hs⟩ := hs
          rw [← Outcome.ok.inj hs]
          have hm := hself hm
          refine ⟨pinv_job0 h hd hb (b1 := { b with pc := .registering, done := g :: b.done }) rfl (by rw [hpc]) rfl (fun x => (by cases x)) (fun g' d' => ?_)
            (fun g' id hid => docStep_other h1 fun hk => hid hk.2.symm)
            ⟨(hcons hm).1, (hcons hm).2, fun x => (by rcases x with x | x <;> cases x)⟩
            ⟨fun x => (by cases x), fun x => (by cases x), fun _ _ => hlb⟩ ?_ ?_, distinct_set hb rfl⟩
          · by_cases e : g = g'
            · subst e
              rw [docStep_self h1]
              constructor
              · intro h2; exact ⟨hm.1, .inl ⟨rfl, List.mem_cons_self ..⟩, Option.some.inj h2⟩
              · rintro ⟨_, _, h2⟩; rw [h2]
            · rw [docStep_other h1 fun hk => e hk.1, hdoc]
              constructor
              · rintro ⟨h2, h3, h4⟩
                refine ⟨h2, ?_, h4⟩
                rcases h3 with ⟨_, h3⟩ | h3 | h3 | ⟨h3, _⟩
                · exact .inl ⟨rfl, List.mem_cons_of_mem _ h3⟩
                all_goals rw [hpc] at h3; cases h3
              · rintro ⟨h2, h3, h4⟩
                refine ⟨h2, ?_, h4⟩
                rcases h3 with ⟨_, h3⟩ | h3 | h3 | ⟨h3, _⟩
                · rcases List.mem_cons.1 h3 with h3 | h3
                  · exact absurd h3.symm e
                  · exact .inl ⟨hpc, h3⟩
                all_goals cases h3
          · rintro g (⟨h1, _⟩ | h1) <;> rw [hpc] at h1 <;> cases h1
          · rintro g _ (⟨h1, _⟩ | h1) <;> cases h1
        · rw [if_neg hm] at hs; cases hs
    | launching =>
      rw [hpc] at hs
      dsimp only at hs
      rw [Outcome.bind_eq_ok] at hs
      obtain ⟨s1, h1, hs⟩ := hs
      have hfr : ∀ g ∈ c.guests, (⟨1, g, jobId b.job⟩ : RunKey) ∉ s.node.runners.map Node.Runner.key := by
        intro g _ hm
        obtain ⟨u, hu, hk⟩ := List.mem_map.1 hm
        obtain ⟨b', hb', hp, g', _, hk'⟩ := h.j.owner u hu
        have : jobId b.job = jobId b'.job := congrArg RunKey.runId (hk.symm.trans hk')
        have := hd.eq hbm hb' this
        subst this
        rw [hpc] at hp
        cases hp
      obtain ⟨hn1, e1⟩ := launchAll_inv h.n h.u.len hgn hfr h1
      rw [← Outcome.ok.inj hs]
      subst e1
      have hlb : b.lines = [] := hl3 (by rw [hpc]; decide) (by rw [hpc]; decide)
      have hdn : b.done = [] := hnil (.inl hpc)
      refine ⟨⟨hn1, jinv_job h.j hd hb (b1 := { b with pc := .waiting, runners := (List.range c.guests.length).map (s.node.runners.length + ·) }) rfl rfl (fun _ => rfl) (fun u hu => ?_) (fun j u hu => ?_) (fun _ g hg => ?_) (fun g d => ?_)
        (fun _ _ _ => rfl) ⟨hnd, hsub, fun _ => hdn⟩ ⟨fun x => (by cases x), fun x => (by cases x), fun _ _ => hlb⟩,
        uinv_job h.n h.j h.u hd hb (b1 := { b with pc := .waiting, runners := (List.range c.guests.length).map (s.node.runners.length + ·) }) rfl rfl rfl rfl rfl rfl ?_ ?_, h.f⟩, distinct_set hb rfl⟩
      · rcases List.mem_append.1 hu with hu | hu
        · exact .inl hu
        · obtain ⟨g, hg, rfl⟩ := List.mem_map.1 hu
          exact .inr ⟨rfl, g, hg, rfl⟩
      · dsimp only
        rw [List.getElem?_append_left (lt_of_some hu)]
        exact hu
      · obtain ⟨k, hk⟩ := List.mem_iff_getElem?.1 hg
        refine ⟨s.node.runners.length + k, ⟨⟨1, g, jobId b.job⟩, c.allow b.job, 0, 0, 0⟩, ?_, rfl, fun _ => ?_, fun x => absurd rfl x⟩
        · dsimp only
          rw [List.getElem?_append_right (Nat.le_add_right _ _), Nat.add_sub_cancel_left, List.getElem?_map, hk]
          rfl
        · exact List.mem_map.2 ⟨k, List.mem_range.2 (lt_of_some hk), rfl⟩
      · rw [hdoc]
        constructor
        · rintro ⟨h1, h2, h3⟩; exact ⟨h1, .inr (.inr (.inl rfl)), h3⟩
        · rintro ⟨h1, h2, h3⟩; exact ⟨h1, .inr (.inl hpc), h3⟩
      · rintro g (⟨h1, _⟩ | h1) <;> rw [hpc] at h1 <;> cases h1
      · rintro g _ (⟨h1, _⟩ | h1) <;> cases h1
    | waiting =>
      rw [hpc] at hs
      dsimp only at hs
      have hlb : b.lines = [] := hl3 (by rw [hpc]; decide) (by rw [hpc]; decide)
      have hdn : b.done = [] := hnil (.inr hpc)
      by_cases ho : b.runners.all (released s) = true
      · rw [if_pos ho] at hs
        rw [← Outcome.ok.inj hs]
        refine ⟨pinv_job0 h hd hb (b1 := { b with pc := .deregistering }) rfl (by rw [hpc]; rfl) rfl (fun x => ⟨rfl, by rw [hpc]; decide, fun x => (by cases x), fun _ _ => ho⟩)
          (fun g d => ?_) (fun _ _ _ => rfl) ⟨hnd, hsub, fun x => (by rcases x with x | x <;> cases x)⟩
          ⟨fun x => (by cases x), fun x => (by cases x), fun _ _ => hlb⟩ ?_ ?_, distinct_set hb rfl⟩
        · rw [hdoc]
          constructor
          · rintro ⟨h1, h2, h3⟩; exact ⟨h1, .inr (.inr (.inr ⟨rfl, by dsimp only; rw [hdn]; exact List.not_mem_nil⟩)), h3⟩
          · rintro ⟨h1, h2, h3⟩; exact ⟨h1, .inr (.inr (.inl hpc)), h3⟩
        · rintro g (⟨h1, _⟩ | h1) <;> rw [hpc] at h1 <;> cases h1
        · rintro g _ (⟨h1, _⟩ | h1) <;> cases h1
      · rw [if_neg ho] at hs; cases hs
    | deregistering =>
      rw [hpc] at hs
      dsimp only at hs
      have hlb : b.lines = [] := hl3 (by rw [hpc]; decide) (by rw [hpc]; decide)
      by_cases ho : (c.guests.all fun g => decide (g ∈ b.done)) = true
      · rw [if_pos ho] at hs
        rw [← Outcome.ok.inj hs]
        refine ⟨pinv_job0 h hd hb (b1 := { b with pc := .printing, done := [] }) rfl (by rw [hpc]; rfl) rfl
          (fun x => ⟨rfl, by rw [hpc]; decide, fun x => (by cases x), fun _ x => (by rw [hpc] at x; cases x)⟩) (fun g d => ?_) (fun _ _ _ => rfl)
          ⟨List.nodup_nil, by simp, fun _ => rfl⟩ ⟨fun _ => by dsimp only; rw [hlb]; rfl, fun x => (by cases x), fun _ _ => hlb⟩ ?_ ?_,
          distinct_set hb rfl⟩
        · rw [hdoc]
          constructor
          · rintro ⟨h1, h2, h3⟩
            rcases h2 with ⟨h2, _⟩ | h2 | h2 | ⟨_, h2⟩
            · rw [hpc] at h2; cases h2
            · rw [hpc] at h2; cases h2
            · rw [hpc] at h2; cases h2
            · exact absurd (hover ho g h1) h2
          · rintro ⟨h1, h2, h3⟩
            rcases h2 with ⟨h2, _⟩ | h2 | h2 | ⟨h2, _⟩ <;> cases h2
        · rintro g (⟨h1, _⟩ | h1) <;> rw [hpc] at h1 <;> cases h1
        · rintro g _ (⟨_, h1⟩ | h1)
          · exact absurd h1 List.not_mem_nil
          · cases h1
      · rw [if_neg ho] at hs
        by_cases hm : (decide (g ∈ c.guests) && decide (g ∉ b.done)) = true
        · rw [if_pos hm, Outcome.bind_eq_ok] at hs
          obtain ⟨d, h1, hs⟩ := hs
          rw [← Outcome.ok.inj hs]
          have hm := hself hm
          refine ⟨pinv_job0 h hd hb (b1 := { b with pc := .deregistering, done := g :: b.done }) rfl (by rw [hpc]) rfl (fun x => ⟨rfl, by rw [hpc]; decide, fun x => (by cases x), fun _ y => (by rw [hpc] at y; cases y)⟩) (fun g' d' => ?_)
            (fun g' id hid => docStep_other h1 fun hk => hid hk.2.symm)
            ⟨(hcons hm).1, (hcons hm).2, fun x => (by rcases x with x | x <;> cases x)⟩
            ⟨fun x => (by cases x), fun x => (by cases x), fun _ _ => hlb⟩ ?_ ?_, distinct_set hb rfl⟩
          · by_cases e : g = g'
            · subst e
              rw [docStep_gone h1]
              constructor
              · intro h2; cases h2
              · rintro ⟨_, h3, _⟩
                rcases h3 with ⟨h3, _⟩ | h3 | h3 | ⟨_, h3⟩
                · cases h3
                · cases h3
                · cases h3
                · exact absurd (List.mem_cons_self ..) h3
            · rw [docStep_other h1 fun hk => e hk.1, hdoc]
              constructor
              · rintro ⟨h2, h3, h4⟩
                refine ⟨h2, ?_, h4⟩
                rcases h3 with ⟨h3, _⟩ | h3 | h3 | ⟨_, h3⟩
                · rw [hpc] at h3; cases h3
                · rw [hpc] at h3; cases h3
                · rw [hpc] at h3; cases h3
                · refine .inr (.inr (.inr ⟨rfl, fun hx => ?_⟩))
                  rcases List.mem_cons.1 hx with hx | hx
                  · exact e hx.symm
                  · exact h3 hx
              · rintro ⟨h2, h3, h4⟩
                refine ⟨h2, ?_, h4⟩
                rcases h3 with ⟨h3, _⟩ | h3 | h3 | ⟨_, h3⟩
                · cases h3
                · cases h3
                · cases h3
                · exact .inr (.inr (.inr ⟨hpc, fun hx => h3 (List.mem_cons_of_mem _ hx)⟩))
          · rintro g (⟨h1, _⟩ | h1) <;> rw [hpc] at h1 <;> cases h1
          · rintro g _ (⟨h1, _⟩ | h1) <;> cases h1
        · rw [if_neg hm] at hs; cases hs
    | printing =>
      rw [hpc] at hs
      dsimp only at hs
      by_cases ho : (c.guests.all fun g => decide (g ∈ b.done)) = true
      · rw [if_pos ho] at hs
        rw [← Outcome.ok.inj hs]
        refine ⟨pinv_job0 h hd hb (b1 := { b with pc := .ended, done := [] }) rfl (by rw [hpc]; rfl) rfl
          (fun x => ⟨rfl, by rw [hpc]; decide, fun x => (by cases x), fun _ x => (by rw [hpc] at x; cases x)⟩) (fun g d => ?_) (fun _ _ _ => rfl)
          ⟨List.nodup_nil, by simp, fun _ => rfl⟩ ⟨fun x => (by cases x), fun _ => ?_, fun _ x => absurd rfl x⟩ ?_ ?_,
          distinct_set hb rfl⟩
        · rw [hdoc]
          constructor
          · rintro ⟨h1, h2, h3⟩
            rcases h2 with ⟨h2, _⟩ | h2 | h2 | ⟨h2, _⟩ <;> rw [hpc] at h2 <;> cases h2
          · rintro ⟨h1, h2, h3⟩
            rcases h2 with ⟨h2, _⟩ | h2 | h2 | ⟨h2, _⟩ <;> cases h2
        · dsimp only
          rw [hl1 hpc]
          refine (List.reverse_perm _).trans ((List.perm_ext_iff_of_nodup hnd hgn).2 fun x => ⟨hsub x, hover ho x⟩)
        · intro g _; exact .inr rfl
        · intro g hg _; exact .inl ⟨hpc, hover ho g hg⟩
      · rw [if_neg ho] at hs
        by_cases hm : (decide (g ∈ c.guests) && decide (g ∉ b.done)) = true
        · rw [if_pos hm, Outcome.bind_eq_ok] at hs
          obtain ⟨⟨o1, v⟩, h1, hs⟩ := hs
          rw [Outcome.bind_eq_ok] at hs
          obtain ⟨l, h2, hs⟩ := hs
          rw [← Outcome.ok.inj hs]
          have hm := hself hm
          have hpop := pop_waiting h1
          have hp : past b.pc = true := by rw [hpc]; rfl
          refine ⟨⟨h.n, jinv_job h.j hd hb (b1 := { b with pc := .printing, done := g :: b.done, lines := b.lines ++ [(g, l)] }) rfl rfl (fun _ => rfl) (fun u hu => .inl hu) (fun _ _ x => x) ?_ ?_ (fun _ _ _ => rfl)
            ⟨(hcons hm).1, (hcons hm).2, fun x => (by rcases x with x | x <;> cases x)⟩ ?_, ?_, h.f⟩, distinct_set hb rfl⟩
          · intro _ g' hg'
            obtain ⟨j, u, h3, h4, h5, h6⟩ := h.j.mine b hbm hp g' hg'
            exact ⟨j, u, h3, h4, fun x => (by cases x), fun _ => h6 (by rw [hpc]; decide)⟩
          · intro g' d'
            dsimp only
            rw [hdoc]
            refine and_congr_right fun _ => and_congr_left fun _ => ?_
            constructor
            · rintro (⟨h3, _⟩ | h3 | h3 | ⟨h3, _⟩) <;> rw [hpc] at h3 <;> cases h3
            · rintro (⟨h3, _⟩ | h3 | h3 | ⟨h3, _⟩) <;> cases h3
          · refine ⟨fun _ => ?_, fun x => (by cases x), fun x => absurd rfl x⟩
            dsimp only
            rw [List.map_append, hl1 hpc, List.reverse_cons]
            rfl
          · have hmem : ∀ b', b' ∈ s.jobs.set i { b with pc := .printing, done := g :: b.done, lines := b.lines ++ [(g, l)] } ↔
                b' = { b with pc := .printing, done := g :: b.done, lines := b.lines ++ [(g, l)] } ∨ (b' ∈ s.jobs ∧ jobId b'.job ≠ jobId b.job) :=
              mem_set hd hb
            refine ⟨h.u.len, h.u.term, ?_, ?_, ?_, ?_⟩
            · intro r o u hobj hr b' hb' hid
              rcases (hmem b').1 hb' with rfl | ⟨hb', _⟩
              · exact h.u.trace r o u hobj hr b hbm hid
              · exact h.u.trace r o u hobj hr b' hb' hid
            · intro r o u hobj hr b' hb' hid hnp
              dsimp only
              rw [(hpop 1 _ _).2]
              rcases (hmem b').1 hb' with rfl | ⟨hb', hne⟩
              · rw [if_neg]
                · exact h.u.out r o u hobj hr b hbm hid fun hx => hnp (by
                    rcases hx with ⟨_, hx⟩ | hx
                    · exact .inl ⟨rfl, List.mem_cons_of_mem _ hx⟩
                    · rw [hpc] at hx; cases hx)
                · rintro ⟨_, e, _⟩
                  exact hnp (.inl ⟨rfl, by rw [← e]; exact List.mem_cons_self ..⟩)
              · rw [if_neg]
                · exact h.u.out r o u hobj hr b' hb' hid hnp
                · rintro ⟨_, _, e⟩
                  exact hne (hid.trans e.symm)
            · intro g' id hne
              dsimp only at hne
              rw [(hpop 1 _ _).2] at hne
              by_cases e : g = g' ∧ jobId b.job = id
              · rw [if_pos ⟨rfl, e⟩] at hne; exact absurd rfl hne
              · rw [if_neg fun hx => e hx.2] at hne
                obtain ⟨h3, h4⟩ := h.u.outs g' id hne
                refine ⟨h3, fun b' hb' hid hpr => ?_⟩
                rcases (hmem b').1 hb' with rfl | ⟨hb', _⟩
                · rcases hpr with ⟨_, hx⟩ | hx
                  · rcases List.mem_cons.1 hx with hx | hx
                    · exact e ⟨hx.symm, hid⟩
                    · exact h4 b hbm hid (.inl ⟨hpc, hx⟩)
                  · cases hx
                · exact h4 b' hb' hid hpr
            · intro b' hb' p hpl
              rcases (hmem b').1 hb' with rfl | ⟨hb', _⟩
              · rcases List.mem_append.1 hpl with hpl | hpl
                · exact h.u.line b hbm p hpl
                · rw [List.mem_singleton] at hpl
                  subst hpl
                  obtain ⟨r, o, u, h3, h4, h5, h6⟩ := finished h.n h.j h.u hbm hp (by rw [hpc]; decide) hm.1
                  refine ⟨r, o, u, h3, h4, h5, h6, ?_⟩
                  have h7 := h.u.out r o u h3 h5 b hbm (by rw [h4]) (by
                    rw [h4]
                    rintro (⟨_, hx⟩ | hx)
                    · exact hm.2 hx
                    · rw [hpc] at hx; cases hx)
                  rw [h4] at h7
                  dsimp only at h7
                  have h8 := (hpop 1 g (jobId b.job)).1
                  dsimp only at h2
                  rw [h8, h7] at h2
                  cases hls : lastSig u.user.out with
                  | none => rw [hls] at h2; exact (Outcome.ok.inj h2).symm
                  | some x => rw [hls] at h2; exact (Outcome.ok.inj h2).symm
              · exact h.u.line b' hb' p hpl
        · rw [if_neg hm] at hs; cases hs
    | ended => rw [hpc] at hs; cases hs

theorem pinv_request {s : Sys K} {j : Job} (h : PInv c W s) (hd : Distinct (s.jobs ++ [⟨j, .registering, [], [], []⟩])) :
    PInv c W { s with jobs := s.jobs ++ [⟨j, .registering, [], [], []⟩] } := by
  have hm : ∀ b', b' ∈ s.jobs ++ [⟨j, .registering, [], [], []⟩] ↔ b' ∈ s.jobs ∨ b' = ⟨j, .registering, [], [], []⟩ := by
    intro b'; rw [List.mem_append, List.mem_singleton]
  have hnew : ∀ b' ∈ s.jobs, jobId b'.job ≠ jobId j := by
    intro b' hb' e
    have := hd.eq ((hm b').2 (.inl hb')) ((hm _).2 (.inr rfl)) e
    subst this
    rw [Distinct, List.map_append, List.nodup_append] at hd
    exact hd.2.2 _ (List.mem_map_of_mem hb') _ (List.mem_singleton.2 rfl) rfl
  refine ⟨h.n, ⟨?_, ?_, ?_, ?_, ?_⟩, ⟨h.u.len, h.u.term, ?_, ?_, ?_, ?_⟩, h.f⟩
  · intro u hu
    obtain ⟨b, hb, hx⟩ := h.j.owner u hu
    exact ⟨b, (hm b).2 (.inl hb), hx⟩
  · intro b hb hp
    rcases (hm b).1 hb with hb | rfl
    · exact h.j.mine b hb hp
    · cases hp
  · intro g id d
    dsimp only
    rw [h.j.docs]
    refine and_congr_right fun _ => ?_
    constructor
    · rintro ⟨b, hb, hx⟩; exact ⟨b, (hm b).2 (.inl hb), hx⟩
    · rintro ⟨b, hb, h1, h2, h3⟩
      rcases (hm b).1 hb with hb | rfl
      · exact ⟨b, hb, h1, h2, h3⟩
      · rcases h2 with ⟨_, h2⟩ | h2 | h2 | ⟨h2, _⟩
        · exact absurd h2 List.not_mem_nil
        all_goals cases h2
  · intro b hb
    rcases (hm b).1 hb with hb | rfl
    · exact h.j.done b hb
    · exact ⟨List.nodup_nil, by simp, fun _ => rfl⟩
  · intro b hb
    rcases (hm b).1 hb with hb | rfl
    · exact h.j.lines b hb
    · exact ⟨fun x => (by cases x), fun x => (by cases x), fun _ _ => rfl⟩
  · intro r o u ho hr b hb hid
    rcases (hm b).1 hb with hb | rfl
    · exact h.u.trace r o u ho hr b hb hid
    · obtain ⟨b', hb', _, _, hk⟩ := job_of h.n h.j ho
      rw [hk] at hid
      exact absurd hid.symm (hnew b' hb')
  · intro r o u ho hr b hb hid hp
    rcases (hm b).1 hb with hb | rfl
    · exact h.u.out r o u ho hr b hb hid hp
    · obtain ⟨b', hb', _, _, hk⟩ := job_of h.n h.j ho
      rw [hk] at hid
      exact absurd hid.symm (hnew b' hb')
  · intro g id hne
    obtain ⟨h1, h2⟩ := h.u.outs g id hne
    refine ⟨h1, fun b hb hid => ?_⟩
    rcases (hm b).1 hb with hb | rfl
    · exact h2 b hb hid
    · rintro (⟨hx, _⟩ | hx) <;> cases hx
  · intro b hb p hp
    rcases (hm b).1 hb with hb | rfl
    · exact h.u.line b hb p hp
    · exact absurd hp List.not_mem_nil

/-! Histories. -/

theorem distinct_of_reqs {s s' : Sys K} {l : List Job} (h : reqs s' = reqs s ++ l) (hd : Distinct s'.jobs) : Distinct s.jobs := by
  have e : ∀ t : Sys K, (t.jobs.map fun b => jobId b.job) = (reqs t).map jobId := by
    intro t; rw [reqs, List.map_map]; rfl
  rw [Distinct, e, h, List.map_append] at hd
  rw [Distinct, e]
  exact (List.nodup_append.1 hd).1

theorem initOutputs_none (V : Type) (n : Nat) (guests : List Int) (pc g : Int) (id : String) :
    waiting (initOutputs V n guests) pc g id = none := by
  rw [initOutputs]
  generalize ((List.range n).flatMap fun (pc : Nat) => guests.map fun g => ((pc : Int), g)) = l
  have : ∀ o : Outputs V, waiting o pc g id = none → waiting (l.foldl (fun o k => o.set k []) o) pc g id = none := by
    induction l with
    | nil => exact fun o h => h
    | cons k l ih =>
      intro o h
      rw [List.foldl_cons]
      refine ih _ ?_
      rw [waiting, GoMap.get?_set]
      by_cases e : k = (pc, g)
      · rw [if_pos e]; rfl
      · rw [if_neg e]; exact h
  exact this [] rfl

theorem pinv_init (c : Cfg K) (W : Message Dto → Prop) : PInv c W (init c) := by
  refine ⟨⟨fun k => Node.good_make k _ _ _ _ _ _, Node.orig_make _ _ _ _ _ _, Node.carry_make _ _ _ _ _ _ _, List.nodup_nil, ?_⟩,
    ⟨?_, ?_, ?_, ?_, ?_⟩, ⟨rfl, ?_, ?_, ?_, ?_, ?_⟩, ?_⟩
  · intro u hu; exact absurd hu List.not_mem_nil
  · intro u hu; exact absurd hu List.not_mem_nil
  · intro b hb; exact absurd hb List.not_mem_nil
  · intro g id d
    constructor
    · intro h
      rw [init, docFor] at h
      dsimp only at h
      rw [dssInit_get] at h
      by_cases hg : g ∈ c.guests
      · rw [if_pos hg] at h; cases h
      · rw [if_neg hg] at h; cases h
    · rintro ⟨_, b, hb, _⟩; exact absurd hb List.not_mem_nil
  · intro b hb; exact absurd hb List.not_mem_nil
  · intro b hb; exact absurd hb List.not_mem_nil
  · intro r o u ho; cases ho
  · intro r o u ho; cases ho
  · intro r o u ho; cases ho
  · intro g id hne; exact absurd (initOutputs_none _ _ _ _ _ _) hne
  · intro b hb; exact absurd hb List.not_mem_nil
  · intro q m hm; cases hm

theorem node_jobs {s s' : Sys K} {e : Node.Ev Dto} (h : nodeEvent c s e = .ok s') : s'.jobs = s.jobs := by
  obtain ⟨n, _, rfl⟩ := node_ok h; rfl

theorem runEvent_jobs {s s' : Sys K} {r : Nat} {e : Prot.Ev Dto} (h : runEvent c s r e = .ok s') : s'.jobs = s.jobs := by
  obtain ⟨_, _, _, _, _, _, _, _, rfl⟩ := run_ok h; rfl

theorem launchAll_jobs {j : Job} {gs : List Int} {s s' : Sys K} (hs : launchAll c s j gs = .ok s') : s'.jobs = s.jobs := by
  induction gs generalizing s with
  | nil => rw [launchAll] at hs; rw [← Outcome.ok.inj hs]
  | cons g gs ih =>
    rw [launchAll, Outcome.bind_eq_ok] at hs
    obtain ⟨s1, h1, h2⟩ := hs
    rw [ih h2, node_jobs h1]

/-- Jobs are only added, by requests. -/
theorem reqs_step {s s' : Sys K} {e : Ev} (hs : step c s e = .ok s') : reqs s' = reqs s ++ requests [e] := by
  have same : ∀ {e : Node.Ev Dto}, nodeEvent c s e = .ok s' → reqs s' = reqs s ++ [] := by
    intro e h
    rw [List.append_nil, reqs, reqs, node_jobs h]
  cases e with
  | request j => rw [step] at hs; rw [← Outcome.ok.inj hs, reqs, List.map_append]; rfl
  | tick t => exact same hs
  | latch => exact same hs
  | net m => exact same hs
  | fwStep i => exact same hs
  | task i => exact same hs
  | runner j => exact same hs
  | cons q =>
    rw [step, consStep] at hs
    cases hq : s.node.cons q with
    | idle => rw [hq] at hs; exact same hs
    | got x =>
      rw [hq] at hs
      dsimp only at hs
      rw [Outcome.bind_eq_ok] at hs
      obtain ⟨s1, h1, h2⟩ := hs
      have e0 : requests [Ev.cons q] = [] := rfl
      rw [← Outcome.ok.inj h2, reqs, e0, List.append_nil]
      dsimp only
      rw [node_jobs h1]; rfl
    | found x =>
      rw [hq] at hs
      dsimp only at hs
      rw [Outcome.bind_eq_ok] at hs
      obtain ⟨s1, h1, h2⟩ := hs
      rw [reqs, reqs, node_jobs h2, runEvent_jobs h1]
      exact (List.append_nil _).symm
  | thread r =>
    rw [step, threadStep] at hs
    cases ho : s.node.reg.objs[r]? with
    | none => rw [ho] at hs; cases hs
    | some o =>
      rw [ho] at hs
      dsimp only at hs
      by_cases hst : o.started = 0
      · rw [if_pos hst] at hs; cases hs
      · rw [if_neg hst, Outcome.bind_eq_ok] at hs
        obtain ⟨s1, h1, h2⟩ := hs
        rw [reqs, reqs]
        by_cases hp : phaseOf s1 r = some .done
        · rw [if_pos hp] at h2; rw [node_jobs h2, runEvent_jobs h1]; exact (List.append_nil _).symm
        · rw [if_neg hp] at h2; rw [← Outcome.ok.inj h2, runEvent_jobs h1]; exact (List.append_nil _).symm
  | job i g =>
    have key : ∀ {b b1 : JobSt}, s.jobs[i]? = some b → b1.job = b.job → (s.jobs.set i b1).map JobSt.job = reqs s ++ [] := by
      intro b b1 h1 h2; rw [List.append_nil, distinct_set h1 h2]; rfl
    rw [step, jobStep] at hs
    cases hb : s.jobs[i]? with
    | none => rw [hb] at hs; cases hs
    | some b =>
      rw [hb] at hs
      dsimp only at hs
      cases hpc : b.pc with
      | registering =>
        rw [hpc] at hs
        dsimp only at hs
        split at hs
        · rw [← Outcome.ok.inj hs]; exact key hb rfl
        · split at hs
          · rw [Outcome.bind_eq_ok] at hs
            obtain ⟨_, _, hs⟩ := hs
            rw [← Outcome.ok.inj hs]; exact key hb rfl
          · cases hs
      | launching =>
        rw [hpc] at hs
        dsimp only at hs
        rw [Outcome.bind_eq_ok] at hs
        obtain ⟨s1, h1, hs⟩ := hs
        rw [← Outcome.ok.inj hs, reqs]
        dsimp only
        rw [launchAll_jobs h1]
        exact key hb rfl
      | waiting =>
        rw [hpc] at hs
        dsimp only at hs
        split at hs
        · rw [← Outcome.ok.inj hs]; exact key hb rfl
        · cases hs
      | deregistering =>
        rw [hpc] at hs
        dsimp only at hs
        split at hs
        · rw [← Outcome.ok.inj hs]; exact key hb rfl
        · split at hs
          · rw [Outcome.bind_eq_ok] at hs
            obtain ⟨_, _, hs⟩ := hs
            rw [← Outcome.ok.inj hs]; exact key hb rfl
          · cases hs
      | printing =>
        rw [hpc] at hs
        dsimp only at hs
        split at hs
        · rw [← Outcome.ok.inj hs]; exact key hb rfl
        · split at hs
          · rw [Outcome.bind_eq_ok] at hs
            obtain ⟨_, _, hs⟩ := hs
            rw [Outcome.bind_eq_ok] at hs
            obtain ⟨_, _, hs⟩ := hs
            rw [← Outcome.ok.inj hs]; exact key hb rfl
          · cases hs
      | ended => rw [hpc] at hs; cases hs

theorem pinv_step {s s' : Sys K} {e : Ev} (h : PInv c W s) (hd : Distinct s'.jobs) (hgn : c.guests.Nodup) (hw : ∀ m, e = .net m → W m)
    (hs : step c s e = .ok s') : PInv c W s' := by
  have hd0 : Distinct s.jobs := distinct_of_reqs (reqs_step hs) hd
  cases e with
  | request j =>
    rw [step] at hs
    rw [← Outcome.ok.inj hs] at hd ⊢
    exact pinv_request h hd
  | tick t => exact (pinv_node h (fun m x => (by cases x)) (fun k a x => (by cases x)) (fun q x => (by cases x)) (fun r x => (by cases x)) hs).1
  | latch => exact (pinv_node h (fun m x => (by cases x)) (fun k a x => (by cases x)) (fun q x => (by cases x)) (fun r x => (by cases x)) hs).1
  | net m => exact (pinv_node h (fun m x => hw m (by cases x; rfl)) (fun k a x => (by cases x)) (fun q x => (by cases x)) (fun r x => (by cases x)) hs).1
  | fwStep i => exact (pinv_node h (fun m x => (by cases x)) (fun k a x => (by cases x)) (fun q x => (by cases x)) (fun r x => (by cases x)) hs).1
  | task i => exact (pinv_node h (fun m x => (by cases x)) (fun k a x => (by cases x)) (fun q x => (by cases x)) (fun r x => (by cases x)) hs).1
  | runner j => exact (pinv_node h (fun m x => (by cases x)) (fun k a x => (by cases x)) (fun q x => (by cases x)) (fun r x => (by cases x)) hs).1
  | cons q => exact (pinv_consStep h hd0 hs).1
  | thread r => exact (pinv_thread h hd0 hs).1
  | job i g => exact (pinv_jobStep h hd0 hgn hs).1

theorem requests_cons (e : Ev) (h : List Ev) : requests (e :: h) = requests [e] ++ requests h := by cases e <;> rfl

theorem reqs_run {s s' : Sys K} {h : List Ev} (hs : run c s h = .ok s') : reqs s' = reqs s ++ requests h := by
  induction h generalizing s with
  | nil => rw [run] at hs; rw [← Outcome.ok.inj hs, requests, List.append_nil]
  | cons e h ih =>
    rw [run, Outcome.bind_eq_ok] at hs
    obtain ⟨s1, h1, h2⟩ := hs
    rw [ih h2, reqs_step h1, requests_cons e h, List.append_assoc]

theorem pinv_run {s s' : Sys K} {h : List Ev} (hi : PInv c W s) (hd : Distinct s'.jobs) (hgn : c.guests.Nodup)
    (hw : ∀ m, .net m ∈ h → W m) (hs : run c s h = .ok s') : PInv c W s' := by
  induction h generalizing s with
  | nil => rw [run] at hs; rw [← Outcome.ok.inj hs]; exact hi
  | cons e h ih =>
    rw [run, Outcome.bind_eq_ok] at hs
    obtain ⟨s1, h1, h2⟩ := hs
    exact ih (pinv_step hi (distinct_of_reqs (reqs_run h2) hd) hgn (fun m x => hw m (by rw [x]; exact List.mem_cons_self ..)) h1)
      (fun m x => hw m (List.mem_cons_of_mem _ x)) h2

end Verif.Program
