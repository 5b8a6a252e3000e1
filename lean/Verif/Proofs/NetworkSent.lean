import Verif.Proofs.Network
import Verif.Proofs.ProgramSent
import Verif.Proofs.KeyTogether

/-! Processes of the tool with the network between them: what arrives was sent by a run, and what a run sends arrives. -/
namespace Verif.Network
open Verif.Prot Verif.Dto Verif.Dss Verif.Dkg Verif.Tables Verif.Signode Verif.Props Verif.Spec.Prot Verif.Spec.Program Verif.Spec.Network
open Verif.Registry (lt_of_some)
variable {ι K : Type}

theorem sentLogs_get {s : Program.Sys K} {r : Nat} {x : (Int × Int) × List (Message Dto)} (h : (sentLogs s)[r]? = some x) :
    ∃ u o, s.runs[r]? = some u ∧ s.node.reg.objs[r]? = some o ∧ x = ((o.key.pc, o.key.gidx), u.log.filterMap handedOver) := by
  rw [sentLogs, List.getElem?_map, Option.map_eq_some_iff] at h
  obtain ⟨⟨u, o⟩, h1, rfl⟩ := h
  rw [List.getElem?_zip_eq_some] at h1
  exact ⟨u, o, h1.1, h1.2, rfl⟩

theorem sentLogs_at {s : Program.Sys K} {r : Nat} {u : Run Dto Obj (Data K)} {o : Registry.Obj} (hu : s.runs[r]? = some u)
    (ho : s.node.reg.objs[r]? = some o) : (sentLogs s)[r]? = some ((o.key.pc, o.key.gidx), u.log.filterMap handedOver) := by
  have : (s.runs.zip s.node.reg.objs)[r]? = some (u, o) := List.getElem?_zip_eq_some.2 ⟨hu, ho⟩
  rw [sentLogs, List.getElem?_map, this]
  rfl

theorem mem_sent {l : List (Entry Dto Obj)} {m : Message Dto} :
    m ∈ l.filterMap handedOver ↔ .sent m ∈ l := by
  rw [List.mem_filterMap]
  constructor
  · rintro ⟨e, he, h⟩
    cases e <;> simp [handedOver] at h
    subst h; exact he
  · exact fun h => ⟨_, h, rfl⟩

/-- What runs have sent. -/
theorem of_sentLogs {s : Program.Sys K} {k : Int × Int} {b : List (Message Dto)} {m : Message Dto} (h : (k, b) ∈ sentLogs s) (hm : m ∈ b) :
    ∃ u ∈ s.runs, .sent m ∈ u.log := by
  obtain ⟨r, hr⟩ := List.mem_iff_getElem?.1 h
  obtain ⟨u, o, h1, h2, e⟩ := sentLogs_get hr
  rw [Prod.mk.injEq] at e
  rw [e.2, mem_sent] at hm
  exact ⟨u, List.mem_of_getElem? h1, hm⟩

/-- What a run sends is given to its queues. -/
theorem sent_given {s s' : Program.Sys K} {r : Nat} {u' : Run Dto Obj (Data K)} {o' : Registry.Obj} {m : Message Dto}
    (hu : s'.runs[r]? = some u') (ho : s'.node.reg.objs[r]? = some o') (hm : .sent m ∈ u'.log) (hold : ∀ u ∈ s.runs, .sent m ∉ u.log)
    (hpre : ∀ u o, s.runs[r]? = some u → s.node.reg.objs[r]? = some o → u.log <+: u'.log) :
    ((o'.key.pc, o'.key.gidx), m) ∈ given (sentLogs s) (sentLogs s') := by
  refine mem_given (sentLogs_at hu ho) (mem_sent.2 hm) fun x hx => ?_
  obtain ⟨u, o, h1, h2, rfl⟩ := sentLogs_get hx
  exact ⟨(hpre u o h1 h2).filterMap _, fun h => hold u (List.mem_of_getElem? h1) (mem_sent.1 h)⟩

theorem sign_run (c : Program.Cfg K) (s : Program.Sys K) (h : List Program.Ev) : (signProg c).run s h = Program.run c s h := by
  induction h generalizing s with
  | nil => rfl
  | cons e h ih =>
    rw [Prog.run, Program.run]
    show (Program.step c s e >>= fun s' => (signProg c).run s' h) = _
    congr 1
    funext s'
    exact ih s'

/-- A run keeps what it has sent. -/
theorem sign_keeps {c : Program.Cfg K} (hg : c.guests.Nodup) {s s' : Program.Sys K} {h g : List Program.Ev} (hr : Program.run c (Program.init c) h = .ok s)
    (hs : Program.run c s g = .ok s') (hd : ((requests (h ++ g)).map jobId).Nodup) {m : Message Dto} (hm : ∃ u ∈ s.runs, .sent m ∈ u.log) :
    ∃ u ∈ s'.runs, .sent m ∈ u.log := by
  induction g generalizing s h with
  | nil => rw [Program.run] at hs; rw [← Outcome.ok.inj hs]; exact hm
  | cons e g ih =>
    rw [Program.run, Outcome.bind_eq_ok] at hs
    obtain ⟨t, h1, h2⟩ := hs
    have e1 : h ++ e :: g = (h ++ [e]) ++ g := by simp
    rw [e1] at hd
    have hK := Program.Reach.known ⟨_, hr, Program.nodup_prefix (Program.nodup_prefix hd)⟩ hg
    have hrt := Program.run_snoc hr h1
    have hK' := Program.Reach.known ⟨_, hrt, Program.nodup_prefix hd⟩ hg
    obtain ⟨u, hu, hm⟩ := hm
    obtain ⟨r, hu⟩ := List.mem_iff_getElem?.1 hu
    have ho := List.getElem?_eq_getElem (show r < s.node.reg.objs.length by rw [← hK.p.u.len]; exact lt_of_some hu)
    obtain ⟨_, u', _, _, hu', hpre⟩ := Program.run_fwd hK hK' h1 ho hu
    exact ih hrt h2 hd ⟨u', List.mem_of_getElem? hu', hpre.subset hm⟩

/-- A step in which a run sends something takes no time. -/
theorem sign_clock {c : Program.Cfg K} {s s' : Program.Sys K} {e : Program.Ev} (hs : Program.step c s e = .ok s') {m : Message Dto}
    (hold : ∀ u ∈ s.runs, .sent m ∉ u.log) (hnew : ∃ u ∈ s'.runs, .sent m ∈ u.log) : s'.node.fw.now = s.node.fw.now := by
  refine (Program.node_step hs ?_).1
  rintro t rfl
  rw [Program.step] at hs
  obtain ⟨n, _, rfl⟩ := Program.node_ok hs
  obtain ⟨u, hu, hm⟩ := hnew
  rcases List.mem_append.1 hu with hu | hu
  · exact hold u hu hm
  · obtain ⟨o, _, rfl⟩ := List.mem_map.1 hu
    exact absurd hm (by simp [newRun])

section sign
variable [DecidableEq ι] {c : ι → Program.Cfg K} {routes : ι → GoMap (Int × Int) (List (Option String))} {listen : ι → List String}
  {h : List (Ev ι Program.Ev)} {S : Sys ι (Program.Sys K) Program.Ev} (hs : run (signNet c routes listen) (init (signNet c routes listen)) h = .ok S)
include hs

/-- What has happened in a process is a history of it. -/
theorem sign_hist (p : ι) : Program.run (c p) (Program.init (c p)) (S.hist p) = .ok (S.procs p) := by
  have := (Inv.run (h := []) Inv.init hs).hist p
  rw [← sign_run]; exact this

/-- What comes in was sent by a run, unless somebody else calls. -/
theorem sign_authentic (hg : ∀ p, (c p).guests.Nodup) (hd : ∀ p, ((requests (S.hist p)).map jobId).Nodup) {p : ι} {m : Message Dto}
    (hm : .net m ∈ S.hist p) : .outside p m ∈ h ∨ ∃ q, ∃ u ∈ (S.procs q).runs, .sent m ∈ u.log := by
  have hI := Inv.run (h := []) Inv.init hs
  rw [List.nil_append] at hI
  obtain ⟨m', e, h1⟩ := hI.came p _ hm rfl
  injection e with e
  subst e
  refine h1.imp id fun ⟨q, k, x, h1⟩ => ?_
  obtain ⟨_, f1, f2, s1, b, e1, e2, e3, e4⟩ := hI.sent q k x m h1
  have hr := sign_hist hs q
  rw [e1] at hr
  obtain ⟨s2, r1, r2⟩ := Program.run_append_ok hr
  rw [show (signNet c routes listen).prog q = signProg (c q) from rfl, sign_run] at e2
  have := Outcome.ok.inj (e2.symm.trans r1)
  subst this
  exact ⟨q, sign_keeps (hg q) r1 r2 (by rw [← e1]; exact hd q) (of_sentLogs e3 e4)⟩

/-- What is sent arrives in time, when the network works. -/
theorem sign_arrives (hw : Works (signNet c routes listen) signClock signRoom h) {q : ι} (hg : (c q).guests.Nodup)
    (hd : ((requests (S.hist q)).map jobId).Nodup) {m : Message Dto} {t : Int} (hm : Sends (c q) (S.hist q) m t)
    (hlate : t + 40 < (S.procs q).node.fw.now) {P : String → Prop}
    (hl : ∀ a, P a → ∃ r, a ∈ listen r) (ha : ∀ y ∈ (c q).guests, ∃ a, addr (signNet c routes listen) q (1, y) m.rcpt = some a ∧ P a) :
    ∃ r a t', P a ∧ a ∈ listen r ∧ Arrives (c r) (S.hist r) m t' ∧ t - 30 < t' ∧ t' < t + 70 := by
  obtain ⟨h1, e, h2, s, s', eh, hr, hst, rfl, hold, hnew⟩ := hm
  have hclock := sign_clock hst hold hnew
  have e1 : S.hist q = (h1 ++ [e]) ++ h2 := by rw [eh]; simp
  rw [e1] at hd
  have hK := Program.Reach.known ⟨_, hr, Program.nodup_prefix (Program.nodup_prefix hd)⟩ hg
  have hK' := Program.Reach.known ⟨_, Program.run_snoc hr hst, Program.nodup_prefix hd⟩ hg
  obtain ⟨u', hu, hm⟩ := hnew
  obtain ⟨r, hu⟩ := List.mem_iff_getElem?.1 hu
  have ho := List.getElem?_eq_getElem (show r < s'.node.reg.objs.length by rw [← hK'.p.u.len]; exact lt_of_some hu)
  generalize s'.node.reg.objs[r]'_ = o at ho
  obtain ⟨_, _, _, hgu, hkey⟩ := Program.job_of hK'.p.n hK'.p.j ho
  have hgiv := sent_given hu ho hm hold fun u o h1 h2 => by
    obtain ⟨_, _, _, _, h3, h4⟩ := Program.run_fwd hK hK' hst h2 h1
    rw [Option.some.inj (hu.symm.trans h3)]; exact h4
  obtain ⟨a, ha, hP⟩ := ha _ hgu
  have hpc : o.key.pc = 1 := congrArg RunKey.pc hkey
  rw [hpc] at hgiv
  obtain ⟨r, f1, f2, sr, b1, b2, b3, b4, b5, b6⟩ := arrives hs hw eh (s := s) (s' := s') (by rw [← hr]; exact sign_run _ _ _) hst hgiv ha (hl a hP)
    (by rw [signClock, signClock, hclock]; exact hlate) (fun f1 f2 f3 t1 t2 e1 e2 e3 => by
      rw [show (signNet c routes listen).prog q = signProg (c q) from rfl, sign_run] at e2 e3
      obtain ⟨t3, r1, r2⟩ := Program.run_append_ok e3
      have := Outcome.ok.inj (e2.symm.trans r1)
      subst this
      exact Program.clock_run r2)
  simp only [signClock, hclock] at b5 b6
  refine ⟨r, a, sr.node.fw.now, hP, b1, ⟨f1, f2, sr, b2, ?_, rfl, b4⟩, b5, b6⟩
  rw [← b3]; exact (sign_run _ _ _).symm

end sign

theorem key_run (c : KeyProgram.Cfg K) (s : KeyProgram.Sys K) (h : List KeyProgram.Ev) : (keyProg c).run s h = KeyProgram.run c s h := by
  induction h generalizing s with
  | nil => rfl
  | cons e h ih =>
    rw [Prog.run, KeyProgram.run]
    show (KeyProgram.step c s e >>= fun s' => (keyProg c).run s' h) = _
    congr 1
    funext s'
    exact ih s'

theorem key_keeps {c : KeyProgram.Cfg K} (hc : KeyProgram.Fit c) {s s' : KeyProgram.Sys K} {g : List KeyProgram.Ev} (hR : KeyProgram.Reach c s)
    (hs : KeyProgram.run c s g = .ok s') {m : Message Dto} (hm : ∃ u ∈ s.prog.runs, .sent m ∈ u.log) : ∃ u ∈ s'.prog.runs, .sent m ∈ u.log := by
  obtain ⟨u, hu, hm⟩ := hm
  obtain ⟨r, hu⟩ := List.mem_iff_getElem?.1 hu
  exact KeyProgram.run_sent hc hR hs
    (List.getElem?_eq_getElem (show r < s.prog.node.reg.objs.length by rw [← (hR.known hc).i.p.u.len]; exact lt_of_some hu)) hu hm

theorem key_tick {c : KeyProgram.Cfg K} {s s' : KeyProgram.Sys K} {t : Int} (hs : KeyProgram.step c s (.prog (.tick t)) = .ok s') :
    Program.step c.base s.prog (.tick t) = .ok s'.prog := by
  obtain ⟨_, _, p, hst, rfl⟩ := KeyProgram.prog_ok hs
  exact hst

/-- A step in which a run sends something takes no time. -/
theorem key_clock {c : KeyProgram.Cfg K} (hc : KeyProgram.Fit c) {s s' : KeyProgram.Sys K} (hR : KeyProgram.Reach c s) {e : KeyProgram.Ev}
    (hs : KeyProgram.step c s e = .ok s') {m : Message Dto} (hold : ∀ u ∈ s.prog.runs, .sent m ∉ u.log) (hnew : ∃ u ∈ s'.prog.runs, .sent m ∈ u.log) :
    s'.prog.node.fw.now = s.prog.node.fw.now := by
  by_cases he : ∃ t, e = .prog (.tick t)
  · obtain ⟨t, rfl⟩ := he
    exact sign_clock (key_tick hs) hold hnew
  · exact KeyProgram.clock_same hc hR hs fun t h => he ⟨t, h⟩

theorem key_clock_run {c : KeyProgram.Cfg K} (hc : KeyProgram.Fit c) {s s' : KeyProgram.Sys K} (hR : KeyProgram.Reach c s) {h : List KeyProgram.Ev}
    (hs : KeyProgram.run c s h = .ok s') : s.prog.node.fw.now ≤ s'.prog.node.fw.now := by
  induction h generalizing s with
  | nil => rw [KeyProgram.run] at hs; rw [← Outcome.ok.inj hs]
  | cons e h ih =>
    rw [KeyProgram.run, Outcome.bind_eq_ok] at hs
    obtain ⟨s1, h1, h2⟩ := hs
    refine Int.le_trans ?_ (ih (hR.step h1) h2)
    by_cases he : ∃ t, e = .prog (.tick t)
    · obtain ⟨t, rfl⟩ := he
      exact Program.clock_step (key_tick h1)
    · exact Int.le_of_eq (KeyProgram.clock_same hc hR h1 fun t h => he ⟨t, h⟩).symm

section key
variable [DecidableEq ι] {c : ι → KeyProgram.Cfg K} {routes : ι → GoMap (Int × Int) (List (Option String))} {listen : ι → List String}
  {h : List (Ev ι KeyProgram.Ev)} {S : Sys ι (KeyProgram.Sys K) KeyProgram.Ev} (hs : run (keyNet c routes listen) (init (keyNet c routes listen)) h = .ok S)
include hs

theorem key_hist (p : ι) : KeyProgram.run (c p) (KeyProgram.init (c p)) (S.hist p) = .ok (S.procs p) := by
  have := (Inv.run (h := []) Inv.init hs).hist p
  rw [← key_run]; exact this

/-- What comes in was sent by a run, unless somebody else calls. -/
theorem key_authentic (hc : ∀ p, KeyProgram.Fit (c p)) {p : ι} {m : Message Dto} (hm : .prog (.net m) ∈ S.hist p) :
    .outside p m ∈ h ∨ ∃ q, ∃ u ∈ (S.procs q).prog.runs, .sent m ∈ u.log := by
  have hI := Inv.run (h := []) Inv.init hs
  rw [List.nil_append] at hI
  obtain ⟨m', e, h1⟩ := hI.came p _ hm rfl
  have e : KeyProgram.Ev.prog (.net m) = .prog (.net m') := e
  injection e with e
  injection e with e
  subst e
  refine h1.imp id fun ⟨q, k, x, h1⟩ => ?_
  obtain ⟨_, f1, f2, s1, b, e1, e2, e3, e4⟩ := hI.sent q k x m h1
  have hr := key_hist hs q
  rw [e1] at hr
  obtain ⟨s2, r1, r2⟩ := KeyProgram.run_append_ok hr
  rw [show (keyNet c routes listen).prog q = keyProg (c q) from rfl, key_run] at e2
  have := Outcome.ok.inj (e2.symm.trans r1)
  subst this
  exact ⟨q, key_keeps (hc q) ⟨_, r1⟩ r2 (of_sentLogs e3 e4)⟩

/-- What is sent arrives in time, when the network works. -/
theorem key_arrives (hw : Works (keyNet c routes listen) keyClock keyRoom h) {q : ι} (hc : KeyProgram.Fit (c q)) {m : Message Dto} {t : Int}
    (hm : Spec.KeyProgram.Sends (c q) (S.hist q) m t) (hlate : t + 40 < (S.procs q).prog.node.fw.now) {P : String → Prop}
    (hl : ∀ a, P a → ∃ r, a ∈ listen r) (ha : ∀ y ∈ (c q).base.guests, ∃ a, addr (keyNet c routes listen) q (0, y) m.rcpt = some a ∧ P a) :
    ∃ r a t', P a ∧ a ∈ listen r ∧ Spec.KeyProgram.Arrives (c r) (S.hist r) m t' ∧ t - 30 < t' ∧ t' < t + 70 := by
  obtain ⟨h1, e, h2, s, s', eh, hr, hst, rfl, hold, hnew⟩ := hm
  have hR : KeyProgram.Reach (c q) s := ⟨_, hr⟩
  have hclock := key_clock hc hR hst hold hnew
  have hK' := (hR.step hst).known hc
  obtain ⟨u', hu, hm⟩ := hnew
  obtain ⟨r, hu⟩ := List.mem_iff_getElem?.1 hu
  have ho := List.getElem?_eq_getElem (show r < s'.prog.node.reg.objs.length by rw [← hK'.i.p.u.len]; exact lt_of_some hu)
  generalize s'.prog.node.reg.objs[r]'_ = o at ho
  obtain ⟨_, _, hgu, hkey, _⟩ := KeyProgram.obj_owner hK'.i ho
  have hgiv := sent_given hu ho hm hold fun u o h1 h2 => by
    obtain ⟨_, _, _, _, h3, h4⟩ := KeyProgram.run_fwd hc hR hst h2 h1
    rw [Option.some.inj (hu.symm.trans h3)]; exact h4
  obtain ⟨a, ha, hP⟩ := ha _ hgu
  rw [hkey] at hgiv
  obtain ⟨r, f1, f2, sr, b1, b2, b3, b4, b5, b6⟩ := arrives hs hw eh (s := s) (s' := s') (by rw [← hr]; exact key_run _ _ _) hst hgiv ha (hl a hP)
    (by simp only [keyClock, signClock, hclock]; exact hlate) (fun f1 f2 f3 t1 t2 e1 e2 e3 => by
      rw [show (keyNet c routes listen).prog q = keyProg (c q) from rfl, key_run] at e2 e3
      obtain ⟨t3, r1, r2⟩ := KeyProgram.run_append_ok e3
      have := Outcome.ok.inj (e2.symm.trans r1)
      subst this
      exact key_clock_run hc ⟨_, r1⟩ r2)
  simp only [keyClock, signClock, hclock] at b5 b6
  refine ⟨r, a, sr.prog.node.fw.now, hP, b1, ⟨f1, f2, sr, b2, ?_, rfl, b4⟩, b5, b6⟩
  rw [← b3]; exact (key_run _ _ _).symm

end key

end Verif.Network
