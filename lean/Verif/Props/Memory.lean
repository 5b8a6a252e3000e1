import Verif.Proofs.NodeTimely
import Verif.Proofs.Prot
import Verif.Props.Prot
import Verif.Model.Program

/-! How much a node keeps of the messages it receives. -/
namespace Verif.Props.Memory
open Verif.Prot Verif.Props
variable {D A U : Type}

/-! ## The firewall and the incoming queues -/

section Nodes
open Verif.Node
variable {stages : Int → Nat} {nil : D} {nprots : Nat} {guests : Int → Bool} {du now : Int}

/-- No queue holds more than `n` messages. -/
def Short (n : Nat) (s : Sys D) : Prop := ∀ q, (s.queues q).length ≤ n

theorem short_put {s : Sys D} (h : Short 10000 s) (q : Int × Int) (m : Message D) (hq : (s.queues q).length < rcvBufMax) (p : Int × Int) :
    (update s.queues q (s.queues q ++ [m]) p).length ≤ 10000 := by
  rw [update]
  by_cases e : p = q
  · rw [if_pos e, List.length_append]; exact hq
  · rw [if_neg e]; exact h p

theorem short_receive {s : Sys D} (h : Short 10000 s) (m : Message D) : Short 10000 (receiveMsg s m) := by
  rw [receiveMsg]
  split
  · exact h
  · split
    · rename_i hq; exact fun p => short_put h _ _ hq p
    · exact h

theorem short_fold {s : Sys D} (h : Short 10000 s) (ms : List (Message D)) : Short 10000 (ms.foldl receiveMsg s) := by
  induction ms generalizing s with
  | nil => exact h
  | cons m ms ih => exact ih (short_receive h m)

theorem bind_ok {α β : Type} {x : Outcome α} {f : α → Outcome β} {b : β} (h : (x >>= f) = .ok b) : ∃ a, x = .ok a ∧ f a = .ok b := by
  cases x with
  | ok a => exact ⟨a, rfl, h⟩
  | err => cases h
  | panic => cases h

theorem short_fw {s s' : Sys D} (h : Short 10000 s) {e : Firewall.Ev D} (hs : fwEvent s e = .ok s') : Short 10000 s' := by
  rw [fwEvent] at hs
  obtain ⟨f, _, h2⟩ := bind_ok hs
  rw [← Outcome.ok.inj h2]
  exact short_fold (s := { s with fw := f }) h _

theorem short_reg {s s' : Sys D} (h : Short 10000 s) {e : Registry.Ev} (hs : regEvent s e = .ok s') : Short 10000 s' := by
  rw [regEvent] at hs
  obtain ⟨f, _, h2⟩ := bind_ok hs
  rw [← Outcome.ok.inj h2]
  exact h

theorem short_regAt {s s' : Sys D} (h : Short 10000 s) {k : RunKey} {e : Registry.Ev} (hs : regEventAt s k e = .ok s') : Short 10000 s' := by
  rw [regEventAt] at hs
  split at hs
  · exact short_reg h hs
  · cases hs

theorem short_step {s s' : Sys D} (h : Short 10000 s) {e : Node.Ev D} (hs : Node.step s e = .ok s') : Short 10000 s' := by
  cases e with
  | tick t => exact short_fw h hs
  | latch => exact short_fw h hs
  | net m => exact short_fw h hs
  | fwStep i => exact short_fw h hs
  | finish r => exact short_reg h hs
  | task i => exact short_reg h hs
  | launch k a => rw [Node.step] at hs; rw [← Outcome.ok.inj hs]; exact h
  | cons q =>
    rw [Node.step, consume] at hs
    split at hs
    · split at hs
      · cases hs
      · rename_i m ms hq
        rw [← Outcome.ok.inj hs]
        intro p
        show (update s.queues q ms p).length ≤ _
        rw [update]
        by_cases e : p = q
        · have := h q
          rw [hq, List.length_cons] at this
          rw [if_pos e]; omega
        · rw [if_neg e]; exact h p
    · split at hs
      · exact short_regAt (s := { s with cons := update s.cons q .idle }) h hs
      · exact short_regAt (s := { s with cons := update s.cons q (.found _) }) h hs
    · rw [← Outcome.ok.inj hs]; exact h
  | runner j =>
    rw [Node.step, runnerStep] at hs
    split at hs
    · cases hs
    · rename_i u _
      dsimp only at hs
      split at hs
      · refine short_regAt ?_ hs; exact h
      split at hs
      · refine short_fw ?_ hs; exact h
      split at hs
      · split at hs
        · rw [← Outcome.ok.inj hs]; exact h
        · cases hs
      split at hs
      · refine short_regAt ?_ hs; exact h
      split at hs
      · refine short_reg ?_ hs; exact h
      split at hs
      · refine short_fw ?_ hs; exact h
      split at hs
      · rw [sendSignal] at hs
        dsimp only at hs
        split at hs
        · split at hs
          · rename_i hq
            rw [← Outcome.ok.inj hs]
            exact fun p => short_put h _ _ hq p
          · cases hs
        · rw [← Outcome.ok.inj hs]
          refine short_receive ?_ _; exact h
      · cases hs

/-- Whatever happens at a node, an incoming queue of a protocol and a guest never holds more than 10000 messages. -/
theorem C114_queues_partial (h : List (Node.Ev D)) (s : Sys D) (hr : Node.run (make stages nil nprots guests du now) h = .ok s) (pc guest : Int) :
    (s.queues (pc, guest)).length ≤ 10000 := by
  have key : ∀ (es : List (Node.Ev D)) (a b : Sys D), Short 10000 a → Node.run a es = .ok b → Short 10000 b := by
    intro es
    induction es with
    | nil => intro a b ha e; rw [Node.run] at e; rw [← Outcome.ok.inj e]; exact ha
    | cons e es ih =>
      intro a b ha hb
      rw [Node.run] at hb
      obtain ⟨x, h1, h2⟩ := bind_ok hb
      exact ih x b (short_step ha h1) h2
  exact key h _ s (fun _ => Nat.zero_le _) hr (pc, guest)

/-- Whatever happens at a node, its firewall keeps at most 2048 messages of a run, each of them of that run, and only while
the run has an allowance that is between the time to buffer and the time to start. -/
theorem C114_firewall_partial (h : List (Node.Ev D)) (s : Sys D) (hr : Node.run (make stages nil nprots guests du now) h = .ok s) (k : RunKey)
    (b : List (Message D)) (hb : s.fw.buffer.get? k = some b) :
    b.length ≤ 2048 ∧ (∀ m ∈ b, (⟨m.pc, m.rcpt, m.runId⟩ : RunKey) = k) ∧ s.fw.state.get? k = some Firewall.buffering ∧
      ∃ a, s.fw.allowances.get? k = some a ∧ a.buf ≤ s.fw.now := by
  have i : Firewall.Inv s.fw := (Node.timely_run (Node.good_make k ..) (Node.timely_make ..) hr).fw
  obtain ⟨⟨n, c, ha, hk, hs⟩, h1, h2⟩ := i.buffered k b hb
  obtain ⟨h3, h4⟩ := i.act n c ha
  subst hk
  rw [hs] at h4
  exact ⟨h1, fun m hm => (h2 m hm).1, h4, c.allow, h3, (i.loaded n c ha.1).2.1 (by omega)⟩

end Nodes

/-! ## A run -/

/-- The messages that a run keeps. -/
def kept (r : Run D A U) : List (Message D) := (r.rcvbuf.map Prod.snd).flatten

/-- What the buffer of incoming messages contains. -/
structure Tidy (c : Conf D A U) (r : Run D A U) : Prop where
  keys : (GoMap.keys r.rcvbuf).Nodup
  ahead : ∀ n ∈ GoMap.keys r.rcvbuf, r.state < n ∧ n < c.stages.length

theorem keys_delete {V : Type} (m : GoMap Int V) (k n : Int) : n ∈ GoMap.keys (GoMap.delete m k) ↔ n ∈ GoMap.keys m ∧ n ≠ k := by
  rw [← GoMap.get?_isSome_iff, ← GoMap.get?_isSome_iff, GoMap.get?_delete]
  by_cases h : k = n
  · simp [h]
  · simp [h, Ne.symm h]

theorem keys_set {V : Type} (m : GoMap Int V) (k n : Int) (v : V) : n ∈ GoMap.keys (GoMap.set m k v) ↔ n = k ∨ n ∈ GoMap.keys m := by
  rw [← GoMap.get?_isSome_iff, ← GoMap.get?_isSome_iff, GoMap.get?_set]
  by_cases h : k = n
  · simp [h]
  · simp [h, Ne.symm h]

/-- The stage and the buffer of incoming messages are the same. -/
def Same (r r' : Run D A U) : Prop := r'.state = r.state ∧ r'.rcvbuf = r.rcvbuf

theorem Same.trans {a b c : Run D A U} (x : Same a b) (y : Same b c) : Same a c := ⟨y.1.trans x.1, y.2.trans x.2⟩

theorem same_send (c : Conf D A U) (r : Run D A U) (i op : Int) (d : D) : Same r (send c r i op d) := by
  rw [send]
  split <;> exact ⟨rfl, rfl⟩

theorem same_multicast (c : Conf D A U) (r : Run D A U) (is : List Int) (op : Int) (d : D) : Same r (multicast c r is op d) := by
  rw [multicast]
  induction is generalizing r with
  | nil => exact ⟨rfl, rfl⟩
  | cons i is ih =>
    rw [List.foldl_cons]
    refine Same.trans ?_ (ih _)
    rw [send1]
    split
    · exact same_send ..
    · exact ⟨rfl, rfl⟩

theorem same_acts (c : Conf D A U) (r : Run D A U) (as : List (Act D)) : Same r (doActs c r as) := by
  rw [doActs]
  induction as generalizing r with
  | nil => exact ⟨rfl, rfl⟩
  | cons a as ih =>
    rw [List.foldl_cons]
    refine Same.trans ?_ (ih _)
    cases a with
    | send i op d => exact same_send ..
    | broadcast op d => exact same_multicast ..
    | multicast is op d => exact same_multicast ..
    | abandon => exact ⟨rfl, rfl⟩

theorem same_process {c : Conf D A U} {r r' : Run D A U} {m : Message D} (h : processMsg c r m = .ok r') : Same r r' := by
  rw [processMsg] at h
  dsimp only at h
  repeat' split at h
  all_goals first
    | cases h; done
    | (rw [← Outcome.ok.inj h]; exact ⟨rfl, rfl⟩)
    | (obtain ⟨x, _, h2⟩ := bind_ok h
       rw [← Outcome.ok.inj h2]
       exact same_acts c _ _)

theorem same_processAll {c : Conf D A U} (ms : List (Message D)) {r r' : Run D A U} (h : processAll c r ms = .ok r') : Same r r' := by
  induction ms generalizing r with
  | nil => rw [processAll] at h; rw [← Outcome.ok.inj h]; exact ⟨rfl, rfl⟩
  | cons m ms ih =>
    rw [processAll] at h
    obtain ⟨x, h1, h2⟩ := bind_ok h
    exact (same_process h1).trans (ih h2)

theorem same_callStep {c : Conf D A U} {r r' : Run D A U} {s : Stage D A U} (h : callStep c r s = .ok r') : Same r r' := by
  rw [callStep] at h
  repeat' split at h
  · rw [← Outcome.ok.inj h]; exact ⟨rfl, rfl⟩
  · rw [← Outcome.ok.inj h]; exact ⟨rfl, rfl⟩
  · obtain ⟨x, _, h2⟩ := bind_ok h
    rw [← Outcome.ok.inj h2]
    exact same_acts c _ _

theorem tidy_enter {c : Conf D A U} {r r' : Run D A U} (t : Tidy c r) (h : enterStage c r = .ok r') : Tidy c r' := by
  rw [enterStage] at h
  dsimp only at h
  split at h
  · cases h
  · obtain ⟨r1, h1, h⟩ := bind_ok h
    obtain ⟨r2, h2, h⟩ := bind_ok h
    obtain ⟨e1, e2⟩ := (same_callStep h1).trans (same_processAll _ h2)
    rw [← Outcome.ok.inj h]
    refine ⟨?_, fun n hn => ?_⟩
    · show (GoMap.keys (GoMap.delete r2.rcvbuf (r.state + 1))).Nodup
      rw [e2]; exact GoMap.nodup_delete t.keys _
    · rw [show (_ : Run D A U).rcvbuf = GoMap.delete r2.rcvbuf (r.state + 1) from rfl, e2, keys_delete] at hn
      obtain ⟨h3, h4⟩ := t.ahead n hn.1
      refine ⟨?_, h4⟩
      show r2.state < n
      rw [e1]
      show r.state + 1 < n
      have := hn.2
      omega

theorem tidy_loopTop {c : Conf D A U} {r r' : Run D A U} (t : Tidy c r) (h : loopTop c r = .ok r') : Tidy c r' := by
  rw [loopTop] at h
  repeat' split at h
  · rw [← Outcome.ok.inj h]; exact ⟨t.keys, t.ahead⟩
  · exact tidy_enter t h
  · rw [← Outcome.ok.inj h]; exact ⟨t.keys, t.ahead⟩

theorem tidy_step {c : Conf D A U} {r r' : Run D A U} (t : Tidy c r) {e : Ev D}
    (hops : ∀ m, e = .msg m → m.op < c.stages.length) (hs : Prot.step c r e = .ok r') : Tidy c r' := by
  cases e with
  | tick n =>
    rw [Prot.step] at hs
    split at hs
    · rw [← Outcome.ok.inj hs]; exact ⟨t.keys, t.ahead⟩
    · cases hs
  | thread =>
    rw [Prot.step, thread] at hs
    split at hs
    · rw [← Outcome.ok.inj hs]; exact ⟨t.keys, t.ahead⟩
    · exact tidy_loopTop t hs
    · split at hs
      · exact tidy_loopTop t hs
      · cases hs
    · split at hs
      · refine tidy_enter (r := { r with paused := false }) ⟨t.keys, t.ahead⟩ hs
      · cases hs
    · cases hs
  | msg m =>
    rw [Prot.step, receive] at hs
    dsimp only at hs
    split at hs
    · rw [← Outcome.ok.inj hs]; exact ⟨t.keys, t.ahead⟩
    split at hs
    · rename_i hgt
      rw [← Outcome.ok.inj hs]
      refine ⟨GoMap.nodup_set t.keys _ _, fun n hn => ?_⟩
      rw [keys_set] at hn
      rcases hn with rfl | hn
      · exact ⟨hgt, hops m rfl⟩
      · exact t.ahead n hn
    · obtain ⟨e1, e2⟩ := same_process hs
      exact ⟨by rw [e2]; exact t.keys, fun n hn => by rw [e2] at hn; rw [e1]; exact t.ahead n hn⟩

theorem tidy_exec {c : Conf D A U} {h : List (Ev D)} {r r' : Run D A U} (t : Tidy c r)
    (hops : ∀ m ∈ Spec.Prot.msgs h, m.op < c.stages.length) (hs : Prot.exec c r h = .ok r') : Tidy c r' := by
  induction h generalizing r with
  | nil => rw [Prot.exec] at hs; rw [← Outcome.ok.inj hs]; exact t
  | cons e h ih =>
    rw [Prot.exec] at hs
    obtain ⟨x, h1, h2⟩ := bind_ok hs
    refine ih (tidy_step t (fun m he => ?_) h1) (fun m hm => ?_) h2
    · subst he; exact hops m List.mem_cons_self
    · cases e with
      | msg m' => exact hops m (List.mem_cons_of_mem _ hm)
      | _ => exact hops m hm

/-- A run keeps only messages for stages that it has not entered, and each at most once: those with the code of a later stage
that arrived, in the order in which they arrived. -/
theorem C114_ahead_partial (c : Conf D A U) (u : U) (t0 : Int) (h : List (Ev D)) (r : Run D A U)
    (hops : ∀ m ∈ Spec.Prot.msgs h, m.op < c.stages.length) (hr : Prot.exec c (newRun D A u t0) h = .ok r) (n : Int) (b : List (Message D))
    (hb : (n, b) ∈ r.rcvbuf) :
    r.state < n ∧ n < c.stages.length ∧ b.Sublist ((Spec.Prot.msgs h).filter fun m => decide (m.op = n)) := by
  have t : Tidy c r := tidy_exec (r := newRun D A u t0) ⟨List.nodup_nil, by simp [newRun, GoMap.keys]⟩ hops hr
  have a := agree_exec hr
  obtain ⟨h1, h2⟩ := t.ahead n (List.mem_map_of_mem (f := Prod.fst) hb)
  refine ⟨h1, h2, ?_⟩
  have h3 := a.inv.core.rcv n h1
  rw [(GoMap.mem_iff_get? t.keys n b).1 hb, Option.getD_some] at h3
  have h4 := (early_inTime_sublist a.inv.core.legal n).2
  rw [a.received] at h4
  rw [h3]
  exact (List.sublist_append_left _ _).trans h4

/-- A run that is over keeps no message, whatever was sent to it: the buffer of incoming messages is empty. -/
theorem C114_freed_partial (c : Conf D A U) (u : U) (t0 : Int) (h : List (Ev D)) (r : Run D A U)
    (hops : ∀ m ∈ Spec.Prot.msgs h, m.op < c.stages.length) (hr : Prot.exec c (newRun D A u t0) h = .ok r) (hd : r.phase = .done) :
    r.rcvbuf = [] := by
  have t : Tidy c r := tidy_exec (r := newRun D A u t0) ⟨List.nodup_nil, by simp [newRun, GoMap.keys]⟩ hops hr
  have hs := ((agree_exec hr).inv.done hd).1
  cases hb : r.rcvbuf with
  | nil => rfl
  | cons p l =>
    have := t.ahead p.1 (by rw [hb]; exact List.mem_cons_self)
    omega

/-! ## The program -/

section Programs
open Verif.Program Verif.Dto Verif.Dkg Verif.Tables
variable {K : Type}

/-- The program lets a message through to the i-th run, whose stage is before that of the message: its firewall is past the latch and forwards
the messages of the run, the run is registered, and the queue and its consumer have nothing to do. -/
structure Listens (s : Program.Sys K) (m : Message Dto) (i : Nat) (b : List (Message Dto)) : Prop where
  awake : s.node.fw.dropAll = false
  valid : Firewall.messageValid s.node.fw m = true
  forwards : s.node.fw.state.get? m.key = some Firewall.forwarding
  op : 0 ≤ m.op ∧ m.op < s.node.stages m.pc
  idle : s.node.cons (m.pc, m.rcpt) = .idle
  empty : s.node.queues (m.pc, m.rcpt) = []
  registered : s.node.reg.runs.get? m.key = some i
  objs : s.node.reg.objs.length = s.runs.length
  run : ∃ u, s.runs[i]? = some u ∧ u.state < m.op ∧ u.now ≤ s.node.fw.now ∧ (u.rcvbuf.get? m.op).getD [] = b

/-- The message arrives and the consumer deals with it. -/
def round (m : Message Dto) : List Program.Ev := [.net m, .cons (m.pc, m.rcpt), .cons (m.pc, m.rcpt), .cons (m.pc, m.rcpt)]

theorem update_same {α : Type} (f : Int × Int → α) (q : Int × Int) (v : α) : Node.update f q v q = v := if_pos rfl

theorem listens_round {c : Program.Cfg K} {s : Program.Sys K} {m : Message Dto} {i : Nat} {b : List (Message Dto)} (l : Listens s m i b) :
    ∃ s', Program.run c s (round m) = .ok s' ∧ Listens s' m i (b ++ [m]) := by
  obtain ⟨u, hu, hst, hnow, hb⟩ := l.run
  have hkv : Firewall.keyValid s.node.fw m.key = true := by rw [← Firewall.messageValid_eq]; exact l.valid
  have hpc : ¬ m.pc < 0 := by
    rw [Firewall.keyValid] at hkv
    simp only [Bool.and_eq_true, decide_eq_true_eq] at hkv
    exact Int.not_lt.2 hkv.1.1
  have hi : i < s.node.reg.objs.length := by
    rw [l.objs]; exact (List.getElem?_eq_some_iff.1 hu).1
  obtain ⟨o, ho⟩ : ∃ o, s.node.reg.objs[i]? = some o := ⟨_, List.getElem?_eq_getElem hi⟩
  -- the message arrives
  have hd : List.drop s.node.fw.out.length (s.node.fw.out ++ [m]) = [m] := List.drop_left
  have hfw : Firewall.process s.node.fw m = { s.node.fw with out := s.node.fw.out ++ [m] } := by
    rw [Firewall.process, if_neg (by rw [l.awake, l.valid]; decide), l.forwards]; rfl
  let n1 : Node.Sys Dto := { s.node with
    fw := { s.node.fw with out := s.node.fw.out ++ [m] }, queues := Node.update s.node.queues (m.pc, m.rcpt) [m] }
  have e1 : Program.step c s (.net m) = .ok { s with node := n1 } := by
    have : Node.step s.node (.net m) = .ok n1 := by
      rw [Node.step, Node.fwEvent, Firewall.step, hfw]
      show Outcome.ok (List.foldl Node.receiveMsg _ (List.drop s.node.fw.out.length (s.node.fw.out ++ [m]))) = _
      rw [hd, List.foldl_cons, List.foldl_nil, Node.receiveMsg]
      rw [if_neg (by simp only [Bool.not_eq_true', Bool.and_eq_false_iff, decide_eq_false_iff_not]; have := l.op; omega)]
      dsimp only
      rw [if_pos (by rw [l.empty]; decide), l.empty]
      rfl
    rw [Program.step, nodeEvent, this]
    show Outcome.ok _ = _
    congr 2
    show s.runs ++ (List.drop s.runs.length s.node.reg.objs).map _ = s.runs
    rw [← l.objs, List.drop_length, List.map_nil, List.append_nil]
  have quiet : ∀ (s1 : Program.Sys K) (n : Node.Sys Dto) (e : Node.Ev Dto), s1.runs.length = n.reg.objs.length → Node.step s1.node e = .ok n →
      nodeEvent c s1 e = .ok { s1 with node := n } := by
    intro s1 n e h1 h2
    rw [nodeEvent, h2]
    show Outcome.ok _ = _
    congr 2
    show s1.runs ++ (List.drop s1.runs.length n.reg.objs).map _ = s1.runs
    rw [h1, List.drop_length, List.map_nil, List.append_nil]
  -- the consumer takes it from the queue
  let n2 : Node.Sys Dto := { n1 with
    queues := Node.update n1.queues (m.pc, m.rcpt) [], cons := Node.update s.node.cons (m.pc, m.rcpt) (.got m) }
  have e2 : Program.step c { s with node := n1 } (.cons (m.pc, m.rcpt)) = .ok { s with node := n2 } := by
    rw [Program.step, consStep]
    have hc : n1.cons (m.pc, m.rcpt) = .idle := l.idle
    dsimp only
    rw [hc]
    refine quiet { s with node := n1 } n2 _ l.objs.symm ?_
    rw [Node.step, Node.consume]
    dsimp only
    rw [hc, show n1.queues (m.pc, m.rcpt) = [m] from update_same _ _ _]
  -- it finds the run
  let n3 : Node.Sys Dto := { n2 with cons := Node.update n2.cons (m.pc, m.rcpt) (.found m) }
  let s3 : Program.Sys K := { s with node := n3, found := Node.update s.found (m.pc, m.rcpt) i }
  have e3 : Program.step c { s with node := n2 } (.cons (m.pc, m.rcpt)) = .ok s3 := by
    rw [Program.step, consStep]
    have hc : n2.cons (m.pc, m.rcpt) = .got m := update_same _ _ _
    have h3 : Node.step n2 (.cons (m.pc, m.rcpt)) = .ok n3 := by
      rw [Node.step, Node.consume, hc]
      dsimp only
      rw [if_neg hpc, Node.regEventAt, if_pos (show Firewall.keyValid n1.fw m.key = true from hkv), Node.regEvent, Registry.step, Registry.ensure]
      rw [show (_ : Node.Sys Dto).reg.runs.get? m.key = some i from l.registered]
      rfl
    dsimp only
    rw [hc]
    dsimp only
    rw [quiet { s with node := n2 } n3 _ l.objs.symm h3]
    show Outcome.ok _ = _
    dsimp only
    rw [show n3.reg.runs.get? m.key = some i from l.registered]
    rfl
  -- and gives it to the run
  let u' : Run Dto Obj (Data K) := { u with now := s.node.fw.now, log := u.log ++ [.received m], rcvbuf := u.rcvbuf.set m.op (b ++ [m]) }
  let n4 : Node.Sys Dto := { n3 with cons := Node.update n3.cons (m.pc, m.rcpt) .idle }
  let s4 : Program.Sys K := { s3 with node := n4, runs := s.runs.set i u' }
  have e4 : Program.step c s3 (.cons (m.pc, m.rcpt)) = .ok s4 := by
    rw [Program.step, consStep]
    have hc : n3.cons (m.pc, m.rcpt) = .found m := update_same _ _ _
    have hx : ∀ cf : Conf Dto Obj (Data K), Prot.exec cf u [.tick s.node.fw.now, .msg m] = .ok u' := by
      intro cf
      rw [Prot.exec, Prot.step, if_pos hnow]
      show Prot.exec cf _ [.msg m] = _
      rw [Prot.exec, Prot.step, receive]
      dsimp only
      rw [if_neg (by
        simp only [Bool.or_eq_true, Bool.and_eq_true, decide_eq_true_eq, not_or, not_and]
        exact ⟨by omega, fun h => by omega⟩), if_pos hst, hb]
      rfl
    have hr : runEvent c s3 (s3.found (m.pc, m.rcpt)) (.msg m) = .ok { s3 with runs := s.runs.set i u' } := by
      rw [runEvent, show s3.found (m.pc, m.rcpt) = i from update_same _ _ _, show s3.runs[i]? = some u from hu,
        show s3.node.reg.objs[i]? = some o from ho]
      dsimp only
      rw [show s3.node.fw.now = s.node.fw.now from rfl, hx]
      show pushAll s.outs o.key (List.drop u.user.out.length u.user.out) >>= _ = _
      rw [List.drop_length]
      rfl
    rw [show s3.node.cons (m.pc, m.rcpt) = .found m from hc]
    dsimp only
    rw [hr]
    refine quiet { s3 with runs := s.runs.set i u' } n4 _ ((List.length_set ..).trans l.objs.symm) ?_
    rw [Node.step, Node.consume]
    dsimp only
    rw [show s3.node.cons (m.pc, m.rcpt) = .found m from hc]
  refine ⟨s4, ?_, l.awake, l.valid, l.forwards, l.op, update_same _ _ _, update_same _ _ _, l.registered, l.objs.trans (List.length_set ..).symm, u', ?_,
    hst, Int.le_refl _, ?_⟩
  · rw [round, Program.run, e1]
    show Program.run c { s with node := n1 } _ = _
    rw [Program.run, e2]
    show Program.run c { s with node := n2 } _ = _
    rw [Program.run, e3]
    show Program.run c s3 _ = _
    rw [Program.run, e4]
    rfl
  · exact List.getElem?_set_self (by rw [← l.objs]; exact hi)
  · show ((u.rcvbuf.set m.op (b ++ [m])).get? m.op).getD [] = _
    rw [GoMap.get?_set, if_pos rfl]; rfl

theorem run_append (c : Program.Cfg K) (s : Program.Sys K) (h g : List Program.Ev) :
    Program.run c s (h ++ g) = Program.run c s h >>= fun s' => Program.run c s' g := by
  induction h generalizing s with
  | nil => rfl
  | cons e h ih =>
    rw [List.cons_append, Program.run, Program.run]
    cases Program.step c s e with
    | ok s' => exact ih s'
    | err => rfl
    | panic => rfl

/-- C114 fails: nothing limits what a run keeps. As long as the firewall forwards the messages of a run, anybody who can send to the node makes
the run keep as many copies as they like of a message for a stage that the run has not entered; the sender that the message names need not be a
member, and nothing is asked of its contents. -/
theorem C114_counterexample (c : Program.Cfg K) (s : Program.Sys K) (m : Message Dto) (i : Nat) (b : List (Message Dto)) (l : Listens s m i b)
    (n : Nat) : ∃ s' u, Program.run c s ((List.replicate n (round m)).flatten) = .ok s' ∧ s'.runs[i]? = some u ∧
      (u.rcvbuf.get? m.op).getD [] = b ++ List.replicate n m := by
  induction n generalizing s b with
  | zero =>
    obtain ⟨u, h1, _, _, h2⟩ := l.run
    exact ⟨s, u, rfl, h1, by rw [h2, List.replicate_zero, List.append_nil]⟩
  | succ n ih =>
    obtain ⟨s1, h1, l1⟩ := listens_round (c := c) l
    obtain ⟨s', u, h2, h3, h4⟩ := ih s1 (b ++ [m]) l1
    refine ⟨s', u, ?_, h3, by rw [h4, List.replicate_succ, List.append_assoc]; rfl⟩
    rw [List.replicate_succ, List.flatten_cons, run_append, h1]
    exact h2

end Programs

end Verif.Props.Memory
