import Verif.Spec.Noise
import Verif.Proofs.Plausible

/-!
Property C106: messages that fail the checks of `_process_msg` make no difference to a run.
-/
namespace Verif.Props.Noise
open Verif.Prot Verif.Spec.Prot Verif.Spec.Noise Verif.Dkg Verif.Dto Verif.Dss Verif.Spec.Generation
variable {D A U : Type}

/-- Two runs that differ only in junk. -/
def Same (junk : Message D → Prop) (r r' : Run D A U) : Prop :=
  ∃ b : GoMap Int (List (Message D)), r' = { r with rcvbuf := b, log := deeds junk r.log } ∧
    ∀ k, open Classical in (b.get? k).getD [] = ((r.rcvbuf.get? k).getD []).filter fun m => decide (¬ junk m)

variable {junk : Message D → Prop} {c : Conf D A U}

theorem deeds_append (l l' : List (Entry D A)) : deeds junk (l ++ l') = deeds junk l ++ deeds junk l' := by
  unfold deeds; rw [List.filter_append]

theorem deeds_received {m : Message D} : deeds junk [(.received m : Entry D A)] = open Classical in if junk m then [] else [.received m] := by
  classical
  by_cases h : junk m <;> simp [deeds, h]

theorem deeds_handled {m : Message D} : deeds junk [(.handled m : Entry D A)] = open Classical in if junk m then [] else [.handled m] := by
  classical
  by_cases h : junk m <;> simp [deeds, h]

theorem deeds_sents (ms : List (Message D)) : deeds junk (ms.map (.sent : Message D → Entry D A)) = ms.map .sent := by
  classical
  unfold deeds
  rw [List.filter_eq_self]
  intro e he
  obtain ⟨m, _, rfl⟩ := List.mem_map.1 he
  rfl

theorem same_send {r r' : Run D A U} (h : Same junk r r') (i op : Int) (d : D) : Same junk (send c r i op d) (send c r' i op d) := by
  obtain ⟨b, rfl, hb⟩ := h
  unfold send
  dsimp only
  split <;> exact ⟨b, by dsimp only; rw [deeds_append]; rfl, hb⟩

theorem same_multicast {is : List Int} : ∀ {r r' : Run D A U} (_ : Same junk r r') (op : Int) (d : D),
    Same junk (multicast c r is op d) (multicast c r' is op d) := by
  induction is with
  | nil => exact fun h _ _ => h
  | cons i is ih =>
    intro r r' h op d
    refine ih (r := send1 c r i op d) (r' := send1 c r' i op d) ?_ op d
    unfold send1
    by_cases hi : i ≠ c.self
    · rw [if_pos hi, if_pos hi]; exact same_send h i op d
    · rw [if_neg hi, if_neg hi]; exact h

theorem same_act {r r' : Run D A U} (h : Same junk r r') : ∀ a : Act D, Same junk (doAct c r a) (doAct c r' a)
  | .send i op d => same_send h i op d
  | .broadcast op d => same_multicast h op d
  | .multicast _ op d => same_multicast h op d
  | .abandon => by
    obtain ⟨b, rfl, hb⟩ := h
    exact ⟨b, by unfold doAct; dsimp only; rw [deeds_append]; rfl, hb⟩

theorem same_acts {as : List (Act D)} : ∀ {r r' : Run D A U} (_ : Same junk r r'), Same junk (doActs c r as) (doActs c r' as) := by
  induction as with
  | nil => exact fun h => h
  | cons a as ih => exact fun h => ih (same_act h a)

/-- A message that fails the checks is only noted. -/
theorem junk_process {r r1 : Run D A U} {m : Message D} (hm : ¬ ∃ a, Accepts c m a) (h : processMsg c r m = .ok r1) :
    r1 = { r with log := r.log ++ [.handled m] } := by
  unfold processMsg at h
  dsimp only at h
  by_cases hab : r.abandon = true
  · rw [if_pos hab] at h; exact (Outcome.ok.inj h).symm
  rw [if_neg hab] at h
  cases hs : c.stage? m.op with
  | none => rw [hs] at h; cases h
  | some st =>
    rw [hs] at h
    dsimp only at h
    cases hp : st.proc with
    | none => rw [hp] at h; exact (Outcome.ok.inj h).symm
    | some f =>
      rw [hp] at h
      dsimp only at h
      cases ht : st.typeOk m.dto with
      | false => rw [ht] at h; exact (Outcome.ok.inj h).symm
      | true =>
        rw [ht] at h
        rw [if_neg (by decide)] at h
        cases hu : st.unmarshal m.dto with
        | panic => rw [hu] at h; cases h
        | err => rw [hu] at h; exact (Outcome.ok.inj h).symm
        | ok a =>
          rw [hu] at h
          dsimp only at h
          by_cases hse : 0 ≤ m.sender ∧ m.sender < c.members
          · rw [if_neg (by simp [hse])] at h
            cases hv : st.senderValid a m.sender with
            | panic => rw [hv] at h; cases h
            | err => rw [hv] at h; cases h
            | ok b =>
              rw [hv] at h
              cases b with
              | false => exact (Outcome.ok.inj h).symm
              | true =>
                obtain ⟨h0, h1⟩ := Verif.Prot.stage?_some hs
                exact absurd ⟨a, st, h1, h0, by rw [hp]; rfl, ht, hu, hse.1, hse.2, hv⟩ hm
          · rw [if_pos (by simp only [Bool.not_eq_true', Bool.and_eq_false_iff, decide_eq_false_iff_not]; tauto)] at h
            exact (Outcome.ok.inj h).symm

theorem same_noted {r r' : Run D A U} (h : Same junk r r') {l : List (Entry D A)} :
    Same junk { r with log := r.log ++ l } { r' with log := r'.log ++ deeds junk l } := by
  obtain ⟨b, rfl, hb⟩ := h
  exact ⟨b, by dsimp only; rw [deeds_append], hb⟩

theorem same_user {r r' : Run D A U} (h : Same junk r r') (u : U) : Same junk { r with user := u } { r' with user := u } := by
  obtain ⟨b, rfl, hb⟩ := h
  exact ⟨b, rfl, hb⟩

theorem same_buf {r r' : Run D A U} (h : Same junk r r') (k : Int) :
    open Classical in (r'.rcvbuf.get? k).getD [] = ((r.rcvbuf.get? k).getD []).filter fun m => decide (¬ junk m) := by
  obtain ⟨b, rfl, hb⟩ := h; exact hb k

/-- Any other has the same effect on both. -/
theorem same_process {r r' r1 : Run D A U} (hs : Same junk r r') {m : Message D} (hm : ¬ junk m) (h : processMsg c r m = .ok r1) :
    ∃ r1', processMsg c r' m = .ok r1' ∧ Same junk r1 r1' := by
  have h0 := same_noted hs (l := [.handled m])
  rw [deeds_handled, if_neg hm] at h0
  obtain ⟨b, rfl, hb⟩ := hs
  unfold processMsg at h ⊢
  dsimp only at h ⊢ h0
  by_cases hab : r.abandon = true
  · rw [if_pos hab] at h ⊢; exact ⟨_, rfl, Outcome.ok.inj h ▸ h0⟩
  rw [if_neg hab] at h ⊢
  cases hst : c.stage? m.op with
  | none => rw [hst] at h; cases h
  | some st =>
    rw [hst] at h
    dsimp only at h ⊢
    cases hp : st.proc with
    | none => rw [hp] at h; exact ⟨_, rfl, Outcome.ok.inj h ▸ h0⟩
    | some f =>
      rw [hp] at h
      dsimp only at h ⊢
      cases ht : st.typeOk m.dto with
      | false => rw [ht] at h; exact ⟨_, rfl, Outcome.ok.inj h ▸ h0⟩
      | true =>
        rw [ht] at h
        rw [if_neg (by decide)] at h
        rw [if_neg (by decide)]
        cases hu : st.unmarshal m.dto with
        | panic => rw [hu] at h; cases h
        | err => rw [hu] at h; exact ⟨_, rfl, Outcome.ok.inj h ▸ h0⟩
        | ok a =>
          rw [hu] at h
          dsimp only at h ⊢
          by_cases hse : (!(decide (0 ≤ m.sender) && decide (m.sender < c.members))) = true
          · rw [if_pos hse] at h ⊢; exact ⟨_, rfl, Outcome.ok.inj h ▸ h0⟩
          · rw [if_neg hse] at h ⊢
            cases hv : st.senderValid a m.sender with
            | panic => rw [hv] at h; cases h
            | err => rw [hv] at h; cases h
            | ok b =>
              rw [hv] at h
              cases b with
              | false => exact ⟨_, rfl, Outcome.ok.inj h ▸ h0⟩
              | true =>
                dsimp only at h ⊢
                have h1 := same_noted h0 (l := [.invoked m a])
                cases hf : f r.user a with
                | ok x =>
                  rw [hf] at h
                  obtain ⟨u, as⟩ := x
                  exact ⟨_, rfl, Outcome.ok.inj h ▸ same_acts (same_user h1 u)⟩
                | err => rw [hf] at h; cases h
                | panic => rw [hf] at h; cases h

theorem same_all (hj : ∀ m, junk m → ¬ ∃ a, Accepts c m a) : ∀ (ms : List (Message D)) {r r' r1 : Run D A U} (_ : Same junk r r')
    (_ : processAll c r ms = .ok r1),
    ∃ r1', processAll c r' (open Classical in ms.filter fun m => decide (¬ junk m)) = .ok r1' ∧ Same junk r1 r1' := by
  classical
  intro ms
  induction ms with
  | nil =>
    intro r r' r1 hs h
    exact ⟨r', rfl, Outcome.ok.inj h ▸ hs⟩
  | cons m ms ih =>
    intro r r' r1 hs h
    rw [processAll] at h
    cases h1 : processMsg c r m with
    | err => rw [h1] at h; cases h
    | panic => rw [h1] at h; cases h
    | ok r2 =>
      rw [h1] at h
      have h : processAll c r2 ms = .ok r1 := h
      by_cases hm : junk m
      · rw [List.filter_cons_of_neg (by simp [hm])]
        obtain rfl := junk_process (hj m hm) h1
        refine ih ?_ h
        have := same_noted hs (l := [.handled m])
        rw [deeds_handled, if_pos hm, List.append_nil] at this
        exact this
      · rw [List.filter_cons_of_pos (by simp [hm])]
        obtain ⟨r2', h3, h4⟩ := same_process hs hm h1
        obtain ⟨r1', h5, h6⟩ := ih h4 h
        exact ⟨r1', by rw [processAll, h3]; exact h5, h6⟩

theorem same_call {r r' r1 : Run D A U} (hs : Same junk r r') {st : Stage D A U} (h : callStep c r st = .ok r1) :
    ∃ r1', callStep c r' st = .ok r1' ∧ Same junk r1 r1' := by
  have hs' := hs
  obtain ⟨b, rfl, hb⟩ := hs
  unfold callStep at h ⊢
  dsimp only at h ⊢
  by_cases hab : r.abandon = true
  · rw [if_pos hab] at h ⊢; exact ⟨_, rfl, Outcome.ok.inj h ▸ hs'⟩
  rw [if_neg hab] at h ⊢
  cases hp : st.step with
  | none => rw [hp] at h; exact ⟨_, rfl, Outcome.ok.inj h ▸ hs'⟩
  | some f =>
    rw [hp] at h
    dsimp only at h ⊢
    have h1 := same_noted hs' (l := [.stepped r.state])
    cases hf : f r.user with
    | ok x =>
      rw [hf] at h
      obtain ⟨u, as⟩ := x
      exact ⟨_, rfl, Outcome.ok.inj h ▸ same_acts (same_user h1 u)⟩
    | err => rw [hf] at h; cases h
    | panic => rw [hf] at h; cases h

theorem same_enter (hj : ∀ m, junk m → ¬ ∃ a, Accepts c m a) {r r' r1 : Run D A U} (hs : Same junk r r') (h : enterStage c r = .ok r1) :
    ∃ r1', enterStage c r' = .ok r1' ∧ Same junk r1 r1' := by
  classical
  obtain ⟨b, rfl, hb⟩ := hs
  unfold enterStage at h ⊢
  dsimp only at h ⊢
  cases hst : c.stage? (r.state + 1) with
  | none => rw [hst] at h; cases h
  | some st =>
    rw [hst] at h
    dsimp only at h ⊢
    generalize hr0 : flushSndBuf { r with state := r.state + 1, deadline := r.deadline + st.timeout, log := r.log ++ [.entered (r.state + 1)] } = r0 at h
    generalize hr0' : flushSndBuf _ = r0'
    have h0 : Same junk r0 r0' := by
      rw [← hr0, ← hr0']
      refine ⟨b, ?_, hb⟩
      unfold flushSndBuf
      dsimp only
      rw [deeds_append, deeds_append, deeds_sents]; rfl
    cases h1 : callStep c r0 st with
    | err => rw [h1] at h; cases h
    | panic => rw [h1] at h; cases h
    | ok r2 =>
      rw [h1] at h
      obtain ⟨r2', h2, h3⟩ := same_call h0 h1
      rw [h2]
      have h : (processAll c r2 ((r2.rcvbuf.get? (r.state + 1)).getD []) >>= fun r3 =>
        pure { r3 with rcvbuf := r3.rcvbuf.delete (r.state + 1), phase := .staged }) = .ok r1 := h
      show ∃ r1', (processAll c r2' ((r2'.rcvbuf.get? (r.state + 1)).getD []) >>= fun r3 =>
        pure { r3 with rcvbuf := r3.rcvbuf.delete (r.state + 1), phase := .staged }) = .ok r1' ∧ _
      cases h4 : processAll c r2 ((r2.rcvbuf.get? (r.state + 1)).getD []) with
      | err => rw [h4] at h; cases h
      | panic => rw [h4] at h; cases h
      | ok r3 =>
        rw [h4] at h
        obtain ⟨r3', h5, b', rfl, h6⟩ := same_all hj _ h3 h4
        rw [same_buf h3, h5]
        refine ⟨_, rfl, b'.delete (r.state + 1), ?_, fun k => ?_⟩
        · obtain rfl := Outcome.ok.inj h; rfl
        · obtain rfl := Outcome.ok.inj h
          show _ = (((GoMap.delete r3.rcvbuf (r.state + 1)).get? k).getD []).filter _
          rw [GoMap.get?_delete, GoMap.get?_delete]
          by_cases hk : r.state + 1 = k
          · rw [if_pos hk, if_pos hk]; rfl
          · rw [if_neg hk, if_neg hk]; exact h6 k

theorem same_top (hj : ∀ m, junk m → ¬ ∃ a, Accepts c m a) {r r' r1 : Run D A U} (hs : Same junk r r') (h : loopTop c r = .ok r1) :
    ∃ r1', loopTop c r' = .ok r1' ∧ Same junk r1 r1' := by
  have hs' := hs
  obtain ⟨b, rfl, hb⟩ := hs
  unfold loopTop at h ⊢
  dsimp only
  split at h
  · rename_i h1
    rw [if_pos h1]
    split at h
    · rename_i h2
      rw [if_pos h2]
      refine ⟨_, rfl, b, ?_, ?_⟩
      · obtain rfl := Outcome.ok.inj h
        dsimp only
        rw [deeds_append]; rfl
      · obtain rfl := Outcome.ok.inj h; exact hb
    · rename_i h2
      rw [if_neg h2]
      exact same_enter hj hs' h
  · rename_i h1
    rw [if_neg h1]
    refine ⟨_, rfl, b, ?_, ?_⟩
    · obtain rfl := Outcome.ok.inj h
      dsimp only
      rw [deeds_append]; rfl
    · obtain rfl := Outcome.ok.inj h; exact hb

theorem same_thread (hj : ∀ m, junk m → ¬ ∃ a, Accepts c m a) {r r' r1 : Run D A U} (hs : Same junk r r') (h : thread c r = .ok r1) :
    ∃ r1', thread c r' = .ok r1' ∧ Same junk r1 r1' := by
  have hs' := hs
  obtain ⟨b, rfl, hb⟩ := hs
  unfold thread at h ⊢
  dsimp only
  cases hp : r.phase with
  | fresh =>
    rw [hp] at h
    refine ⟨_, rfl, b, ?_, ?_⟩
    · obtain rfl := Outcome.ok.inj h; rfl
    · obtain rfl := Outcome.ok.inj h; exact hb
  | started => rw [hp] at h; exact same_top hj (by rw [hp] at hs'; exact hs') h
  | staged =>
    rw [hp] at h
    dsimp only at h ⊢
    split at h
    · rename_i h1; rw [if_pos h1]; exact same_top hj (by rw [hp] at hs'; exact hs') h
    · cases h
  | pausing =>
    rw [hp] at h
    dsimp only at h ⊢
    split at h
    · rename_i h1
      rw [if_pos h1]
      exact same_enter hj (r := { r with paused := false, phase := .pausing }) ⟨b, rfl, hb⟩ h
    · cases h
  | done => rw [hp] at h; cases h

theorem same_receive {r r' r1 : Run D A U} (hs : Same junk r r') {m : Message D} (hm : ¬ junk m) (h : receive c r m = .ok r1) :
    ∃ r1', receive c r' m = .ok r1' ∧ Same junk r1 r1' := by
  classical
  have h0 := same_noted hs (l := [.received m])
  rw [deeds_received, if_neg hm] at h0
  obtain ⟨b, rfl, hb⟩ := hs
  unfold receive at h ⊢
  dsimp only at h ⊢ h0
  split at h
  · rename_i h1
    rw [if_pos h1]
    exact ⟨_, rfl, Outcome.ok.inj h ▸ h0⟩
  · rename_i h1
    rw [if_neg h1]
    split at h
    · rename_i h2
      rw [if_pos h2]
      refine ⟨_, rfl, b.set m.op ((b.get? m.op).getD [] ++ [m]), ?_, fun k => ?_⟩
      · obtain rfl := Outcome.ok.inj h
        dsimp only
        rw [deeds_append, deeds_received, if_neg hm]
      · obtain rfl := Outcome.ok.inj h
        show _ = (((GoMap.set r.rcvbuf m.op _).get? k).getD []).filter _
        rw [GoMap.get?_set, GoMap.get?_set]
        by_cases hk : m.op = k
        · rw [if_pos hk, if_pos hk]
          show _ ++ _ = (_ ++ _ : List _).filter _
          rw [List.filter_append, hb, List.filter_cons_of_pos (by simp [hm])]; rfl
        · rw [if_neg hk, if_neg hk]; exact hb k
    · rename_i h2
      rw [if_neg h2]
      exact same_process h0 hm h

theorem junk_receive {r r' r1 : Run D A U} (hs : Same junk r r') {m : Message D} (hm : junk m) (ha : ¬ ∃ a, Accepts c m a) (h : receive c r m = .ok r1) :
    Same junk r1 r' := by
  classical
  have h0 := same_noted hs (l := [.received m])
  rw [deeds_received, if_pos hm, List.append_nil] at h0
  unfold receive at h
  dsimp only at h
  split at h
  · exact Outcome.ok.inj h ▸ h0
  · split at h
    · obtain rfl := Outcome.ok.inj h
      obtain ⟨b, e, hb⟩ := h0
      refine ⟨b, e, fun k => ?_⟩
      show _ = (((GoMap.set r.rcvbuf m.op _).get? k).getD []).filter _
      rw [GoMap.get?_set]
      by_cases hk : m.op = k
      · rw [if_pos hk, ← hk]
        show _ = (_ ++ _ : List _).filter _
        rw [List.filter_append, hb, List.filter_cons_of_neg (by simp [hm])]; simp
      · rw [if_neg hk]; exact hb k
    · obtain rfl := junk_process ha h
      have := same_noted h0 (l := [.handled m])
      rw [deeds_handled, if_pos hm, List.append_nil] at this
      exact this

theorem same_exec (hj : ∀ m, junk m → ¬ ∃ a, Accepts c m a) : ∀ (h : List (Ev D)) {r r' r1 : Run D A U} (_ : Same junk r r') (_ : exec c r h = .ok r1),
    ∃ r1', exec c r' (without junk h) = .ok r1' ∧ Same junk r1 r1' := by
  classical
  intro h
  induction h with
  | nil =>
    intro r r' r1 hs h
    exact ⟨r', rfl, Outcome.ok.inj h ▸ hs⟩
  | cons e h ih =>
    intro r r' r1 hs hx
    rw [exec] at hx
    cases h1 : Prot.step c r e with
    | err => rw [h1] at hx; cases hx
    | panic => rw [h1] at hx; cases hx
    | ok r2 =>
      rw [h1] at hx
      have hx : exec c r2 h = .ok r1 := hx
      have go : (∃ r2', Prot.step c r' e = .ok r2' ∧ Same junk r2 r2') → without junk (e :: h) = e :: without junk h →
          ∃ r1', exec c r' (without junk (e :: h)) = .ok r1' ∧ Same junk r1 r1' := by
        rintro ⟨r2', h2, h3⟩ he
        obtain ⟨r1', h4, h5⟩ := ih h3 hx
        exact ⟨r1', by rw [he, exec, h2]; exact h4, h5⟩
      cases e with
      | tick t =>
        refine go ?_ (by unfold without; rw [List.filter_cons_of_pos rfl])
        obtain ⟨b, rfl, hb⟩ := hs
        unfold Prot.step at h1 ⊢
        dsimp only at h1 ⊢
        split at h1
        · rename_i ht
          rw [if_pos ht]
          obtain rfl := Outcome.ok.inj h1
          exact ⟨_, rfl, b, rfl, hb⟩
        · cases h1
      | thread => exact go (same_thread hj hs h1) (by unfold without; rw [List.filter_cons_of_pos rfl])
      | msg m =>
        by_cases hm : junk m
        · have he : without junk (.msg m :: h) = without junk h := by unfold without; rw [List.filter_cons_of_neg (by simp [hm])]
          rw [he]
          exact ih (junk_receive hs hm (hj m hm) h1) hx
        · exact go (same_receive hs hm h1) (by unfold without; rw [List.filter_cons_of_pos (by simp [hm])])

/-- C106 (any protocol). Take any messages away from the history of a run that fail the checks of `_process_msg` in it. Then it goes through
the same stages at the same times, calls the same steps and processors, sends the same messages in the same order and has the same data in the end. -/
theorem C106_erased (hj : ∀ m, junk m → ¬ ∃ a, Accepts c m a) (u : U) (t0 : Int) (h : List (Ev D)) (r : Run D A U)
    (hr : exec c (newRun D A u t0) h = .ok r) :
    ∃ r', exec c (newRun D A u t0) (without junk h) = .ok r' ∧ r'.log = deeds junk r.log ∧ r'.user = r.user ∧ r'.state = r.state ∧ r'.phase = r.phase ∧
      r'.abandon = r.abandon ∧ r'.now = r.now := by
  obtain ⟨r', h1, b, rfl, _⟩ := same_exec hj h (r' := newRun D A u t0) ⟨[], rfl, fun _ => rfl⟩ hr
  exact ⟨_, h1, rfl, rfl, rfl, rfl, rfl, rfl⟩

/-- C106 (the checks). The messages that get to a processor in a key generation are the plausible ones, and the same in a signing run. -/
theorem C106_checks {K : Type} (y : Kyb K) (H : List UInt8 → List UInt8) (SH : Share → List UInt8) (env : Env) (id : String) (i n : Nat) (m : Message Dto) :
    ((∃ a, Accepts (dkgConf y id i n) m a) ↔ Plausible n m ∧ m.op ≤ 8) ∧ ((∃ a, Accepts (dssConf y H SH env id i n) m a) ↔ Plausible n m) :=
  ⟨Generation.dkg_accepts, Generation.dss_accepts⟩

/-- C106 (signing). So messages that are not plausible make no difference to a signing run, nor to a key generation, unless they crash the process (C60). -/
theorem C106_noise {K : Type} (y : Kyb K) (c : Conf Dto Obj (Data K)) (id : String) (i n : Nat) (hc : Runs c y id i n) (k : K) (t0 : Int)
    (h : List (Ev Dto)) (r : Run Dto Obj (Data K)) (hr : exec c (newRun Dto Obj (newData k) t0) h = .ok r) :
    ∃ r', exec c (newRun Dto Obj (newData k) t0) (without (fun m => ¬ Plausible n m) h) = .ok r' ∧ r'.user.out = r.user.out ∧
      r'.abandon = r.abandon ∧ ∀ m, .sent m ∈ r'.log ↔ .sent m ∈ r.log := by
  classical
  obtain ⟨r', h1, h2, h3, _, _, h4, _⟩ := C106_erased (junk := fun m => ¬ Plausible n m) (fun m hm ha => by
    rcases hc with rfl | ⟨H, SH, env, rfl⟩
    · exact hm (Generation.dkg_accepts.1 ha).1
    · exact hm (Generation.dss_accepts.1 ha)) _ t0 h r hr
  refine ⟨r', h1, by rw [h3], h4, fun m => ?_⟩
  rw [h2]
  unfold deeds
  rw [List.mem_filter]
  simp

end Verif.Props.Noise
