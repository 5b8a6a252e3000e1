import Verif.Proofs.ProtSent

/-! When the messages of the key generation are sent. -/
namespace Verif.Prot
open Verif.Spec.Prot
variable {D A U : Type} {c : Conf D A U}

/-- A step sends nothing for an earlier stage, and a processor nothing for its own stage or an earlier one. -/
def Ahead (n : Int) (s : Stage D A U) : Prop :=
  (∀ f, s.step = some f → ∀ u u' as, f u = .ok (u', as) → ∀ a ∈ as, ActOk (fun op _ => n ≤ op) a) ∧
  (∀ f, s.proc = some f → ∀ u x u' as, f u x = .ok (u', as) → ∀ a ∈ as, ActOk (fun op _ => n < op) a)

theorem requests_quiet {n : Int} {l l' : List (Entry D A)} (h : ∀ x ∈ l', ∀ m, x ≠ .request m) : requestsOf n (l ++ l') = requestsOf n l := by
  induction l' using List.reverseRecOn with
  | nil => rw [List.append_nil]
  | append_singleton l' x ih =>
    rw [← List.append_assoc, requestsOf_snoc, ih fun x hx => h x (List.mem_append_left _ hx)]
    have := h x (List.mem_append_right _ (List.mem_singleton.2 rfl))
    cases x with
    | request m => exact absurd rfl (this m)
    | _ => exact List.append_nil _

theorem multicast_rcvbuf (is : List Int) (r : Run D A U) (op : Int) (d : D) : (multicast c r is op d).rcvbuf = r.rcvbuf := by
  rw [multicast]
  induction is generalizing r with
  | nil => rfl
  | cons i is ih =>
    rw [List.foldl_cons, ih, send1, send]
    by_cases hi : i ≠ c.self
    · rw [if_pos hi]; split <;> rfl
    · rw [if_neg hi]

theorem doActs_rcvbuf (as : List (Act D)) (r : Run D A U) : (doActs c r as).rcvbuf = r.rcvbuf := by
  rw [doActs]
  induction as generalizing r with
  | nil => rfl
  | cons a as ih =>
    rw [List.foldl_cons, ih]
    cases a with
    | send i op d => rw [doAct, send]; split <;> rfl
    | broadcast op d => exact multicast_rcvbuf _ _ _ _
    | multicast is op d => exact multicast_rcvbuf _ _ _ _
    | abandon => rfl

theorem send_requests {r : Run D A U} {i op n : Int} {d : D} (h : n ≠ op) : requestsOf n (send c r i op d).log = requestsOf n r.log := by
  have hop : (makeMsg c i op d).op = op := rfl
  rw [send]
  by_cases hs : op > r.state
  · rw [if_pos hs]
    dsimp only
    rw [requestsOf_snoc]
    dsimp only
    rw [hop, if_neg (fun e => h e.symm), List.append_nil]
  · rw [if_neg hs]
    show requestsOf n (r.log ++ ([.request (makeMsg c i op d)] ++ [.sent (makeMsg c i op d)])) = _
    rw [← List.append_assoc, requestsOf_snoc, requestsOf_snoc]
    dsimp only
    rw [hop, if_neg (fun e => h e.symm), List.append_nil, List.append_nil]

theorem multicast_requests (is : List Int) {r : Run D A U} {op n : Int} {d : D} (h : n ≠ op) :
    requestsOf n (multicast c r is op d).log = requestsOf n r.log := by
  rw [multicast]
  induction is generalizing r with
  | nil => rfl
  | cons i is ih =>
    rw [List.foldl_cons, ih, send1]
    by_cases hi : i ≠ c.self
    · rw [if_pos hi, send_requests h]
    · rw [if_neg hi]

theorem doActs_requests {n : Int} (as : List (Act D)) {r : Run D A U} (h : ∀ a ∈ as, ActOk (fun op _ => n < op) a) :
    requestsOf n (doActs c r as).log = requestsOf n r.log := by
  rw [doActs]
  induction as generalizing r with
  | nil => rfl
  | cons a as ih =>
    rw [List.foldl_cons, ih fun a ha => h a (List.mem_cons_of_mem _ ha)]
    have ha := h a (List.mem_cons_self ..)
    cases a with
    | send i op d => exact send_requests (Int.ne_of_lt ha)
    | broadcast op d => exact multicast_requests _ (Int.ne_of_lt ha)
    | multicast is op d => exact multicast_requests _ (Int.ne_of_lt ha)
    | abandon =>
      rw [doAct]
      dsimp only
      rw [requestsOf_snoc, List.append_nil]

theorem processMsg_requests (hc : ∀ n s, c.stage? n = some s → Ahead n s) {r r' : Run D A U} {m : Message D} {n : Int} (hn : n ≤ m.op)
    (h : processMsg c r m = .ok r') : requestsOf n r'.log = requestsOf n r.log := by
  have h1 : requestsOf n (r.log ++ [.handled m]) = requestsOf n r.log := by rw [requestsOf_snoc, List.append_nil]
  rw [processMsg] at h
  dsimp only at h
  by_cases ha : r.abandon = true
  · rw [if_pos ha] at h; rw [← Outcome.ok.inj h]; exact h1
  rw [if_neg ha] at h
  cases hs : c.stage? m.op with
  | none => rw [hs] at h; cases h
  | some s =>
  rw [hs] at h
  dsimp only at h
  cases hpr : s.proc with
  | none => rw [hpr] at h; rw [← Outcome.ok.inj h]; exact h1
  | some proc =>
  rw [hpr] at h
  dsimp only at h
  by_cases ht : (!s.typeOk m.dto) = true
  · rw [if_pos ht] at h; rw [← Outcome.ok.inj h]; exact h1
  rw [if_neg ht] at h
  cases hu : s.unmarshal m.dto with
  | panic => rw [hu] at h; cases h
  | err => rw [hu] at h; rw [← Outcome.ok.inj h]; exact h1
  | ok a =>
  rw [hu] at h
  dsimp only at h
  by_cases hr : (!(decide (0 ≤ m.sender) && decide (m.sender < c.members))) = true
  · rw [if_pos hr] at h; rw [← Outcome.ok.inj h]; exact h1
  rw [if_neg hr] at h
  cases hv : s.senderValid a m.sender with
  | panic => rw [hv] at h; cases h
  | err => rw [hv] at h; cases h
  | ok b =>
    rw [hv] at h
    cases b with
    | false => rw [← Outcome.ok.inj h]; exact h1
    | true =>
      dsimp only at h
      rw [Outcome.bind_eq_ok] at h
      obtain ⟨⟨u, acts⟩, hp, h⟩ := h
      rw [Outcome.pure_eq] at h
      rw [← Outcome.ok.inj h, doActs_requests]
      · show requestsOf n ((r.log ++ [.handled m]) ++ [.invoked m a]) = _
        rw [requestsOf_snoc, List.append_nil, h1]
      · intro x hx
        have := (hc _ s hs).2 proc hpr _ _ u acts ((Verif.Layout.orPanic_ok _ _).1 hp) x hx
        exact Verif.Dkg.actOk_mono (fun op _ h => Int.lt_of_le_of_lt hn h) this

theorem processAll_requests (hc : ∀ n s, c.stage? n = some s → Ahead n s) (ms : List (Message D)) {r r' : Run D A U} {n : Int}
    (hn : ∀ m ∈ ms, n ≤ m.op) (h : processAll c r ms = .ok r') : requestsOf n r'.log = requestsOf n r.log := by
  induction ms generalizing r with
  | nil => rw [processAll] at h; rw [← Outcome.ok.inj h]
  | cons m ms ih =>
    rw [processAll, Outcome.bind_eq_ok] at h
    obtain ⟨r1, h1, h2⟩ := h
    rw [ih (fun m hm' => hn m (List.mem_cons_of_mem _ hm')) h2, processMsg_requests hc (hn m (List.mem_cons_self ..)) h1]

theorem receive_requests (hc : ∀ n s, c.stage? n = some s → Ahead n s) {r r' : Run D A U} {m : Message D} {n : Int} (hn : n ≤ r.state)
    (h : receive c r m = .ok r') : requestsOf n r'.log = requestsOf n r.log := by
  have h0 : requestsOf n (r.log ++ [.received m]) = requestsOf n r.log := by rw [requestsOf_snoc, List.append_nil]
  rw [receive] at h
  dsimp only at h
  by_cases h1 : (m.op < r.state || (decide (m.op = r.state) && r.paused)) = true
  · rw [if_pos h1] at h; rw [← Outcome.ok.inj h]; exact h0
  rw [if_neg h1] at h
  by_cases h2 : m.op > r.state
  · rw [if_pos h2] at h; rw [← Outcome.ok.inj h]; exact h0
  · rw [if_neg h2] at h
    rw [processMsg_requests hc (by simp at h1; omega) h]
    exact h0

theorem enterStage_requests (hc : ∀ n s, c.stage? n = some s → Ahead n s) {r r' : Run D A U} {n : Int} (hn : n ≤ r.state)
    (hr : ∀ m ∈ (r.rcvbuf.get? (r.state + 1)).getD [], m.op = r.state + 1) (h : enterStage c r = .ok r') :
    requestsOf n r'.log = requestsOf n r.log := by
  rw [enterStage] at h
  dsimp only at h
  cases hst : c.stage? (r.state + 1) with
  | none => rw [hst] at h; cases h
  | some s =>
  rw [hst] at h
  dsimp only at h
  rw [Outcome.bind_eq_ok] at h
  obtain ⟨r1, h1, h⟩ := h
  rw [Outcome.bind_eq_ok] at h
  obtain ⟨r2, h2, h⟩ := h
  rw [Outcome.pure_eq] at h
  rw [← Outcome.ok.inj h]
  show requestsOf n r2.log = _
  have key : ∀ r0 : Run D A U, callStep c r0 s = .ok r1 → r1.rcvbuf = r0.rcvbuf ∧ requestsOf n r1.log = requestsOf n r0.log := by
    intro r0 h1
    rw [callStep] at h1
    by_cases ha : r0.abandon = true
    · rw [if_pos ha] at h1; rw [← Outcome.ok.inj h1]; exact ⟨rfl, rfl⟩
    rw [if_neg ha] at h1
    cases hs : s.step with
    | none => rw [hs] at h1; rw [← Outcome.ok.inj h1]; exact ⟨rfl, rfl⟩
    | some f =>
      rw [hs] at h1
      dsimp only at h1
      rw [Outcome.bind_eq_ok] at h1
      obtain ⟨⟨u, acts⟩, hp, h1⟩ := h1
      rw [Outcome.pure_eq] at h1
      rw [← Outcome.ok.inj h1]
      refine ⟨doActs_rcvbuf _ _, ?_⟩
      rw [doActs_requests]
      · dsimp only; rw [requestsOf_snoc, List.append_nil]
      · intro x hx
        have := (hc _ s hst).1 f hs _ u acts ((Verif.Layout.orPanic_ok _ _).1 hp) x hx
        exact Verif.Dkg.actOk_mono (fun op _ h => by omega) this
  obtain ⟨e1, e2⟩ := key _ h1
  rw [processAll_requests hc _ _ h2, e2, flushSndBuf]
  · show requestsOf n ((r.log ++ [.entered (r.state + 1)]) ++ _) = _
    rw [requests_quiet, requestsOf_snoc, List.append_nil]
    intro x hx m
    obtain ⟨_, _, rfl⟩ := List.mem_map.1 hx
    exact nofun
  · intro m hm
    rw [e1, flushSndBuf] at hm
    have := hr m hm
    omega

theorem thread_requests (hc : ∀ n s, c.stage? n = some s → Ahead n s) {r r' : Run D A U} (hi : Inv c r) {n : Int} (hn : n ≤ r.state)
    (h : thread c r = .ok r') : requestsOf n r'.log = requestsOf n r.log := by
  have hrcv : ∀ m ∈ (r.rcvbuf.get? (r.state + 1)).getD [], m.op = r.state + 1 := by
    intro m hm
    rw [hi.core.rcv _ (by omega)] at hm
    exact early_op hm
  have top : loopTop c r = .ok r' → requestsOf n r'.log = requestsOf n r.log := by
    intro h
    rw [loopTop] at h
    by_cases h1 : r.state < (c.stages.length : Int) - 1
    · rw [if_pos h1] at h
      by_cases h2 : r.state > -1
      · rw [if_pos h2] at h
        rw [← Outcome.ok.inj h]; exact requests_quiet (by simp)
      · rw [if_neg h2] at h
        exact enterStage_requests hc hn hrcv h
    · rw [if_neg h1] at h; rw [← Outcome.ok.inj h]; exact requests_quiet (by simp)
  rw [thread] at h
  cases hp : r.phase with
  | fresh => rw [hp] at h; rw [← Outcome.ok.inj h]
  | started => rw [hp] at h; exact top h
  | staged =>
    rw [hp] at h; dsimp only at h
    by_cases hd : r.deadline ≤ r.now
    · rw [if_pos hd] at h; exact top h
    · rw [if_neg hd] at h; cases h
  | pausing =>
    rw [hp] at h; dsimp only at h
    by_cases hd : r.pauseEnd ≤ r.now
    · rw [if_pos hd, ← hp] at h
      exact enterStage_requests (r := { r with paused := false }) hc hn hrcv h
    · rw [if_neg hd] at h; cases h
  | done => rw [hp] at h; cases h

/-- A message is sent when its stage is entered, and at no other time. -/
theorem sent_entering (hc : ∀ n s, c.stage? n = some s → Ahead n s) {r r' : Run D A U} {e : Ev D} (hi : Inv c r) (hs : step c r e = .ok r')
    {m : Message D} (hold : .sent m ∉ r.log) (hnew : .sent m ∈ r'.log) :
    e = .thread ∧ r.state = m.op - 1 ∧ (r.phase = .started ∨ (r.phase = .pausing ∧ r.pauseEnd ≤ r.now)) := by
  have mem : ∀ l : List (Entry D A), .sent m ∈ l ↔ m ∈ sentOf m.op l := by
    intro l
    rw [sentOf, List.mem_filterMap]
    refine ⟨fun h => ⟨_, h, by dsimp only; rw [if_pos rfl]⟩, ?_⟩
    rintro ⟨x, hx, hx'⟩
    cases x with
    | sent m' =>
      dsimp only at hx'
      by_cases ho : m'.op = m.op
      · rw [if_pos ho] at hx'; rw [← Option.some.inj hx']; exact hx
      · rw [if_neg ho] at hx'; cases hx'
    | _ => cases hx'
  rw [mem] at hold hnew
  cases e with
  | tick t =>
    rw [Prot.step] at hs
    by_cases ht : r.now ≤ t
    · rw [if_pos ht] at hs; rw [← Outcome.ok.inj hs] at hnew; exact absurd hnew hold
    · rw [if_neg ht] at hs; cases hs
  | msg m' =>
    exfalso
    obtain ⟨hi', _, e1, _⟩ := receive_ok hi hs
    rw [hi.core.sent] at hold
    rw [hi'.core.sent, e1] at hnew
    by_cases hn : m.op ≤ r.state
    · rw [if_pos hn] at hold hnew
      rw [receive_requests hc hn hs] at hnew
      exact hold hnew
    · rw [if_neg hn] at hnew; cases hnew
  | thread =>
    obtain ⟨hi', hm, _⟩ := thread_ok hi hs
    rw [hi.core.sent] at hold
    rw [hi'.core.sent] at hnew
    by_cases hn : m.op ≤ r.state
    · exfalso
      by_cases hn' : m.op ≤ r'.state
      · rw [if_pos hn] at hold
        rw [if_pos hn', thread_requests hc hi hn hs] at hnew
        exact hold hnew
      · rw [if_neg hn'] at hnew; cases hnew
    · have hn' : m.op ≤ r'.state := by
        by_contra hc
        rw [if_neg hc] at hnew; cases hnew
      refine ⟨rfl, ?_⟩
      cases hm with
      | start _ _ h2 => omega
      | pause _ _ _ _ h2 => omega
      | finish _ _ _ h2 => omega
      | enter h0 _ h2 _ =>
        rcases h0 with ⟨h0, _⟩ | ⟨h0, h3⟩
        · exact ⟨by omega, .inl h0⟩
        · exact ⟨by omega, .inr ⟨h0, h3⟩⟩

end Verif.Prot

namespace Verif.Dkg
open Verif.Prot Verif.Spec.Prot Verif.Dto Verif.Dss Verif.Props
variable {K : Type} {y : Kyb K} {id : String} {self : Int} {members : Nat}

theorem table_pos {op : Int} {d : Dto} (h : Table op d) : 1 ≤ op := by
  cases d with
  | other => exact h.elim
  | _ =>
    have h : op = _ := h
    omega

theorem table_ops {op : Int} {d : Dto} (h : DkgTable op d) : op ∈ [1, 2, 3, 5, 6, 7] := by
  cases d with
  | other => exact h.1.elim
  | partsig s => exact absurd rfl (h.2 s)
  | _ =>
    have h : op = _ := h.1
    simp [h]

/-- The steps and processors of the key generation send nothing late. -/
theorem dkg_ahead (n : Int) (s : Stage Dto Obj (Data K)) (hs : (dkgConf y id self members).stage? n = some s) : Ahead n s := by
  obtain ⟨h0, hn⟩ := stage?_some hs
  have hn : (dkgStages y)[n.toNat]? = some s := hn
  have key : (∀ f, s.step = some f → ∀ u, Sends (fun op _ => n ≤ op) (fun _ => True) (f u)) ∧
      (∀ f, s.proc = some f → ∀ u a, Sends (fun op _ => n < op) (fun _ => True) (f u a)) := by
    have hlt : n.toNat < 9 := (List.getElem?_eq_some_iff.1 hn).1
    obtain ⟨k, rfl⟩ : ∃ k : Nat, n = (k : Int) := ⟨n.toNat, by omega⟩
    rw [Int.toNat_natCast] at hn hlt
    have h9 : k = 0 ∨ k = 1 ∨ k = 2 ∨ k = 3 ∨ k = 4 ∨ k = 5 ∨ k = 6 ∨ k = 7 ∨ k = 8 := by omega
    clear hs h0
    rcases h9 with rfl | rfl | rfl | rfl | rfl | rfl | rfl | rfl | rfl
    all_goals have hn := Option.some.inj hn
    all_goals subst hn
    all_goals refine ⟨?_, ?_⟩
    all_goals (intro f hf u; simp only [psStep, psProc, Option.some.injEq, reduceCtorEq] at hf)
    all_goals subst hf
    · exact sends_nil trivial
    · rw [stepDeal]
      cases hd : (y.deals u.kyb).2 with
      | panic => exact sends_panic
      | err => exact sends_one trivial trivial
      | ok ds => exact sends_bind trivial fun as e a ha => actOk_mono (fun op d h => table_pos h.1) (sendDeals_acts ds e a ha)
    · intro a
      cases a with
      | deal d =>
        rw [processDeal]
        cases hd : (y.processDeal u.kyb d).2 with
        | panic => exact sends_panic
        | err => exact sends_nil trivial
        | ok r =>
          cases r with
          | none => exact sends_nil trivial
          | some r => exact sends_one trivial (by decide : (1 : Int) < opResponse)
      | _ => exact sends_panic
    · intro a
      cases a with
      | response r =>
        rw [processResponse]
        cases hd : (y.processResponse u.kyb r).2 with
        | panic => exact sends_panic
        | err => exact sends_nil trivial
        | ok j =>
          cases j with
          | none => exact sends_nil trivial
          | some j =>
            dsimp only
            cases hj : justificationToDto j with
            | panic => exact sends_panic
            | err => exact sends_nil trivial
            | ok dto => exact sends_one trivial (by decide : (2 : Int) < opJustification)
      | _ => exact sends_panic
    · intro a
      cases a with
      | justification j =>
        rw [processJustification]
        cases hd : (y.processJustification u.kyb j).2 with
        | panic => exact sends_panic
        | err => exact sends_nil trivial
        | ok r => exact sends_nil trivial
      | _ => exact sends_panic
    · exact sends_nil trivial
    · rw [stepCommits]
      cases hq : u.qual with
      | none => exact sends_panic
      | some q =>
        dsimp only
        by_cases hc : (!y.certified u.kyb) = true
        · rw [if_pos hc]; exact sends_one trivial trivial
        · rw [if_neg hc]
          cases hd : (y.secretCommits u.kyb).2 with
          | panic => exact sends_panic
          | err => exact sends_one trivial trivial
          | ok sc => exact sends_bind trivial fun as e => broadcastQual_acts e fun d => (by decide : (5 : Int) ≤ opCommits)
    · intro a
      cases a with
      | commits c =>
        rw [processCommits]
        cases hd : (y.processSecretCommits u.kyb c).2 with
        | panic => exact sends_panic
        | err => exact sends_nil trivial
        | ok r =>
          cases r with
          | none => exact sends_nil trivial
          | some r => exact sends_bind trivial fun as e => broadcastQual_acts e fun d => (by decide : (5 : Int) < opComplCommits)
      | _ => exact sends_panic
    · intro a
      cases a with
      | complCommits c =>
        rw [processComplCommits]
        cases hd : (y.processComplaintCommits u.kyb c).2 with
        | panic => exact sends_panic
        | err => exact sends_nil trivial
        | ok r =>
          cases r with
          | none => exact sends_nil trivial
          | some r => exact sends_bind trivial fun as e => broadcastQual_acts e fun d => (by decide : (6 : Int) < opReconsCommits)
      | _ => exact sends_panic
    · intro a
      cases a with
      | reconsCommits r =>
        rw [processReconsCommits]
        cases hd : (y.processReconstructCommits u.kyb r).2 with
        | panic => exact sends_panic
        | err => exact sends_nil trivial
        | ok r => exact sends_nil trivial
      | _ => exact sends_panic
    · rw [stepFinal]
      by_cases hf : y.finished u.kyb = true
      · rw [if_pos hf]
        cases hd : y.distKeyShare u.kyb with
        | panic => exact sends_panic
        | err => exact sends_one trivial trivial
        | ok sh =>
          dsimp only
          cases hq : u.qual with
          | none => exact sends_panic
          | some q => exact sends_nil trivial
      · rw [if_neg hf]; exact sends_one trivial trivial
  exact ⟨fun f hf u u' as h => (key.1 f hf u u' as h).2, fun f hf u x u' as h => (key.2 f hf u x u' as h).2⟩

theorem dss_ops {op : Int} {d : Dto} (h : Table op d) : op ∈ [1, 2, 3, 5, 6, 7, 10] := by
  cases d with
  | other => exact h.elim
  | _ =>
    have h : op = _ := h
    simp [h]

variable {H : List UInt8 → List UInt8} {SH : Share → List UInt8} {env : Env}

/-- The steps and processors of signing send nothing late. -/
theorem dss_ahead (n : Int) (s : Stage Dto Obj (Data K)) (hs : (dssConf y H SH env id self members).stage? n = some s) : Ahead n s := by
  obtain ⟨h0, hn⟩ := stage?_some hs
  have hn : (dkgStages y ++ [psStep (stInit y H env), psProc (some (stPartsig H SH env)) (prPartsig H SH) .partsig partsigV, psStep (dssStFinal H)])[n.toNat]? = some s := hn
  by_cases hlt : n.toNat < 9
  · rw [List.getElem?_append_left hlt] at hn
    refine dkg_ahead (y := y) (id := id) (self := self) (members := members) n s ?_
    rw [Conf.stage?, if_neg (by omega)]
    exact hn
  have hlt : n.toNat < 12 := (List.getElem?_eq_some_iff.1 hn).1
  have key : (∀ f, s.step = some f → ∀ u, Sends (fun op _ => n ≤ op) (fun _ => True) (f u)) ∧
      (∀ f, s.proc = some f → ∀ u a, Sends (fun op _ => n < op) (fun _ => True) (f u a)) := by
    obtain ⟨k, rfl⟩ : ∃ k : Nat, n = (k : Int) := ⟨n.toNat, by omega⟩
    rw [Int.toNat_natCast] at hn hlt
    have h9 : k = 9 ∨ k = 10 ∨ k = 11 := by omega
    clear hs h0
    rcases h9 with rfl | rfl | rfl
    all_goals have hn := Option.some.inj hn
    all_goals subst hn
    all_goals refine ⟨?_, ?_⟩
    all_goals (intro f hf u; simp only [psStep, psProc, Option.some.injEq, reduceCtorEq] at hf)
    all_goals subst hf
    · rw [stInit]
      cases hd : y.distKeyShare u.kyb with
      | panic => exact sends_panic
      | err => exact sends_one trivial trivial
      | ok random =>
        dsimp only
        cases hl : env.long with
        | none => exact sends_panic
        | some long =>
          cases hdoc : env.doc with
          | none => exact sends_panic
          | some doc =>
            dsimp only
            cases hn : newDSS H ⟨env.secret, env.participants, long, random, y.qual u.kyb, doc, env.threshold⟩ with
            | panic => exact sends_panic
            | err => exact sends_one trivial trivial
            | ok d => exact sends_nil trivial
    · rw [stPartsig.eq_def]
      cases hd : u.dss with
      | none => exact sends_panic
      | some d =>
        dsimp only
        cases hp : (partialSig H SH env.nonce d).2 with
        | panic => exact sends_panic
        | err => exact sends_one trivial trivial
        | ok sig => exact sends_bind trivial fun as e => broadcastQual_acts e fun d => (by decide : (10 : Int) ≤ opDssPartsig)
    · intro a
      cases a with
      | partsig ps =>
        rw [prPartsig]
        cases hd : u.dss with
        | none => exact sends_panic
        | some d =>
          dsimp only
          cases hp : (processPartialSig H SH d ps).2 with
          | panic => exact sends_panic
          | err => exact sends_nil trivial
          | ok _ => exact sends_nil trivial
      | _ => exact sends_panic
    · rw [dssStFinal]
      cases hd : u.dss with
      | none => exact sends_panic
      | some d =>
        dsimp only
        by_cases he : (!enoughPartialSig d) = true
        · rw [if_pos he]; exact sends_one trivial trivial
        rw [if_neg he]
        cases hs : signature H d with
        | panic => exact sends_panic
        | err => exact sends_one trivial trivial
        | ok s => exact sends_nil trivial
  exact ⟨fun f hf u u' as h => (key.1 f hf u u' as h).2, fun f hf u x u' as h => (key.2 f hf u x u' as h).2⟩

end Verif.Dkg
