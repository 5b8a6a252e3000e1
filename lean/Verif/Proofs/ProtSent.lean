import Verif.Proofs.ProtSched
import Verif.Props.Signing

/-! When the partial signatures are sent. -/
namespace Verif.Dkg
open Verif.Prot Verif.Spec.Prot Verif.Dto Verif.Dss Verif.Props
variable {K : Type} {y : Kyb K} {H : List UInt8 → List UInt8} {SH : Share → List UInt8} {env : Env} {id : String} {self : Int} {members : Nat}

theorem requestsOf_quiet {n : Int} {l l' : List (Entry Dto Obj)} (h : ∀ x ∈ l', ∀ m, x ≠ .request m) : requestsOf n (l ++ l') = requestsOf n l := by
  induction l' using List.reverseRecOn with
  | nil => rw [List.append_nil]
  | append_singleton l' x ih =>
    rw [← List.append_assoc, requestsOf_snoc, ih fun x hx => h x (List.mem_append_left _ hx)]
    have := h x (List.mem_append_right _ (List.mem_singleton.2 rfl))
    cases x with
    | request m => exact absurd rfl (this m)
    | _ => exact List.append_nil _

/-- The processor of the partial signatures sends nothing, and stage 11 has no processor. -/
theorem processMsg_late {r r' : Run Dto Obj (Data K)} {m : Message Dto} (hm : 10 ≤ m.op) (n : Int)
    (h : processMsg (dssConf y H SH env id self members) r m = .ok r') :
    requestsOf n r'.log = requestsOf n r.log ∧ r'.user.qual = r.user.qual := by
  have h1 : requestsOf n (r.log ++ [.handled m]) = requestsOf n r.log := requestsOf_quiet (by simp)
  rw [processMsg] at h
  dsimp only at h
  by_cases ha : r.abandon = true
  · rw [if_pos ha] at h; rw [← Outcome.ok.inj h]; exact ⟨h1, rfl⟩
  rw [if_neg ha] at h
  cases hs : (dssConf y H SH env id self members).stage? m.op with
  | none => rw [hs] at h; cases h
  | some s =>
  rw [hs] at h
  dsimp only at h
  cases hpr : s.proc with
  | none => rw [hpr] at h; rw [← Outcome.ok.inj h]; exact ⟨h1, rfl⟩
  | some proc =>
  rw [hpr] at h
  dsimp only at h
  by_cases ht : (!s.typeOk m.dto) = true
  · rw [if_pos ht] at h; rw [← Outcome.ok.inj h]; exact ⟨h1, rfl⟩
  rw [if_neg ht] at h
  cases hu : s.unmarshal m.dto with
  | panic => rw [hu] at h; cases h
  | err => rw [hu] at h; rw [← Outcome.ok.inj h]; exact ⟨h1, rfl⟩
  | ok a =>
  rw [hu] at h
  dsimp only at h
  by_cases hr : (!(decide (0 ≤ m.sender) && decide (m.sender < (dssConf y H SH env id self members).members))) = true
  · rw [if_pos hr] at h; rw [← Outcome.ok.inj h]; exact ⟨h1, rfl⟩
  rw [if_neg hr] at h
  cases hv : s.senderValid a m.sender with
  | panic => rw [hv] at h; cases h
  | err => rw [hv] at h; cases h
  | ok b =>
    rw [hv] at h
    cases b with
    | false => rw [← Outcome.ok.inj h]; exact ⟨h1, rfl⟩
    | true =>
      dsimp only at h
      rw [Outcome.bind_eq_ok] at h
      obtain ⟨⟨u, acts⟩, hp, h⟩ := h
      rw [Outcome.pure_eq] at h
      have hacts : acts = [] ∧ u.qual = r.user.qual := by
        rcases dss_stage_cases hs with h8 | ⟨h9, _⟩ | ⟨_, rfl⟩ | ⟨_, rfl⟩
        · omega
        · omega
        · have hpr : prPartsig H SH = proc := Option.some.inj hpr
          subst hpr
          rw [prPartsig.eq_def] at hp
          cases a with
          | partsig ps =>
            dsimp only at hp
            cases hd : r.user.dss with
            | none => rw [hd] at hp; cases hp
            | some d =>
              rw [hd] at hp
              dsimp only at hp
              cases hx : (processPartialSig H SH d ps).2 with
              | panic => rw [hx] at hp; cases hp
              | err =>
                rw [hx] at hp
                have := Outcome.ok.inj hp
                injection this with e1 e2
                exact ⟨e2.symm, by rw [← e1]⟩
              | ok v =>
                rw [hx] at hp
                have := Outcome.ok.inj hp
                injection this with e1 e2
                exact ⟨e2.symm, by rw [← e1]⟩
          | _ => cases hp
        · cases hpr
      obtain ⟨rfl, hq⟩ := hacts
      rw [← Outcome.ok.inj h]
      refine ⟨?_, hq⟩
      show requestsOf n ((r.log ++ [.handled m]) ++ [.invoked m a]) = _
      rw [requestsOf_quiet (by simp), h1]

theorem processAll_late (ms : List (Message Dto)) {r r' : Run Dto Obj (Data K)} (hm : ∀ m ∈ ms, 10 ≤ m.op) (n : Int)
    (h : processAll (dssConf y H SH env id self members) r ms = .ok r') : requestsOf n r'.log = requestsOf n r.log ∧ r'.user.qual = r.user.qual := by
  induction ms generalizing r with
  | nil => rw [processAll] at h; rw [← Outcome.ok.inj h]; exact ⟨rfl, rfl⟩
  | cons m ms ih =>
    rw [processAll, Outcome.bind_eq_ok] at h
    obtain ⟨r1, h1, h2⟩ := h
    obtain ⟨e1, e2⟩ := ih (fun m hm' => hm m (List.mem_cons_of_mem _ hm')) h2
    obtain ⟨e3, e4⟩ := processMsg_late (hm m (List.mem_cons_self ..)) n h1
    exact ⟨e1.trans e3, e2.trans e4⟩

theorem receive_late {r r' : Run Dto Obj (Data K)} {m : Message Dto} (hs : 10 ≤ r.state) (n : Int)
    (h : receive (dssConf y H SH env id self members) r m = .ok r') : requestsOf n r'.log = requestsOf n r.log ∧ r'.user.qual = r.user.qual := by
  have h0 : requestsOf n (r.log ++ [.received m]) = requestsOf n r.log := requestsOf_quiet (by simp)
  rw [receive] at h
  dsimp only at h
  by_cases h1 : (m.op < r.state || (decide (m.op = r.state) && r.paused)) = true
  · rw [if_pos h1] at h; rw [← Outcome.ok.inj h]; exact ⟨h0, rfl⟩
  rw [if_neg h1] at h
  by_cases h2 : m.op > r.state
  · rw [if_pos h2] at h; rw [← Outcome.ok.inj h]; exact ⟨h0, rfl⟩
  · rw [if_neg h2] at h
    obtain ⟨e1, e2⟩ := processMsg_late (by simp at h1; omega) n h
    exact ⟨e1.trans h0, e2⟩

/-- After stage 10 has been entered, the thread asks for nothing to be sent. -/
theorem enterStage_late {r r' : Run Dto Obj (Data K)} (hs : 10 ≤ r.state) (hr : ∀ m ∈ (r.rcvbuf.get? (r.state + 1)).getD [], m.op = r.state + 1) (n : Int)
    (h : enterStage (dssConf y H SH env id self members) r = .ok r') : requestsOf n r'.log = requestsOf n r.log ∧ r'.user.qual = r.user.qual := by
  rw [enterStage] at h
  dsimp only at h
  cases hst : (dssConf y H SH env id self members).stage? (r.state + 1) with
  | none => rw [hst] at h; cases h
  | some s =>
  rw [hst] at h
  dsimp only at h
  rw [Outcome.bind_eq_ok] at h
  obtain ⟨r1, h1, h⟩ := h
  rw [Outcome.bind_eq_ok] at h
  obtain ⟨r2, h2, h⟩ := h
  rw [Outcome.pure_eq] at h
  rw [← Outcome.ok.inj h]
  show requestsOf n r2.log = _ ∧ r2.user.qual = _
  have key : ∀ r0 : Run Dto Obj (Data K), callStep (dssConf y H SH env id self members) r0 s = .ok r1 →
      r1.rcvbuf = r0.rcvbuf ∧ requestsOf n r1.log = requestsOf n r0.log ∧ r1.user.qual = r0.user.qual := by
    intro r0 h1
    rcases dss_stage_cases hst with h8 | ⟨h9, _⟩ | ⟨h10, _⟩ | ⟨_, rfl⟩
    · omega
    · omega
    · omega
    · rw [callStep] at h1
      by_cases ha : r0.abandon = true
      · rw [if_pos ha] at h1; rw [← Outcome.ok.inj h1]; exact ⟨rfl, rfl, rfl⟩
      rw [if_neg ha] at h1
      dsimp only [psStep] at h1
      rw [Outcome.bind_eq_ok] at h1
      obtain ⟨⟨u, acts⟩, hp, h1⟩ := h1
      rw [Outcome.pure_eq] at h1
      have hacts : (acts = [] ∨ acts = [.abandon]) ∧ u.qual = r0.user.qual := by
        rw [dssStFinal] at hp
        cases hd : r0.user.dss with
        | none => rw [hd] at hp; cases hp
        | some d =>
          rw [hd] at hp
          dsimp only at hp
          by_cases he : (!enoughPartialSig d) = true
          · rw [if_pos he] at hp; exact ⟨.inr (congrArg Prod.snd (Outcome.ok.inj hp)).symm, (congrArg (fun x => x.1.qual) (Outcome.ok.inj hp)).symm⟩
          rw [if_neg he] at hp
          cases hx : signature H d with
          | panic => rw [hx] at hp; cases hp
          | err => rw [hx] at hp; exact ⟨.inr (congrArg Prod.snd (Outcome.ok.inj hp)).symm, (congrArg (fun x => x.1.qual) (Outcome.ok.inj hp)).symm⟩
          | ok v => rw [hx] at hp; exact ⟨.inl (congrArg Prod.snd (Outcome.ok.inj hp)).symm, (congrArg (fun x => x.1.qual) (Outcome.ok.inj hp)).symm⟩
      rw [← Outcome.ok.inj h1]
      rcases hacts with ⟨rfl | rfl, hq⟩
      · exact ⟨rfl, requestsOf_quiet (by simp), hq⟩
      · refine ⟨rfl, ?_, hq⟩
        show requestsOf n ((r0.log ++ [.stepped r0.state]) ++ [.abandoned]) = _
        rw [requestsOf_quiet (by simp), requestsOf_quiet (by simp)]
  obtain ⟨e1, e2, e3⟩ := key _ h1
  have hms : ∀ m ∈ (r1.rcvbuf.get? (r.state + 1)).getD [], 10 ≤ m.op := by
    intro m hm
    rw [e1, flushSndBuf] at hm
    have := hr m hm
    omega
  obtain ⟨e4, e5⟩ := processAll_late _ hms n h2
  refine ⟨?_, e5.trans e3⟩
  rw [e4, e2, flushSndBuf]
  · show requestsOf n ((r.log ++ [.entered (r.state + 1)]) ++ _) = _
    rw [requestsOf_quiet, requestsOf_quiet (by simp)]
    intro x hx m
    obtain ⟨_, _, rfl⟩ := List.mem_map.1 hx
    exact nofun

theorem thread_late {r r' : Run Dto Obj (Data K)} (hi : Inv (dssConf y H SH env id self members) r) (hs : 10 ≤ r.state) (n : Int)
    (h : thread (dssConf y H SH env id self members) r = .ok r') : requestsOf n r'.log = requestsOf n r.log ∧ r'.user.qual = r.user.qual := by
  have hrcv : ∀ m ∈ (r.rcvbuf.get? (r.state + 1)).getD [], m.op = r.state + 1 := by
    intro m hm
    rw [hi.core.rcv _ (by omega)] at hm
    exact early_op hm
  have top : loopTop (dssConf y H SH env id self members) r = .ok r' → requestsOf n r'.log = requestsOf n r.log ∧ r'.user.qual = r.user.qual := by
    intro h
    rw [loopTop] at h
    by_cases h1 : r.state < ((dssConf y H SH env id self members).stages.length : Int) - 1
    · rw [if_pos h1, if_pos (by omega)] at h
      rw [← Outcome.ok.inj h]; exact ⟨requestsOf_quiet (by simp), rfl⟩
    · rw [if_neg h1] at h; rw [← Outcome.ok.inj h]; exact ⟨requestsOf_quiet (by simp), rfl⟩
  rw [thread] at h
  cases hp : r.phase with
  | fresh => have := (hi.fresh (.inl hp)).1; omega
  | started => have := (hi.fresh (.inr hp)).1; omega
  | staged =>
    rw [hp] at h; dsimp only at h
    by_cases hd : r.deadline ≤ r.now
    · rw [if_pos hd] at h; exact top h
    · rw [if_neg hd] at h; cases h
  | pausing =>
    rw [hp] at h; dsimp only at h
    by_cases hd : r.pauseEnd ≤ r.now
    · rw [if_pos hd, ← hp] at h
      exact enterStage_late (r := { r with paused := false }) hs hrcv n h
    · rw [if_neg hd] at h; cases h
  | done => rw [hp] at h; cases h

/-- Partial signatures are sent when stage 10 is entered, and at no other time. -/
theorem sent_partsig {r r' : Run Dto Obj (Data K)} {e : Ev Dto} (hi : Inv (dssConf y H SH env id self members) r)
    (hs : step (dssConf y H SH env id self members) r e = .ok r') {m : Message Dto} (hop : m.op = 10) (hold : .sent m ∉ r.log) (hnew : .sent m ∈ r'.log) :
    e = .thread ∧ r.phase = .pausing ∧ r.state = 9 ∧ r.pauseEnd ≤ r.now := by
  have mem : ∀ l : List (Entry Dto Obj), .sent m ∈ l ↔ m ∈ sentOf 10 l := by
    intro l
    rw [sentOf, List.mem_filterMap]
    refine ⟨fun h => ⟨_, h, by dsimp only; rw [if_pos hop]⟩, ?_⟩
    rintro ⟨x, hx, hx'⟩
    cases x with
    | sent m' =>
      dsimp only at hx'
      by_cases ho : m'.op = 10
      · rw [if_pos ho] at hx'; rw [← Option.some.inj hx']; exact hx
      · rw [if_neg ho] at hx'; cases hx'
    | _ => cases hx'
  rw [mem] at hold hnew
  cases e with
  | tick t =>
    rw [Prot.step] at hs
    by_cases ht : r.now ≤ t
    · rw [if_pos ht] at hs; rw [← Outcome.ok.inj hs] at hnew; exact absurd hnew hold
    · rw [if_neg ht] at hs; cases hs
  | msg m' =>
    exfalso
    obtain ⟨hi', _, e1, _⟩ := receive_ok hi hs
    rw [hi.core.sent] at hold
    rw [hi'.core.sent, e1] at hnew
    by_cases h10 : 10 ≤ r.state
    · rw [if_pos h10] at hold hnew
      rw [(receive_late h10 10 hs).1] at hnew
      exact hold hnew
    · rw [if_neg h10] at hnew; cases hnew
  | thread =>
    obtain ⟨hi', hm, _⟩ := thread_ok hi hs
    rw [hi.core.sent] at hold
    rw [hi'.core.sent] at hnew
    by_cases h10 : 10 ≤ r.state
    · exfalso
      by_cases h10' : 10 ≤ r'.state
      · rw [if_pos h10] at hold
        rw [if_pos h10', (thread_late hi h10 10 hs).1] at hnew
        exact hold hnew
      · rw [if_neg h10'] at hnew; cases hnew
    · have h10' : 10 ≤ r'.state := by
        by_contra hc
        rw [if_neg hc] at hnew; cases hnew
      refine ⟨rfl, ?_⟩
      cases hm with
      | start _ _ h2 => omega
      | pause _ _ _ _ h2 => omega
      | finish _ _ _ h2 => omega
      | enter h0 _ h2 _ =>
        rcases h0 with ⟨h0, _⟩ | ⟨h0, h3⟩
        · have := (hi.fresh (.inr h0)).1; omega
        · exact ⟨h0, by omega, h3⟩

end Verif.Dkg
