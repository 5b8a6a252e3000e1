import Verif.Proofs.ProtSent

/-! An honest member sends its partial signature to the members that are in QUAL. -/
namespace Verif.Props
open Verif.Prot Verif.Spec.Prot Verif.Dto Verif.Dss Verif.Dkg Verif.Point Verif.Tables
variable {K : Type} {H : List UInt8 → List UInt8} {SH : Share → List UInt8} {g : Group}

theorem multicast_sent {D A U : Type} {c : Conf D A U} (is : List Int) (r : Run D A U) (op : Int) (dto : D) (ho : op ≤ r.state) {x : Int}
    (hx : x ∈ is) (hs : x ≠ c.self) : .sent (makeMsg c x op dto) ∈ (multicast c r is op dto).log := by
  have one : ∀ (r : Run D A U) (i : Int), op ≤ r.state → (send1 c r i op dto).state = r.state ∧ r.log <+: (send1 c r i op dto).log ∧
      (i ≠ c.self → .sent (makeMsg c i op dto) ∈ (send1 c r i op dto).log) := by
    intro r i ho
    rw [send1]
    by_cases hi : i ≠ c.self
    · rw [if_pos hi, send, if_neg (by omega)]
      exact ⟨rfl, List.prefix_append .., fun _ => by simp⟩
    · rw [if_neg hi]
      exact ⟨rfl, List.prefix_refl _, fun h => absurd h hi⟩
  have all : ∀ (is : List Int) (r : Run D A U), op ≤ r.state → r.log <+: (multicast c r is op dto).log := by
    intro is
    induction is with
    | nil => exact fun r _ => List.prefix_refl _
    | cons i is ih =>
      intro r ho
      obtain ⟨h1, h2, _⟩ := one r i ho
      exact h2.trans (ih _ (by rw [h1]; exact ho))
  induction is generalizing r with
  | nil => cases hx
  | cons i is ih =>
    obtain ⟨h1, h2, h3⟩ := one r i ho
    rcases List.mem_cons.1 hx with rfl | hx
    · exact (all is (send1 c r x op dto) (by rw [h1]; exact ho)).subset (h3 hs)
    · exact ih (send1 c r i op dto) (by rw [h1]; exact ho) hx

theorem stageOf_mem {D A : Type} (l : List (Entry D A)) : stageOf l = -1 ∨ stageOf l ∈ stagesOf l := by
  induction l using List.reverseRecOn with
  | nil => exact .inl rfl
  | append_singleton l x ih =>
    rw [stageOf_snoc, stagesOf, List.filterMap_append]
    cases x with
    | entered n => exact .inr (List.mem_append_right _ (by simp))
    | _ => exact ih.imp_right (fun h => List.mem_append_left _ h)

/-- The stage before some entry is not after the present one. -/
theorem stageOf_le {D A : Type} {l l1 l2 : List (Entry D A)} {n : Int} (h : stagesOf l = (List.range (n + 1).toNat).map Int.ofNat) (e : l = l1 ++ l2) :
    stageOf l1 ≤ n ∨ stageOf l1 = -1 := by
  rcases stageOf_mem l1 with h1 | h1
  · exact .inr h1
  · left
    have h2 : stageOf l1 ∈ stagesOf l := by
      rw [e, stagesOf, List.filterMap_append]
      exact List.mem_append_left _ h1
    rw [h] at h2
    obtain ⟨i, hi, h3⟩ := List.mem_map.1 h2
    rw [List.mem_range] at hi
    have h3 : (i : Int) = stageOf l1 := h3
    omega

/-- The partial signature of an honest member can be made and marshalled. -/
theorem fresh_dto (hg : g.Sound) {j : Nat} {q : Party K} (hq : Always H SH g j q) {d : DSS} (hd : Fresh H q d) :
    ∃ ps x, (partialSig H SH q.env.nonce d).2 = .ok ps ∧ partsigToDto ps = .ok x := by
  obtain ⟨k, random, long, doc, g1, g2, g3, g4⟩ := hd
  obtain ⟨_, _, _, _, hk, _⟩ := fresh_facts hg hq g1 g2 g3 g4
  obtain ⟨ps, c1⟩ := partialSig_ok (SH := SH) hk (by
    rw [(newDSS_fresh g4).2.2.2.2.2.2.2.2.2.1]
    intro h; exact hq.secret ((emod_zero_iff _).2 h)) q.env.nonce
  refine ⟨ps, ?_⟩
  obtain ⟨v, o1, _⟩ := partialSig_state (H := H) (SH := SH) hk q.env.nonce
  have o3 := c1
  rw [partialSig, o1] at o3
  dsimp only at o3
  rw [Outcome.bind_eq_ok] at o3
  obtain ⟨sig, _, o4⟩ := o3
  rw [Outcome.pure_eq] at o4
  have o5 := Outcome.ok.inj o4
  obtain ⟨x, c2, _⟩ := (C29_partsig ps).1 (by
    rw [← o5]
    show CanonicalShare ⟨d.index, v⟩
    rw [ownShare, Outcome.bind_eq_ok] at o1
    obtain ⟨e, _, o6⟩ := o1
    rw [Outcome.pure_eq] at o6
    have o7 := Outcome.ok.inj o6
    injection o7 with _ o8
    rw [CanonicalShare, ← o8]
    exact Scalar.modG_range _)
  exact ⟨x, c1, c2⟩

theorem always_sends (hH : ∀ b, (H b).length = 32) (hg : g.Sound) {j : Nat} {q : Party K} (hq : Always H SH g j q) (h10 : 10 ≤ q.r.state)
    (hgo : ∀ l1 l2, q.r.log = l1 ++ .abandoned :: l2 → 9 < stageOf l1) {x : Int} (hQ : ∀ Q, q.r.user.qual = some Q → x ∈ Q)
    (hxj : x ≠ (j : Int)) : ∃ m, .sent m ∈ q.r.log ∧ m.sender = (j : Int) ∧ m.key = ⟨1, x, g.id⟩ ∧ m.op = 10 := by
  have key : ∀ (hist : List (Ev Dto)) (r : Run Dto Obj (Data K)),
      exec (dssConf q.y H SH q.env g.id j g.keys.length) (newRun Dto Obj (newData q.k) q.t0) hist = .ok r → 10 ≤ r.state →
      (∀ l1 l2, r.log = l1 ++ .abandoned :: l2 → 9 < stageOf l1) → (∀ Q, r.user.qual = some Q → x ∈ Q) → ∃ dto, .sent (makeMsg (dssConf q.y H SH q.env g.id j g.keys.length) x 10 dto) ∈ r.log := by
    intro hist
    induction hist using List.reverseRecOn with
    | nil =>
      intro r hr h10
      rw [exec] at hr
      rw [← Outcome.ok.inj hr] at h10
      have h10 : (10 : Int) ≤ -1 := h10
      omega
    | append_singleton hist e ih =>
      intro r hr h10 hgo hQ
      obtain ⟨r1, h1, h2⟩ := exec_snoc hr
      have a := agree_exec h1
      have hpre := step_log h2
      have hgo1 : ∀ l1 l2, r1.log = l1 ++ .abandoned :: l2 → 9 < stageOf l1 := by
        intro l1 l2 e
        obtain ⟨l3, e3⟩ := hpre
        exact hgo l1 (l2 ++ l3) (by rw [← e3, e]; simp)
      have old : 10 ≤ r1.state → r.user.qual = r1.user.qual →
          ∃ dto, .sent (makeMsg (dssConf q.y H SH q.env g.id j g.keys.length) x 10 dto) ∈ r.log := by
        intro h10 hqual
        obtain ⟨dto, hd⟩ := ih r1 h1 h10 hgo1 (hqual ▸ hQ)
        exact ⟨dto, hpre.subset hd⟩
      cases e with
      | tick t =>
        rw [Prot.step] at h2
        by_cases ht : r1.now ≤ t
        · rw [if_pos ht] at h2
          have e := Outcome.ok.inj h2
          exact old (by rw [← e] at h10; exact h10) (by rw [← e])
        · rw [if_neg ht] at h2; cases h2
      | msg m =>
        obtain ⟨_, _, e1, _⟩ := receive_ok a.inv h2
        rw [e1] at h10
        exact old h10 (receive_late h10 10 h2).2
      | thread =>
        by_cases h10' : 10 ≤ r1.state
        · exact old h10' (thread_late a.inv h10' 10 h2).2
        · obtain ⟨_, hm, _⟩ := thread_ok a.inv h2
          have h9 : r1.state = 9 ∧ r1.phase = .pausing ∧ r1.pauseEnd ≤ r1.now := by
            cases hm with
            | start _ _ h2 => omega
            | pause _ _ _ _ h2 => omega
            | finish _ _ _ h2 => omega
            | enter h0 _ h2 _ =>
              rcases h0 with ⟨h0, _⟩ | ⟨h0, h3⟩
              · have := (a.inv.fresh (.inr h0)).1; omega
              · exact ⟨by omega, h0, h3⟩
          obtain ⟨hst, hph, hpe⟩ := h9
          have hab : r1.abandon = false := by
            by_contra hc
            obtain ⟨l1, l2, e⟩ : ∃ l1 l2, r1.log = l1 ++ .abandoned :: l2 := by
              have := a.inv.core.gave
              rw [show r1.abandon = true by simpa using hc, gaveUp, List.any_eq_true] at this
              obtain ⟨z, hz, hz'⟩ := this
              obtain ⟨l1, l2, e⟩ := List.append_of_mem hz
              cases z with
              | abandoned => exact ⟨l1, l2, e⟩
              | _ => cases hz'
            have h9 := hgo1 l1 l2 e
            have h11 := stageOf_le a.inv.core.stages e
            omega
          have f := follow_exec (stages_follow hH hg hq) (u := newData q.k)
            ⟨fun m hm => absurd hm List.not_mem_nil, fun h => absurd h (by decide), fun h => absurd h (by decide), fun h => absurd h (by decide)⟩ h1
          obtain ⟨d, hfr, hd⟩ := (f.data hab).init hst
          obtain ⟨ps, dto, c1, c2⟩ := fresh_dto hg hq hfr
          have h2 : thread (dssConf q.y H SH q.env g.id j g.keys.length) r1 = .ok r := h2
          rw [thread, hph] at h2
          dsimp only at h2
          rw [if_pos hpe, enterStage] at h2
          dsimp only at h2
          rw [hst] at h2
          have s10 : (dssConf q.y H SH q.env g.id j g.keys.length).stage? 10 =
            some (psProc (some (stPartsig H SH q.env)) (prPartsig H SH) .partsig partsigV) := rfl
          rw [show (9 : Int) + 1 = 10 from rfl, s10] at h2
          dsimp only at h2
          rw [Outcome.bind_eq_ok] at h2
          obtain ⟨r2, e1, h2⟩ := h2
          rw [Outcome.bind_eq_ok] at h2
          obtain ⟨r3, e2, h2⟩ := h2
          rw [Outcome.pure_eq] at h2
          have e3 := Outcome.ok.inj h2
          rw [callStep, flushSndBuf] at e1
          dsimp only [psProc] at e1
          rw [if_neg (by rw [hab]; simp)] at e1
          rw [Outcome.bind_eq_ok] at e1
          obtain ⟨⟨u, acts⟩, e4, e1⟩ := e1
          rw [Outcome.pure_eq] at e1
          have e1 := Outcome.ok.inj e1
          have e4 : u.qual = r1.user.qual ∧ ∃ Q1, r1.user.qual = some Q1 ∧ acts = [.multicast Q1 10 (.partsig dto)] := by
            rw [stPartsig.eq_def, hd] at e4
            dsimp only at e4
            rw [c1] at e4
            dsimp only at e4
            rw [broadcastQual, c2] at e4
            dsimp only at e4
            cases hq1 : r1.user.qual with
            | none => rw [hq1] at e4; cases e4
            | some Q1 =>
              rw [hq1] at e4
              have := Outcome.ok.inj e4
              injection this with e5 e6
              exact ⟨by rw [← e5], Q1, rfl, e6.symm⟩
          obtain ⟨e5, Q1, e6, rfl⟩ := e4
          have hrcv : ∀ m ∈ (r1.rcvbuf.get? 10).getD [], m.op = 10 := by
            intro m hm
            rw [a.inv.core.rcv _ (by omega)] at hm
            exact early_op hm
          have e1 : multicast (dssConf q.y H SH q.env g.id j g.keys.length)
              { state := 10, paused := false, rcvbuf := r1.rcvbuf, sndbuf := r1.sndbuf.delete 10, abandon := r1.abandon,
                terminated := r1.terminated, user := u, phase := .pausing, deadline := r1.deadline + 75, pauseEnd := r1.pauseEnd,
                now := r1.now, log := r1.log ++ [.entered 10] ++ List.map .sent ((r1.sndbuf.get? 10).getD []) ++ [.stepped 10] }
              Q1 10 (.partsig dto) = r2 := e1
          obtain ⟨u1, _, u3⟩ := doActs_user (c := dssConf q.y H SH q.env g.id j g.keys.length) [.multicast Q1 10 (.partsig dto)]
              { state := 10, paused := false, rcvbuf := r1.rcvbuf, sndbuf := r1.sndbuf.delete 10, abandon := r1.abandon,
                terminated := r1.terminated, user := u, phase := .pausing, deadline := r1.deadline + 75, pauseEnd := r1.pauseEnd,
                now := r1.now, log := r1.log ++ [.entered 10] ++ List.map .sent ((r1.sndbuf.get? 10).getD []) ++ [.stepped 10] }
          have u1 : r2.user = u := by rw [← e1]; exact u1
          have u3 : r2.rcvbuf = r1.rcvbuf := by rw [← e1]; exact u3
          have u4 := (processAll_late _ (by rw [u3]; exact fun m hm => le_of_eq (hrcv m hm).symm) 10 e2).2
          have u5 : r.user = r3.user := by rw [← e3]
          rw [u5, u4, u1, e5, e6] at hQ
          refine ⟨.partsig dto, ?_⟩
          have u6 : r.log = r3.log := by rw [← e3]
          rw [u6]
          refine (processAll_log _ e2).subset ?_
          rw [← e1]
          exact multicast_sent Q1 _ 10 _ (le_refl _) (hQ Q1 rfl) hxj
  obtain ⟨dto, hd⟩ := key q.h q.r hq.run h10 hgo hQ
  exact ⟨_, hd, rfl, rfl, rfl⟩

/-- A run that gets to the partial signatures without having been abandoned has sent one to every other member in its QUAL. -/
theorem honest_sends (hH : ∀ b, (H b).length = 32) (hg : g.Sound) {j : Nat} {q : Party K} (hq : Honest H SH g j q) (h10 : 10 ≤ q.r.state)
    (hgo : ∀ l1 l2, q.r.log = l1 ++ .abandoned :: l2 → 9 < stageOf l1) {x : Int} (hQ : ∀ Q, q.r.user.qual = some Q → x ∈ Q)
    (hxj : x ≠ (j : Int)) : ∃ m, .sent m ∈ q.r.log ∧ m.sender = (j : Int) ∧ m.key = ⟨1, x, g.id⟩ ∧ m.op = 10 :=
  always_sends hH hg (honest_pin hq) h10 hgo hQ hxj

end Verif.Props
