import Verif.Proofs.NodeDrain

/-! The steps of a node, one case per section of code. -/
namespace Verif.Node
variable {D : Type}

/-- `_receive_msg` accepts the message for some stage of its protocol. -/
def inRange (stages : Int → Nat) (m : Message D) : Prop := 0 ≤ m.op ∧ m.op < stages m.pc

theorem receiveMsg_range (s : Sys D) (m : Message D) :
    ∃ qs, receiveMsg s m = { s with queues := qs } ∧
      ∀ p, ∃ add, qs p = s.queues p ++ add ∧ ∀ x ∈ add, x = m ∧ p = (m.pc, m.rcpt) ∧ inRange s.stages m := by
  rw [receiveMsg]
  by_cases h1 : (!(decide (0 ≤ m.op) && decide (m.op < s.stages m.pc))) = true
  · rw [if_pos h1]; exact ⟨s.queues, rfl, fun p => ⟨[], by simp, by simp⟩⟩
  · rw [if_neg h1]
    have hr : inRange s.stages m := by
      rw [Bool.not_eq_true', Bool.not_eq_false, Bool.and_eq_true, decide_eq_true_eq, decide_eq_true_eq] at h1
      exact h1
    by_cases h2 : (s.queues (m.pc, m.rcpt)).length < rcvBufMax
    · rw [if_pos h2]
      refine ⟨_, rfl, fun p => ?_⟩
      rw [update]
      by_cases e : p = (m.pc, m.rcpt)
      · rw [if_pos e]; exact ⟨[m], by rw [e], by simp [e, hr]⟩
      · rw [if_neg e]; exact ⟨[], by simp, by simp⟩
    · rw [if_neg h2]; exact ⟨s.queues, rfl, fun p => ⟨[], by simp, by simp⟩⟩

theorem foldl_receiveMsg_range (s : Sys D) (ms : List (Message D)) :
    ∃ qs, ms.foldl receiveMsg s = { s with queues := qs } ∧
      ∀ p, ∃ add, qs p = s.queues p ++ add ∧ ∀ x ∈ add, x ∈ ms ∧ p = (x.pc, x.rcpt) ∧ inRange s.stages x := by
  induction ms generalizing s with
  | nil => exact ⟨s.queues, rfl, fun p => ⟨[], by simp, by simp⟩⟩
  | cons m ms ih =>
    rw [List.foldl_cons]
    obtain ⟨qs, h1, h2⟩ := receiveMsg_range s m
    obtain ⟨qs', h3, h4⟩ := ih (receiveMsg s m)
    refine ⟨qs', by rw [h3, h1], fun p => ?_⟩
    obtain ⟨a, ha, hx⟩ := h2 p
    obtain ⟨b, hb, hy⟩ := h4 p
    rw [h1] at hb hy
    dsimp only at hb hy
    refine ⟨a ++ b, by rw [hb, ha, List.append_assoc], ?_⟩
    intro x hxm
    rw [List.mem_append] at hxm
    rcases hxm with hxm | hxm
    · obtain ⟨e1, e2, e3⟩ := hx x hxm
      subst e1
      exact ⟨by simp, e2, e3⟩
    · obtain ⟨e1, e2, e3⟩ := hy x hxm
      exact ⟨by simp [e1], e2, e3⟩

/-- The queues after messages `new` were given to `_receive_msg`. -/
def Fed (s : Sys D) (new : List (Message D)) (qs : Int × Int → List (Message D)) : Prop :=
  ∀ p, ∃ add, qs p = s.queues p ++ add ∧ ∀ x ∈ add, x ∈ new ∧ p = (x.pc, x.rcpt) ∧ inRange s.stages x

/-- What a firewall event does: the queues get the messages that are new in the output. -/
def FwDone (s : Sys D) (fe : Firewall.Ev D) (f' : Firewall.Fw D) (qs : Int × Int → List (Message D)) : Prop :=
  Firewall.step s.fw fe = .ok f' ∧ Fed s (f'.out.drop s.fw.out.length) qs

theorem fwEvent_done {s s' : Sys D} {fe : Firewall.Ev D} (hs : fwEvent s fe = .ok s') :
    ∃ f' qs, FwDone s fe f' qs ∧ s' = { s with fw := f', queues := qs } := by
  rw [fwEvent, Outcome.bind_eq_ok] at hs
  obtain ⟨f', hstep, hs⟩ := hs
  have hs := (Outcome.ok.inj hs).symm
  obtain ⟨qs, h1, h2⟩ := foldl_receiveMsg_range { s with fw := f' } (f'.out.drop s.fw.out.length)
  exact ⟨f', qs, ⟨hstep, h2⟩, by rw [hs, h1]⟩

/-- The node events that are just firewall events. -/
def fwOf : Ev D → Option (Firewall.Ev D)
  | .tick t => some (.tick t)
  | .latch => some .latch
  | .net m => some (.msg m)
  | .fwStep i => some (.step i)
  | _ => none

/-- The node events that are just registry events. -/
def regOf : Ev D → Option Registry.Ev
  | .finish r => some (.finish r)
  | .task i => some (.task i)
  | _ => none

/-- The signal of a runner. -/
def signal (s : Sys D) (k : RunKey) : Message D := ⟨0, -k.pc, k.gidx, k.runId, 0, s.nil⟩

/-- The events that can happen, and what they change. -/
inductive Shape (s : Sys D) : Ev D → Sys D → Prop
  | fw {e : Ev D} {fe f' qs} : fwOf e = some fe → FwDone s fe f' qs → Shape s e { s with fw := f', queues := qs }
  | reg {e : Ev D} {re r'} : regOf e = some re → Registry.step s.reg re = .ok r' → Shape s e { s with reg := r' }
  | launch {k a} : Shape s (.launch k a) { s with runners := s.runners ++ [⟨k, a, 0, 0, 0⟩] }
  | take {q m ms} : s.cons q = .idle → s.queues q = m :: ms →
      Shape s (.cons q) { s with queues := update s.queues q ms, cons := update s.cons q (.got m) }
  | give {q m} : s.cons q = .found m → Shape s (.cons q) { s with cons := update s.cons q .idle }
  | delete {q m r'} : s.cons q = .got m → m.pc < 0 → Firewall.keyValid s.fw (target m) = true →
      Registry.step s.reg (.delete (target m)) = .ok r' → Shape s (.cons q) { s with cons := update s.cons q .idle, reg := r' }
  | find {q m r'} : s.cons q = .got m → ¬ m.pc < 0 → Firewall.keyValid s.fw m.key = true →
      Registry.step s.reg (.ensure m.key) = .ok r' → Shape s (.cons q) { s with cons := update s.cons q (.found m), reg := r' }
  | observe {j : Nat} {u : Runner} {r'} : s.runners[j]? = some u → u.pos = 0 → Firewall.keyValid s.fw u.key = true →
      Registry.step s.reg (.obs u.key) = .ok r' →
      Shape s (.runner j) { s with runners := s.runners.set j { u with pos := u.pos + 1, chan := s.reg.chans.length }, reg := r' }
  | allow {j : Nat} {u : Runner} {f' qs} : s.runners[j]? = some u → u.pos = 1 → FwDone s (.allow u.key u.allow) f' qs →
      Shape s (.runner j) { s with runners := s.runners.set j { u with pos := u.pos + 1, call := s.fw.calls.length }, fw := f', queues := qs }
  | sleep {j : Nat} {u : Runner} : s.runners[j]? = some u → u.pos = 3 → u.allow.start ≤ s.fw.now →
      Shape s (.runner j) { s with runners := s.runners.set j { u with pos := u.pos + 1 } }
  | ensure {j : Nat} {u : Runner} {r'} : s.runners[j]? = some u → u.pos = 4 → Firewall.keyValid s.fw u.key = true →
      Registry.step s.reg (.ensure u.key) = .ok r' →
      Shape s (.runner j) { s with runners := s.runners.set j { u with pos := u.pos + 1 }, reg := r' }
  | recv {j : Nat} {u : Runner} {r'} : s.runners[j]? = some u → u.pos = 5 → Registry.step s.reg (.recv u.chan) = .ok r' →
      Shape s (.runner j) { s with runners := s.runners.set j { u with pos := u.pos + 1 }, reg := r' }
  | read {j : Nat} {u : Runner} {f' qs} : s.runners[j]? = some u → u.pos = 2 ∨ u.pos = 6 ∨ u.pos = 7 → FwDone s (.read u.call) f' qs →
      Shape s (.runner j) { s with runners := s.runners.set j { u with pos := u.pos + 1 }, fw := f', queues := qs }
  | signal {j : Nat} {u : Runner} {qs} : s.runners[j]? = some u → u.pos = 8 →
      (∀ p, ∃ add, qs p = s.queues p ++ add ∧ ∀ x ∈ add, x = signal s u.key ∧ p = (if -u.key.pc < 0 then u.key.pc else -u.key.pc, u.key.gidx)) →
      Shape s (.runner j) { s with runners := s.runners.set j { u with pos := u.pos + 1 }, queues := qs }

theorem step_shape {s s' : Sys D} {e : Ev D} (hs : step s e = .ok s') : Shape s e s' := by
  have hfw : ∀ (fe : Firewall.Ev D), fwOf e = some fe → fwEvent s fe = .ok s' → Shape s e s' := by
    intro fe h1 h2
    obtain ⟨f', qs, h3, rfl⟩ := fwEvent_done h2
    exact .fw h1 h3
  have hreg : ∀ re, regOf e = some re → regEvent s re = .ok s' → Shape s e s' := by
    intro re h1 h2
    rw [regEvent, Outcome.bind_eq_ok] at h2
    obtain ⟨r, hr, h2⟩ := h2
    have := Outcome.ok.inj h2
    subst this
    exact .reg h1 hr
  have hregAt : ∀ (t : Sys D) (k : RunKey) (re : Registry.Ev), regEventAt t k re = .ok s' →
      Firewall.keyValid t.fw k = true ∧ ∃ r', Registry.step t.reg re = .ok r' ∧ s' = { t with reg := r' } := by
    intro t k re h2
    rw [regEventAt] at h2
    by_cases hv : Firewall.keyValid t.fw k = true
    · rw [if_pos hv, regEvent, Outcome.bind_eq_ok] at h2
      obtain ⟨r, hr, h2⟩ := h2
      exact ⟨hv, r, hr, (Outcome.ok.inj h2).symm⟩
    · rw [if_neg hv] at h2; cases h2
  cases e with
  | tick t => exact hfw (.tick t) rfl hs
  | latch => exact hfw .latch rfl hs
  | net m => exact hfw (.msg m) rfl hs
  | fwStep i => exact hfw (.step i) rfl hs
  | finish r => exact hreg (.finish r) rfl hs
  | task i => exact hreg (.task i) rfl hs
  | launch k a =>
    have := Outcome.ok.inj hs
    subst this
    exact .launch
  | cons q =>
    rw [step, consume] at hs
    cases hc : s.cons q with
    | idle =>
      rw [hc] at hs
      dsimp only at hs
      cases hq : s.queues q with
      | nil => rw [hq] at hs; cases hs
      | cons m ms => rw [hq] at hs; have := Outcome.ok.inj hs; subst this; exact .take hc hq
    | found m => rw [hc] at hs; have := Outcome.ok.inj hs; subst this; exact .give hc
    | got m =>
      rw [hc] at hs
      dsimp only at hs
      by_cases hn : m.pc < 0
      · rw [if_pos hn, ← target_neg hn] at hs
        obtain ⟨h1, r', h2, rfl⟩ := hregAt _ _ _ hs
        exact .delete hc hn h1 h2
      · rw [if_neg hn] at hs
        obtain ⟨h1, r', h2, rfl⟩ := hregAt _ _ _ hs
        exact .find hc hn h1 h2
  | runner j =>
    rw [step, runnerStep] at hs
    cases hu : s.runners[j]? with
    | none => rw [hu] at hs; cases hs
    | some u =>
      rw [hu] at hs
      dsimp only at hs
      by_cases h0 : u.pos = 0
      · rw [if_pos h0] at hs
        obtain ⟨h1, r', h2, rfl⟩ := hregAt _ _ _ hs
        exact .observe hu h0 h1 h2
      rw [if_neg h0] at hs
      by_cases h1 : u.pos = 1
      · rw [if_pos h1] at hs
        obtain ⟨f', qs, h3, rfl⟩ := fwEvent_done hs
        exact .allow hu h1 h3
      rw [if_neg h1] at hs
      by_cases h3 : u.pos = 3
      · rw [if_pos h3] at hs
        by_cases ht : u.allow.start ≤ s.fw.now
        · rw [if_pos ht] at hs
          have := Outcome.ok.inj hs
          subst this
          exact .sleep hu h3 ht
        · rw [if_neg ht] at hs; cases hs
      rw [if_neg h3] at hs
      by_cases h4 : u.pos = 4
      · rw [if_pos h4] at hs
        obtain ⟨h5, r', h6, rfl⟩ := hregAt _ _ _ hs
        exact .ensure hu h4 h5 h6
      rw [if_neg h4] at hs
      by_cases h5 : u.pos = 5
      · rw [if_pos h5, regEvent, Outcome.bind_eq_ok] at hs
        obtain ⟨r, hr, hs⟩ := hs
        have := Outcome.ok.inj hs
        subst this
        exact .recv hu h5 hr
      rw [if_neg h5] at hs
      by_cases h2 : u.pos = 2 ∨ u.pos = 6 ∨ u.pos = 7
      · rw [if_pos h2] at hs
        obtain ⟨f', qs, h6, rfl⟩ := fwEvent_done hs
        exact .read hu h2 h6
      rw [if_neg h2] at hs
      by_cases h8 : u.pos = 8
      · rw [if_pos h8, sendSignal] at hs
        dsimp only at hs
        by_cases hn : -u.key.pc < 0
        · rw [if_pos hn] at hs
          by_cases hlen : (s.queues (- -u.key.pc, u.key.gidx)).length < rcvBufMax
          · rw [if_pos hlen] at hs
            have := Outcome.ok.inj hs
            subst this
            refine .signal hu h8 fun p => ?_
            rw [if_pos hn, Int.neg_neg]
            by_cases e : p = (u.key.pc, u.key.gidx)
            · subst e
              exact ⟨[Node.signal s u.key], by rw [update, if_pos rfl]; rfl, by simp⟩
            · exact ⟨[], by rw [update, if_neg e, List.append_nil], by simp⟩
          · rw [if_neg hlen] at hs; cases hs
        · rw [if_neg hn] at hs
          have hs := (Outcome.ok.inj hs).symm
          obtain ⟨qs, e1, e2⟩ := receiveMsg_eq { s with runners := s.runners.set j { u with pos := u.pos + 1 } }
            (⟨0, -u.key.pc, u.key.gidx, u.key.runId, 0, s.nil⟩ : Message D)
          rw [hs, e1]
          refine .signal hu h8 fun p => ?_
          obtain ⟨add, h6, h7⟩ := e2 p
          rw [if_neg hn]
          exact ⟨add, h6, h7⟩
      · rw [if_neg h8] at hs; cases hs

end Verif.Node
