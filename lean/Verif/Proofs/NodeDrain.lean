import Verif.Proofs.NodeRun
import Verif.Spec.Node

/-! The consumer empties its queue, and a runner comes to its end. -/
namespace Verif.Node
open Verif.Registry (getElem?_set_cases lt_of_some)
open Verif.Spec.Node (launched launched_append)
variable {D : Type}

theorem run_append (s : Sys D) (es es' : List (Ev D)) : run s (es ++ es') = run s es >>= fun s' => run s' es' := by
  induction es generalizing s with
  | nil => rfl
  | cons e es ih =>
    rw [List.cons_append, run, run]
    cases step s e with
    | ok s1 => exact ih s1
    | err => rfl
    | panic => rfl

theorem run_of_append {s s1 s2 : Sys D} {es es' : List (Ev D)} (h1 : run s es = .ok s1) (h2 : run s1 es' = .ok s2) :
    run s (es ++ es') = .ok s2 := by
  rw [run_append, h1, Outcome.bind_ok, h2]

/-- What the consumer leaves alone. -/
structure Same (s s' : Sys D) : Prop where
  fw : s'.fw = s.fw
  runners : s'.runners = s.runners
  chans : s'.reg.chans = s.reg.chans

theorem chans_ensure (r : Registry.Reg) (k : RunKey) : (Registry.ensure r k).chans = r.chans := by
  rw [Registry.ensure]
  cases r.runs.get? k <;> rfl

/-- How much a consumer has to do. -/
def todo (s : Sys D) (q : Int × Int) : Nat :=
  (match s.cons q with
    | .idle => 0
    | .found _ => 1
    | .got _ => 2) + 3 * (s.queues q).length

/-- A consumer with something to do does it. -/
theorem consume_ok {s : Sys D} (hq : QInv s) (q : Int × Int) (h : s.cons q ≠ .idle ∨ s.queues q ≠ []) :
    ∃ s', consume s q = .ok s' ∧ Same s s' ∧
      todo s' q < todo s q := by
  rw [consume]
  cases hc : s.cons q with
  | idle =>
    dsimp only
    cases hqq : s.queues q with
    | nil => exact absurd hqq (by rcases h with h | h; exact absurd hc h; exact h)
    | cons m ms =>
      refine ⟨_, rfl, ⟨rfl, rfl, rfl⟩, ?_⟩
      simp only [todo, update, if_pos, hc, hqq, List.length_cons]
      omega
  | found m =>
    refine ⟨_, rfl, ⟨rfl, rfl, rfl⟩, ?_⟩
    simp only [todo, update, if_pos, hc]
    omega
  | got m =>
    have hmem : m ∈ seq s q := by rw [seq, hc]; simp [held]
    obtain ⟨hvalid, _⟩ := hq.at_ q m hmem
    dsimp only
    by_cases hn : m.pc < 0
    · rw [if_pos hn, ← target_neg hn, regEventAt]
      dsimp only
      rw [if_pos hvalid, regEvent]
      refine ⟨_, rfl, ⟨rfl, rfl, rfl⟩, ?_⟩
      simp only [todo, update, if_pos, hc]
      omega
    · rw [if_neg hn, ← target_nonneg hn, regEventAt]
      dsimp only
      rw [if_pos hvalid, regEvent]
      refine ⟨_, rfl, ⟨rfl, rfl, chans_ensure _ _⟩, ?_⟩
      simp only [todo, update, if_pos, hc]
      omega

/-- Left alone, the consumer empties its queue. -/
theorem drain {k : RunKey} {s : Sys D} (h : Good k s) (q : Int × Int) :
    ∃ n s', run s (List.replicate n (.cons q)) = .ok s' ∧ s'.cons q = .idle ∧ s'.queues q = [] ∧ Same s s' := by
  induction hn : todo s q using Nat.strongRecOn generalizing s with
  | ind n ih =>
    by_cases hd : s.cons q = .idle ∧ s.queues q = []
    · exact ⟨0, s, rfl, hd.1, hd.2, rfl, rfl, rfl⟩
    · have h1 : s.cons q ≠ .idle ∨ s.queues q ≠ [] := by
        by_cases e : s.cons q = .idle
        · exact .inr fun e' => hd ⟨e, e'⟩
        · exact .inl e
      obtain ⟨s1, hs1, hsame, hlt⟩ := consume_ok h.q q h1
      obtain ⟨n', s', hr, hc, hqe, hsame'⟩ := ih _ (by omega) (good_consume h hs1) rfl
      refine ⟨n' + 1, s', ?_, hc, hqe, hsame'.fw.trans hsame.fw, hsame'.runners.trans hsame.runners, hsame'.chans.trans hsame.chans⟩
      rw [List.replicate_succ, run]
      change consume s q >>= _ = _
      rw [hs1]
      exact hr

theorem keys_step {s s' : Sys D} {e : Ev D} (hs : step s e = .ok s') :
    s'.runners.map Runner.key = s.runners.map Runner.key ++ launched [e] := by
  have hfw : ∀ (t : Sys D) (e : Firewall.Ev D), fwEvent t e = .ok s' → s'.runners = t.runners := by
    intro t e hs
    rw [fwEvent, Outcome.bind_eq_ok] at hs
    obtain ⟨f', _, hs⟩ := hs
    have hs := (Outcome.ok.inj hs).symm
    obtain ⟨qs, h1, _⟩ := foldl_receiveMsg { t with fw := f' } (f'.out.drop t.fw.out.length)
    rw [hs, h1]
  have hreg : ∀ (t : Sys D) (e : Registry.Ev), regEvent t e = .ok s' → s'.runners = t.runners := by
    intro t e hs
    rw [regEvent, Outcome.bind_eq_ok] at hs
    obtain ⟨r, _, hs⟩ := hs
    have := Outcome.ok.inj hs
    subst this; rfl
  have hregAt : ∀ (t : Sys D) (k : RunKey) (e : Registry.Ev), regEventAt t k e = .ok s' → s'.runners = t.runners := by
    intro t k e hs
    rw [regEventAt] at hs
    by_cases hv : Firewall.keyValid t.fw k = true
    · rw [if_pos hv] at hs; exact hreg t e hs
    · rw [if_neg hv] at hs; cases hs
  have same : s'.runners = s.runners → s'.runners.map Runner.key = s.runners.map Runner.key ++ [] := by
    intro e; rw [e, List.append_nil]
  cases e with
  | tick t => exact same (hfw s (.tick t) hs)
  | latch => exact same (hfw s .latch hs)
  | net m => exact same (hfw s (.msg m) hs)
  | fwStep i => exact same (hfw s (.step i) hs)
  | finish r => exact same (hreg s (.finish r) hs)
  | task i => exact same (hreg s (.task i) hs)
  | launch k a =>
    have := Outcome.ok.inj hs
    subst this
    rw [List.map_append]; rfl
  | cons q =>
    refine same ?_
    rw [step, consume] at hs
    cases hc : s.cons q with
    | idle =>
      rw [hc] at hs
      dsimp only at hs
      cases hq : s.queues q with
      | nil => rw [hq] at hs; cases hs
      | cons m ms => rw [hq] at hs; have := Outcome.ok.inj hs; subst this; rfl
    | found m => rw [hc] at hs; have := Outcome.ok.inj hs; subst this; rfl
    | got m =>
      rw [hc] at hs
      dsimp only at hs
      by_cases hn : m.pc < 0
      · rw [if_pos hn] at hs
        have := hregAt _ _ _ hs
        exact this
      · rw [if_neg hn] at hs
        have := hregAt _ _ _ hs
        exact this
  | runner j =>
    rw [step, runnerStep] at hs
    rw [show launched [Ev.runner (D := D) j] = [] from rfl, List.append_nil]
    cases hu : s.runners[j]? with
    | none => rw [hu] at hs; cases hs
    | some u =>
      rw [hu] at hs
      dsimp only at hs
      have fin : ∀ u' : Runner, u'.key = u.key → s'.runners = s.runners.set j u' → s'.runners.map Runner.key = s.runners.map Runner.key := by
        intro u' e1 e2
        rw [e2, Registry.map_set_same Runner.key u' hu e1]
      by_cases h0 : u.pos = 0
      · rw [if_pos h0] at hs; exact fin { u with pos := u.pos + 1, chan := s.reg.chans.length } rfl (hregAt _ _ _ hs)
      rw [if_neg h0] at hs
      by_cases h1 : u.pos = 1
      · rw [if_pos h1] at hs; exact fin { u with pos := u.pos + 1, call := s.fw.calls.length } rfl (hfw _ _ hs)
      rw [if_neg h1] at hs
      by_cases h3 : u.pos = 3
      · rw [if_pos h3] at hs
        by_cases ht : u.allow.start ≤ s.fw.now
        · rw [if_pos ht] at hs
          have := Outcome.ok.inj hs
          subst this
          exact fin { u with pos := u.pos + 1 } rfl rfl
        · rw [if_neg ht] at hs; cases hs
      rw [if_neg h3] at hs
      by_cases h4 : u.pos = 4
      · rw [if_pos h4] at hs; exact fin { u with pos := u.pos + 1 } rfl (hregAt _ _ _ hs)
      rw [if_neg h4] at hs
      by_cases h5 : u.pos = 5
      · rw [if_pos h5] at hs; exact fin { u with pos := u.pos + 1 } rfl (hreg _ _ hs)
      rw [if_neg h5] at hs
      by_cases h2 : u.pos = 2 ∨ u.pos = 6 ∨ u.pos = 7
      · rw [if_pos h2] at hs; exact fin { u with pos := u.pos + 1 } rfl (hfw _ _ hs)
      rw [if_neg h2] at hs
      by_cases h8 : u.pos = 8
      · rw [if_pos h8, sendSignal] at hs
        refine fin { u with pos := u.pos + 1 } rfl ?_
        dsimp only at hs
        by_cases hn : -u.key.pc < 0
        · rw [if_pos hn] at hs
          by_cases hlen : (s.queues (- -u.key.pc, u.key.gidx)).length < rcvBufMax
          · rw [if_pos hlen] at hs; have := Outcome.ok.inj hs; subst this; rfl
          · rw [if_neg hlen] at hs; cases hs
        · rw [if_neg hn] at hs
          have hs := (Outcome.ok.inj hs).symm
          obtain ⟨qs, e1, _⟩ := receiveMsg_eq { s with runners := s.runners.set j { u with pos := u.pos + 1 } }
            (⟨0, -u.key.pc, u.key.gidx, u.key.runId, 0, s.nil⟩ : Message D)
          rw [hs, e1]
      · rw [if_neg h8] at hs; cases hs

/-- The keys of the runners are the launches of the history. -/
theorem keys_run {s s' : Sys D} {es : List (Ev D)} (hs : run s es = .ok s') :
    s'.runners.map Runner.key = s.runners.map Runner.key ++ launched es := by
  induction es generalizing s with
  | nil => have := Outcome.ok.inj hs; subst this; simp [launched]
  | cons e es ih =>
    rw [run, Outcome.bind_eq_ok] at hs
    obtain ⟨s1, h1, h2⟩ := hs
    rw [ih h2, keys_step h1, List.append_assoc, ← launched_append]
    rfl

theorem uniq_of_count {k : RunKey} {rs : List Runner} (h : (rs.map Runner.key).count k ≤ 1) : Uniq k rs := by
  intro j u j' u' hu hu' hk hk'
  have key : ∀ (l : List RunKey) (a b : Nat), l.count k ≤ 1 → l[a]? = some k → l[b]? = some k → a = b := by
    intro l
    induction l with
    | nil => intro a b _ ha; cases ha
    | cons x l ih =>
      intro a b hc ha hb
      rw [List.count_cons] at hc
      have pos : ∀ i : Nat, l[i]? = some k → 0 < l.count k := by
        intro i hi
        exact List.count_pos_iff.2 (List.mem_iff_getElem?.2 ⟨i, hi⟩)
      cases a with
      | zero =>
        cases b with
        | zero => rfl
        | succ b =>
          rw [List.getElem?_cons_zero] at ha
          rw [List.getElem?_cons_succ] at hb
          have := pos b hb
          injection ha with ha
          subst ha
          simp only [beq_self_eq_true, if_true] at hc
          omega
      | succ a =>
        cases b with
        | zero =>
          rw [List.getElem?_cons_zero] at hb
          rw [List.getElem?_cons_succ] at ha
          have := pos a ha
          injection hb with hb
          subst hb
          simp only [beq_self_eq_true, if_true] at hc
          omega
        | succ b =>
          rw [List.getElem?_cons_succ] at ha hb
          rw [ih a b (by omega) ha hb]
  refine key _ j j' h ?_ ?_
  · rw [List.getElem?_map, hu, Option.map_some, hk]
  · rw [List.getElem?_map, hu', Option.map_some, hk']

theorem reg_step {s s' : Sys D} {e : Ev D} (h : Registry.RunsInv s.reg) (hs : step s e = .ok s') : Registry.RunsInv s'.reg := by
  have hfw : ∀ (t : Sys D) (e : Firewall.Ev D), Registry.RunsInv t.reg → fwEvent t e = .ok s' → Registry.RunsInv s'.reg := by
    intro t e ht hs
    rw [fwEvent, Outcome.bind_eq_ok] at hs
    obtain ⟨f', _, hs⟩ := hs
    have hs := (Outcome.ok.inj hs).symm
    obtain ⟨qs, h1, _⟩ := foldl_receiveMsg { t with fw := f' } (f'.out.drop t.fw.out.length)
    rw [hs, h1]; exact ht
  have hreg : ∀ (t : Sys D) (e : Registry.Ev), Registry.RunsInv t.reg → regEvent t e = .ok s' → Registry.RunsInv s'.reg := by
    intro t e ht hs
    rw [regEvent, Outcome.bind_eq_ok] at hs
    obtain ⟨r, hr, hs⟩ := hs
    have := Outcome.ok.inj hs
    subst this
    exact Registry.runsInv_step ht hr
  have hregAt : ∀ (t : Sys D) (k : RunKey) (e : Registry.Ev), Registry.RunsInv t.reg → regEventAt t k e = .ok s' →
      Registry.RunsInv s'.reg := by
    intro t k e ht hs
    rw [regEventAt] at hs
    by_cases hv : Firewall.keyValid t.fw k = true
    · rw [if_pos hv] at hs; exact hreg t e ht hs
    · rw [if_neg hv] at hs; cases hs
  cases e with
  | tick t => exact hfw s (.tick t) h hs
  | latch => exact hfw s .latch h hs
  | net m => exact hfw s (.msg m) h hs
  | fwStep i => exact hfw s (.step i) h hs
  | finish r => exact hreg s (.finish r) h hs
  | task i => exact hreg s (.task i) h hs
  | launch k a =>
    have := Outcome.ok.inj hs
    subst this
    exact h
  | cons q =>
    rw [step, consume] at hs
    cases hc : s.cons q with
    | idle =>
      rw [hc] at hs
      dsimp only at hs
      cases hq : s.queues q with
      | nil => rw [hq] at hs; cases hs
      | cons m ms => rw [hq] at hs; have := Outcome.ok.inj hs; subst this; exact h
    | found m => rw [hc] at hs; have := Outcome.ok.inj hs; subst this; exact h
    | got m =>
      rw [hc] at hs
      dsimp only at hs
      by_cases hn : m.pc < 0
      · rw [if_pos hn] at hs; exact hregAt _ _ _ (by exact h) hs
      · rw [if_neg hn] at hs; exact hregAt _ _ _ (by exact h) hs
  | runner j =>
    rw [step, runnerStep] at hs
    cases hu : s.runners[j]? with
    | none => rw [hu] at hs; cases hs
    | some u =>
      rw [hu] at hs
      dsimp only at hs
      by_cases h0 : u.pos = 0
      · rw [if_pos h0] at hs; exact hregAt _ _ _ (by exact h) hs
      rw [if_neg h0] at hs
      by_cases h1 : u.pos = 1
      · rw [if_pos h1] at hs; exact hfw _ _ (by exact h) hs
      rw [if_neg h1] at hs
      by_cases h3 : u.pos = 3
      · rw [if_pos h3] at hs
        by_cases ht : u.allow.start ≤ s.fw.now
        · rw [if_pos ht] at hs
          have := Outcome.ok.inj hs
          subst this
          exact h
        · rw [if_neg ht] at hs; cases hs
      rw [if_neg h3] at hs
      by_cases h4 : u.pos = 4
      · rw [if_pos h4] at hs; exact hregAt _ _ _ (by exact h) hs
      rw [if_neg h4] at hs
      by_cases h5 : u.pos = 5
      · rw [if_pos h5] at hs; exact hreg _ _ (by exact h) hs
      rw [if_neg h5] at hs
      by_cases h2 : u.pos = 2 ∨ u.pos = 6 ∨ u.pos = 7
      · rw [if_pos h2] at hs; exact hfw _ _ (by exact h) hs
      rw [if_neg h2] at hs
      by_cases h8 : u.pos = 8
      · rw [if_pos h8, sendSignal] at hs
        dsimp only at hs
        by_cases hn : -u.key.pc < 0
        · rw [if_pos hn] at hs
          by_cases hlen : (s.queues (- -u.key.pc, u.key.gidx)).length < rcvBufMax
          · rw [if_pos hlen] at hs; have := Outcome.ok.inj hs; subst this; exact h
          · rw [if_neg hlen] at hs; cases hs
        · rw [if_neg hn] at hs
          have hs := (Outcome.ok.inj hs).symm
          obtain ⟨qs, e1, _⟩ := receiveMsg_eq { s with runners := s.runners.set j { u with pos := u.pos + 1 } }
            (⟨0, -u.key.pc, u.key.gidx, u.key.runId, 0, s.nil⟩ : Message D)
          rw [hs, e1]; exact h
      · rw [if_neg h8] at hs; cases hs

theorem reg_run {s s' : Sys D} {es : List (Ev D)} (h : Registry.RunsInv s.reg) (hs : run s es = .ok s') : Registry.RunsInv s'.reg := by
  induction es generalizing s with
  | nil => have := Outcome.ok.inj hs; subst this; exact h
  | cons e es ih =>
    rw [run, Outcome.bind_eq_ok] at hs
    obtain ⟨s1, h1, h2⟩ := hs
    exact ih (reg_step h h1) h2

/-- A runner that has a value of the firewall to read, reads it. -/
theorem read_ok {s : Sys D} (h : RInv s.fw s.runners) {j : Nat} {u : Runner} (hu : s.runners[j]? = some u) (hp : u.pos = 6 ∨ u.pos = 7)
    {c : Firewall.Call} (hc : s.fw.calls[u.call]? = some c) (h4 : c.sections = 4) :
    ∃ s', step s (.runner j) = .ok s' ∧ s'.runners[j]? = some { u with pos := u.pos + 1 } ∧ s'.queues = s.queues ∧
      ∃ c', s'.fw.calls[u.call]? = some c' ∧ c'.sections = 4 := by
  obtain ⟨c2, hc2, _, hrd⟩ := h.called j u hu (by omega)
  have := Option.some.inj (hc2.symm.trans hc)
  subst this
  have hne : c2.obs ≠ [] := by
    intro e
    rw [Firewall.reads, e, h4, readsAt] at hrd
    rcases hp with hp | hp <;> rw [hp] at hrd <;> simp at hrd
  have hf : Firewall.step s.fw (.read u.call) = .ok { s.fw with calls := s.fw.calls.set u.call { c2 with obs := c2.obs.tail } } := by
    rw [Firewall.step]
    rw [hc]
    dsimp only
    rw [if_neg hne]
  refine ⟨{ s with
    fw := { s.fw with calls := s.fw.calls.set u.call { c2 with obs := c2.obs.tail } }
    runners := s.runners.set j { u with pos := u.pos + 1 } }, ?_, ?_, rfl, ?_⟩
  · rw [step, runnerStep, hu]
    dsimp only
    rw [if_neg (by omega), if_neg (by omega), if_neg (by omega), if_neg (by omega), if_neg (by omega), if_pos (by omega)]
    rw [fwEvent]
    dsimp only
    rw [hf, Outcome.bind_ok]
    dsimp only
    rw [List.drop_length]
    rfl
  · exact List.getElem?_set_self (lt_of_some hu)
  · exact ⟨{ c2 with obs := c2.obs.tail }, List.getElem?_set_self (lt_of_some hc), h4⟩

end Verif.Node
