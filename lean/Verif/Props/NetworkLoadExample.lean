import Verif.Props.NetTimeExample
import Verif.Props.NetworkLoad

/-! C109 is not vacuous: a small process sends three messages to another. -/
namespace Verif.Props.NetTime
open Verif.Dkg Verif.Network Verif.Spec.Network
open Verif.Spec.NetTime (Prompt Answers Load stamps sends)

/-- A process that only keeps a clock, sends, and receives. -/
inductive ToyEv where
  | tick (t : Int)
  | emit (m : Message Dto)
  | arrive (m : Message Dto)

/-- Its clock and what it has sent and received. -/
structure Toy where
  now : Int
  sent : List (Message Dto)
  got : List (Message Dto)

/-- The process, which sends with the callers of guest 0 for protocol 0. -/
def toyProg : Prog Toy ToyEv where
  init := ⟨0, [], []⟩
  step s e := match e with
    | .tick t => .ok { s with now := t }
    | .emit m => .ok { s with sent := s.sent ++ [m] }
    | .arrive m => .ok { s with got := s.got ++ [m] }
  arrive := .arrive
  arrival e := match e with | .arrive _ => true | _ => false
  logs s := [((0, 0), s.sent)]

/-- Two such processes; one has a queue to the other. -/
def toyNet : Net Bool Toy ToyEv where
  prog _ := toyProg
  routes p := if p then [((0, 0), [some "b"])] else [((0, 0), [none])]
  listen p := if p then [] else ["b"]

/-- A message. -/
def toyMsg (op : Int) : Message Dto := ⟨0, 0, 0, "run", op, .other⟩

/-- What happens, and what that is in the queue. -/
def toyHistory : List (Ev Bool ToyEv × List (NetTime.Ev (Message Dto))) :=
  [(.caller true (0, 0) 0 (.spawn 150), [.spawn 150 100]),
   (.prog true (.tick 2000), [.tick 2000, .dial 0]),
   (.prog false (.tick 2005), []),
   (.prog true (.tick 2010), [.tick 2010]),
   (.caller true (0, 0) 0 (.tried 0 (some 3)), [.dialled 0 (some 3)]),
   (.caller true (0, 0) 0 (.recv 0), [.recv 0]),
   (.prog true (.tick 2020), [.tick 2020]),
   (.prog true (.emit (toyMsg 1)), [.send (toyMsg 1)]),
   (.prog true (.emit (toyMsg 2)), [.send (toyMsg 2)]),
   (.caller true (0, 0) 0 .get, [.get]),
   (.prog true (.tick 2030), [.tick 2030]),
   (.prog false (.tick 2031), []),
   (.call true (0, 0) 0 true (some false), [.call true]),
   (.caller true (0, 0) 0 .get, [.get]),
   (.prog true (.tick 2050), [.tick 2050]),
   (.call true (0, 0) 0 true (some false), [.call true]),
   (.prog true (.tick 2070), [.tick 2070]),
   (.prog true (.emit (toyMsg 3)), [.send (toyMsg 3)]),
   (.caller true (0, 0) 0 .get, [.get]),
   (.prog true (.tick 2080), [.tick 2080])]

/-- A test that the second components tell when things happen in the queue. -/
def accountB : Sys Bool Toy ToyEv → NetTime.St (Message Dto) → List (Ev Bool ToyEv × List (NetTime.Ev (Message Dto))) → Bool
  | _, _, [] => true
  | s, z, (e, l) :: h => match step toyNet s e, NetTime.run z l with
    | .ok s', .ok z' => decide (z'.base = s'.callers true (0, 0) 0) && decide (z'.now = (s'.procs true).now) && accountB s' z' h
    | _, _ => false

theorem accountB_sound {s : Sys Bool Toy ToyEv} {z : NetTime.St (Message Dto)} {h : List (Ev Bool ToyEv × List (NetTime.Ev (Message Dto)))}
    (h1 : z.base = s.callers true (0, 0) 0) (h2 : z.now = (s.procs true).now) (hb : accountB s z h = true) :
    ∀ g1 g2, h.map (·.1) = g1 ++ g2 → ∀ s', run toyNet s g1 = .ok s' →
      ∃ q1 q2 z', h.flatMap (·.2) = q1 ++ q2 ∧ NetTime.run z q1 = .ok z' ∧ z'.base = s'.callers true (0, 0) 0 ∧ z'.now = (s'.procs true).now := by
  induction h generalizing s z with
  | nil =>
    intro g1 g2 hg s' hs
    rcases g1 with _ | ⟨e, g1⟩
    · cases hs; exact ⟨[], [], z, rfl, rfl, h1, h2⟩
    · cases hg
  | cons a h ih =>
    intro g1 g2 hg s' hs
    rcases g1 with _ | ⟨e, g1⟩
    · cases hs; exact ⟨[], _, z, rfl, rfl, h1, h2⟩
    obtain ⟨e', l⟩ := a
    simp only [List.map_cons, List.cons_append, List.cons.injEq] at hg
    obtain ⟨rfl, hg⟩ := hg
    rw [run, Outcome.bind_eq_ok] at hs
    obtain ⟨s1, k1, k2⟩ := hs
    rw [accountB, k1] at hb
    cases k3 : NetTime.run z l with
    | err => rw [k3] at hb; cases hb
    | panic => rw [k3] at hb; cases hb
    | ok z1 =>
      rw [k3] at hb
      simp only [Bool.and_eq_true, decide_eq_true_eq] at hb
      obtain ⟨q1, q2, z', m1, m2, m3, m4⟩ := ih hb.1.1 hb.1.2 hb.2 g1 g2 hg s' k2
      refine ⟨l ++ q1, q2, z', ?_, ?_, m3, m4⟩
      · rw [List.flatMap_cons, m1, List.append_assoc]
      · rw [NetTime.run_append, k3, Outcome.bind_ok, m2]

/-- The events of the network. -/
def toyEvents : List (Ev Bool ToyEv) := toyHistory.map (·.1)

/-- The events of the queue. -/
def toyQueue : List (NetTime.Ev (Message Dto)) := toyHistory.flatMap (·.2)

/-- The history can happen; dialling takes at most 10 ms and a call at most 20 ms, and there are at most two messages within 40 ms. -/
def toyCheck : Bool :=
  (match run toyNet (init toyNet) toyEvents with
  | .ok s => decide ((s.procs false).got = [toyMsg 1, toyMsg 2]) && decide ((s.procs true).now = 2080)
  | _ => false) &&
  accountB (init toyNet) (NetTime.init 0) toyHistory && promptB 10 20 (NetTime.init 0) toyQueue &&
  decide (stamps 0 toyQueue = [2020, 2020, 2070]) &&
  (match NetTime.run (NetTime.init 0) toyQueue with
  | .ok z => decide (z.now = 2080) && decide (z.base.accepted = [toyMsg 1, toyMsg 2, toyMsg 3])
  | _ => false)

theorem toyCheck_ok : toyCheck = true := by decide +kernel

theorem toy_facts : (∃ s, run toyNet (init toyNet) toyEvents = .ok s ∧ (s.procs false).got = [toyMsg 1, toyMsg 2]) ∧
    accountB (init toyNet) (NetTime.init 0) toyHistory = true ∧ Prompt 10 20 (NetTime.init 0) toyQueue ∧ stamps 0 toyQueue = [2020, 2020, 2070] ∧
    ∃ z, NetTime.run (NetTime.init 0) toyQueue = .ok z ∧ z.now = 2080 := by
  have h := toyCheck_ok
  unfold toyCheck at h
  simp only [Bool.and_eq_true, decide_eq_true_eq] at h
  obtain ⟨⟨⟨⟨h1, h2⟩, h3⟩, h4⟩, h5⟩ := h
  refine ⟨?_, h2, promptB_sound h3, h4, ?_⟩
  · cases h6 : run toyNet (init toyNet) toyEvents with
    | err => rw [h6] at h1; cases h1
    | panic => rw [h6] at h1; cases h1
    | ok s =>
      rw [h6] at h1
      simp only [Bool.and_eq_true, decide_eq_true_eq] at h1
      exact ⟨s, rfl, h1.1⟩
  · cases h6 : NetTime.run (NetTime.init 0) toyQueue with
    | err => rw [h6] at h5; cases h5
    | panic => rw [h6] at h5; cases h5
    | ok z =>
      rw [h6] at h5
      simp only [Bool.and_eq_true, decide_eq_true_eq] at h5
      exact ⟨z, rfl, h5.1⟩

theorem toy_answers : Answers toyQueue := by
  constructor
  · intro i r hm
    simp only [toyQueue, toyHistory, List.flatMap_cons, List.flatMap_nil, List.cons_append, List.nil_append, List.mem_cons, List.not_mem_nil, or_false,
      reduceCtorEq, false_or, NetTime.Ev.dialled.injEq] at hm
    rw [hm.2]; exact nofun
  · intro ok hm
    simp only [toyQueue, toyHistory, List.flatMap_cons, List.flatMap_nil, List.cons_append, List.nil_append, List.mem_cons, List.not_mem_nil, or_false,
      reduceCtorEq, false_or, NetTime.Ev.call.injEq] at hm
    rcases hm with hm | hm <;> exact hm

theorem toy_late : ∀ a ∈ stamps 0 toyQueue, 0 + 2000 + 10 < a := by
  rw [toy_facts.2.2.2.1]; decide

theorem toy_load : Load 2 40 (stamps 0 toyQueue) := by
  rw [toy_facts.2.2.2.1]
  intro i a b h1 h2
  rcases i with _ | i
  · cases h1; cases h2; decide
  · rcases i with _ | i <;> cases h2

/-- All hypotheses of `C109_load` hold with `D = 10`, `L = 20`, `B = 2` and `W = 40`; the first two messages have been delivered. -/
theorem toy_queue : ∃ z, NetTime.run (NetTime.init 0) toyQueue = .ok z ∧ Prompt 10 20 (NetTime.init 0) toyQueue ∧ Answers toyQueue ∧
    (∀ a ∈ stamps 0 toyQueue, 0 + 2000 + 10 < a) ∧ Load 2 40 (stamps 0 toyQueue) ∧ (stamps 0 toyQueue)[1]? = some 2020 ∧ 2020 + 40 < z.now := by
  obtain ⟨z, h1, h2⟩ := toy_facts.2.2.2.2
  exact ⟨z, h1, toy_facts.2.2.1, toy_answers, toy_late, toy_load, by rw [toy_facts.2.2.2.1]; rfl, by rw [h2]; decide⟩

/-- The only queue that leads to a process. -/
theorem toy_leads {p : Bool} {k : Int × Int} {x : Int} (h : Leads toyNet p k x) : p = true ∧ k = (0, 0) ∧ x = 0 := by
  obtain ⟨a, r, h1, h2⟩ := h
  have hk : k = (0, 0) := by
    by_contra hk
    have : addr toyNet p k x = none := by
      cases p <;> simp [addr, toyNet, GoMap.get?, Ne.symm hk]
    rw [this] at h1; cases h1
  subst hk
  by_cases hx : x = 0
  · subst hx
    cases p
    · cases h1
    · exact ⟨rfl, rfl, rfl⟩
  · exfalso
    have : addr toyNet p (0, 0) x = none := by
      have hq : ∀ o : Option String, (match Start.queueOf [o] x with | .ok a => a | _ => none) = none := by
        intro o
        unfold Start.queueOf
        split
        · rename_i a he
          split at he
          · rename_i h0
            obtain ⟨n, hn⟩ : ∃ n, x.toNat = n + 1 := ⟨x.toNat - 1, by omega⟩
            rw [hn] at he
            cases he
          · cases he
        · rfl
      cases p
      · exact hq none
      · exact hq (some "b")
    rw [this] at h1; cases h1

/-- The peers answer quickly and the load is small. -/
theorem toy_quick : Quick toyNet Toy.now toyEvents 10 20 2 := by
  intro p k x hl
  obtain ⟨rfl, rfl, rfl⟩ := toy_leads hl
  refine ⟨toyQueue, ?_, toy_facts.2.2.1, toy_answers, toy_late, toy_load⟩
  exact accountB_sound rfl rfl toy_facts.2.1

/-- A test that the clocks are close to each other if the event is a call. -/
def closeB (s : Sys Bool Toy ToyEv) : Ev Bool ToyEv → Bool
  | .call p _ _ _ (some r) => decide ((s.procs p).now - 30 < (s.procs r).now) && decide ((s.procs r).now < (s.procs p).now + 30)
  | _ => true

/-- The test for each event. -/
def inboxB : Sys Bool Toy ToyEv → List (Ev Bool ToyEv) → Bool
  | _, [] => true
  | s, e :: h => closeB s e && match step toyNet s e with
    | .ok s' => inboxB s' h
    | _ => true

theorem inboxB_sound {s : Sys Bool Toy ToyEv} {h : List (Ev Bool ToyEv)} (hb : inboxB s h = true) :
    ∀ g1 p k x ok r g2, h = g1 ++ .call p k x ok (some r) :: g2 → ∀ s', run toyNet s g1 = .ok s' →
      (s'.procs p).now - 30 < (s'.procs r).now ∧ (s'.procs r).now < (s'.procs p).now + 30 := by
  intro g1 p k x ok r g2 hh s' hs
  induction g1 generalizing s h with
  | nil =>
    cases hs
    subst hh
    rw [List.nil_append, inboxB, Bool.and_eq_true] at hb
    have := hb.1
    simp only [closeB, Bool.and_eq_true, decide_eq_true_eq] at this
    exact this
  | cons e g1 ih =>
    subst hh
    rw [run, Outcome.bind_eq_ok] at hs
    obtain ⟨s1, h3, h4⟩ := hs
    rw [List.cons_append, inboxB, Bool.and_eq_true, h3] at hb
    exact ih hb.2 rfl h4

theorem toyInbox_ok : inboxB (init toyNet) toyEvents = true := by decide +kernel

/-- All hypotheses of `C109_works` hold, and the network works. -/
theorem toy_works : Works toyNet Toy.now (fun _ _ => True) toyEvents ∧ ∃ s, run toyNet (init toyNet) toyEvents = .ok s ∧
    (s.procs false).got = [toyMsg 1, toyMsg 2] := by
  obtain ⟨s, h1, h2⟩ := toy_facts.1
  refine ⟨C109_works (by decide) (by decide) (by decide) (by decide) h1 toy_quick ?_, s, h1, h2⟩
  intro g1 p k x ok r g2 hh s m hs _
  exact ⟨trivial, inboxB_sound toyInbox_ok g1 p k x ok r g2 hh s hs⟩

end Verif.Props.NetTime
