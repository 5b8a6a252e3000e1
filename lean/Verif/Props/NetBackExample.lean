import Verif.Props.NetBack
import Verif.Props.NetTimeExample

/-! C110 is not vacuous: a connection breaks and is made again, with one message lost; and a peer that was away for ten minutes, with a message dropped 302 s after it
has come back. -/
namespace Verif.Props.NetTime
open Verif.NetTime Verif.Spec.NetTime

/-- A test for `Back`; `news` are the connections made so far. -/
def backB (news : List Nat) : St Nat → List (Ev Nat) → Bool
  | _, [] => true
  | s, e :: h => callB news s e && match step s e with
    | .ok s' => backB (newsOf e ++ news) s' h
    | _ => true
where
  callB (news : List Nat) (s : St Nat) : Ev Nat → Bool
    | .call ok => ok || (match s.base.client with | some c => decide (c ∉ news) | none => true)
    | .dialled _ r => r.isSome
    | _ => true
  newsOf : Ev Nat → List Nat
    | .dialled _ (some c) => [c]
    | _ => []

theorem backB_sound {news : List Nat} {s s2 : St Nat} {h : List (Ev Nat)} (hb : backB news s h = true) (hr : run s h = .ok s2) :
    (∀ i r, .dialled i r ∈ h → r ≠ none) ∧
    ∀ g1 ok g2, h = g1 ++ .call ok :: g2 → ∀ s1, run s g1 = .ok s1 → ∀ c, s1.base.client = some c → ((∃ i, .dialled i (some c) ∈ g1) ∨ c ∈ news) → ok = true := by
  induction h generalizing s news with
  | nil =>
    refine ⟨(fun i r hm => nomatch hm), fun g1 ok g2 hh => ?_⟩
    cases g1 <;> cases hh
  | cons e h ih =>
    rw [run, Outcome.bind_eq_ok] at hr
    obtain ⟨s', h1, h2⟩ := hr
    rw [backB, h1, Bool.and_eq_true] at hb
    obtain ⟨i1, i2⟩ := ih hb.2 h2
    refine ⟨fun i r hm => ?_, fun g1 ok g2 hh s1 hr1 c hc hn => ?_⟩
    · rcases List.mem_cons.1 hm with rfl | hm
      · have := hb.1
        rw [backB.callB] at this
        rintro rfl; cases this
      · exact i1 i r hm
    · rcases g1 with _ | ⟨e', g1⟩
      · cases hr1
        cases hh
        have := hb.1
        rw [backB.callB, hc] at this
        rcases hn with ⟨i, hi⟩ | hn
        · cases hi
        · simpa [hn] using this
      · rw [List.cons_append, List.cons.injEq] at hh
        obtain ⟨rfl, rfl⟩ := hh
        rw [run, h1] at hr1
        refine i2 g1 ok g2 rfl s1 hr1 c hc ?_
        rcases hn with ⟨i, hi⟩ | hn
        · rcases List.mem_cons.1 hi with rfl | hi
          · exact .inr (List.mem_append_left _ (List.mem_singleton_self _))
          · exact .inl ⟨i, hi⟩
        · exact .inr (List.mem_append_right _ hn)

/-- A connection is made, and a message delivered. -/
def tbFirst : List (Ev Nat) := [.spawn 150 200, .tick 2000, .dial 0, .dialled 0 (some 3), .recv 0, .send 7, .get, .tick 2005, .call true]

/-- It breaks: the next message is lost, the one after it is delivered three seconds later; much later two more are sent. -/
def tbSecond : List (Ev Nat) :=
  [.send 8, .get, .tick 2010, .call false, .tick 2500, .send 9, .get, .closing 999, .tick 3499, .spawn 150 200, .tick 5499, .dial 1, .tick 5509, .dialled 1 (some 4),
    .recv 1, .get, .tick 5510, .call true, .tick 400000, .send 10, .send 11]

/-- They are delivered. -/
def tbThird : List (Ev Nat) := [.get, .tick 400004, .call true, .get, .tick 400005, .call true, .tick 410000]

/-- One round of a connector: it sleeps for `d`, and dials five times in vain. -/
def tbRound (t d : Int) : List (Ev Nat) :=
  [.rest 0, .tick (t + d), .again 0 100, .tick (t + d + 2000), .dial 0, .dialled 0 none, .tick (t + d + 2100), .dial 0, .dialled 0 none, .tick (t + d + 2200), .dial 0,
    .dialled 0 none, .tick (t + d + 2300), .dial 0, .dialled 0 none, .tick (t + d + 2400), .dial 0, .dialled 0 none]

/-- The rounds with these delays. -/
def tbRounds (t : Int) : List Int → List (Ev Nat)
  | [] => []
  | d :: ds => tbRound t d ++ tbRounds (t + d + 2400) ds

/-- A peer that is not there for more than five minutes; the connector sleeps for five minutes then. -/
def tbAway : List (Ev Nat) :=
  [.spawn 150 100, .tick 2000, .dial 0, .dialled 0 none, .tick 2100, .dial 0, .dialled 0 none, .tick 2200, .dial 0, .dialled 0 none, .tick 2300, .dial 0,
    .dialled 0 none, .tick 2400, .dial 0, .dialled 0 none, .recv 0] ++ tbRounds 2400 [600, 1200, 2400, 4800, 9600, 19200, 38400, 76800, 153600] ++ [.rest 0]

/-- From then on it is there. A message is dropped 302 s later; one after that is delivered. -/
def tbDropped : List (Ev Nat) :=
  [.tick 630600, .again 0 100, .tick 632600, .send 7, .get, .selDrop]

/-- The rest. -/
def tbAfter : List (Ev Nat) := [.dial 0, .tick 632610, .dialled 0 (some 3), .tick 632611, .send 8, .get, .selConn 0, .tick 632612, .call true]

/-- Both histories are prompt. In the first a call fails and the two messages sent later are delivered; in the second a message is dropped 302 s after the peer has
come back. -/
def tbCheck : Bool :=
  (match run (init 0) tbFirst with
  | .ok s1 => promptB 10 5 s1 (tbSecond ++ tbThird) && backB [] s1 (tbSecond ++ tbThird) && decide (s1.now = 2005) && decide (failures s1 = 0) &&
    (match run s1 tbSecond with
    | .ok s => decide (s.now = 400000) && decide (s.base.queue = [10, 11]) && decide (called s = [7, 8, 9]) && decide (failures s = 1) &&
      (match run s tbThird with
      | .ok s2 => decide (s2.now = 410000) && decide (called s2 = [7, 8, 9, 10, 11])
      | _ => false)
    | _ => false)
  | _ => false) &&
  (match run (init 0) tbAway with
  | .ok s1 => promptB 10 5 s1 (tbDropped ++ tbAfter) && backB [] s1 (tbDropped ++ tbAfter) && decide (s1.now + 302000 = 632600) &&
    (match run s1 (tbDropped ++ tbAfter) with
    | .ok s2 => decide (called s2 = [8]) && decide (s2.base.accepted = [7, 8])
    | _ => false)
  | _ => false)

theorem tbCheck_ok : tbCheck = true := by decide +kernel

/-- All hypotheses of `C110_recovers` hold with `D = 10` and `L = 5`, for its last part as well. -/
theorem tb_hypotheses : ∃ s1 s s2, run (init 0) tbFirst = .ok s1 ∧ Prompt 10 5 s1 (tbSecond ++ tbThird) ∧ Back s1 (tbSecond ++ tbThird) ∧
    run s1 (tbSecond ++ tbThird) = .ok s2 ∧ run s1 tbSecond = .ok s ∧ s1.now + 302000 + 10 < s.now ∧
    s.now + 2999 + 10 + ((s.base.queue.length : Int) + 1) * 5 < s2.now ∧ failures s1 = 0 ∧ failures s = 1 ∧ called s2 = [7, 8, 9, 10, 11] := by
  have h := tbCheck_ok
  unfold tbCheck at h
  rw [Bool.and_eq_true] at h
  obtain ⟨h, _⟩ := h
  cases h1 : run (init 0) tbFirst with
  | err => rw [h1] at h; cases h
  | panic => rw [h1] at h; cases h
  | ok s1 =>
    rw [h1] at h
    simp only [Bool.and_eq_true, decide_eq_true_eq] at h
    obtain ⟨⟨⟨⟨h2, h3⟩, h4⟩, h5⟩, h6⟩ := h
    cases h7 : run s1 tbSecond with
    | err => rw [h7] at h6; cases h6
    | panic => rw [h7] at h6; cases h6
    | ok s =>
      rw [h7] at h6
      simp only [Bool.and_eq_true, decide_eq_true_eq] at h6
      obtain ⟨⟨⟨⟨k1, k2⟩, k3⟩, k4⟩, k5⟩ := h6
      cases h8 : run s tbThird with
      | err => rw [h8] at k5; cases k5
      | panic => rw [h8] at k5; cases k5
      | ok s2 =>
        rw [h8] at k5
        simp only [Bool.and_eq_true, decide_eq_true_eq] at k5
        have hr : run s1 (tbSecond ++ tbThird) = .ok s2 := by rw [run_append, h7]; exact h8
        obtain ⟨b1, b2⟩ := backB_sound h3 hr
        refine ⟨s1, s, s2, rfl, promptB_sound h2, ⟨b1, fun g1 ok g2 hh s' hr' c hc hn => b2 g1 ok g2 hh s' hr' c hc (.inl hn)⟩, hr, h7, ?_, ?_, h5, k4, k5.2⟩
        · rw [h4, k1]; decide
        · rw [k1, k2, k5.1]; decide

/-- The bound on the time in which messages may be dropped is met: one is dropped 302 s after the peer has come back. -/
theorem tb_dropped : ∃ s1 s2, run (init 0) tbAway = .ok s1 ∧ Prompt 10 5 s1 (tbDropped ++ tbAfter) ∧ Back s1 (tbDropped ++ tbAfter) ∧
    run s1 (tbDropped ++ tbAfter) = .ok s2 ∧ s1.now + 302000 = 632600 ∧ called s2 = [8] ∧ s2.base.accepted = [7, 8] := by
  have h := tbCheck_ok
  unfold tbCheck at h
  rw [Bool.and_eq_true] at h
  obtain ⟨_, h⟩ := h
  cases h1 : run (init 0) tbAway with
  | err => rw [h1] at h; cases h
  | panic => rw [h1] at h; cases h
  | ok s1 =>
    rw [h1] at h
    simp only [Bool.and_eq_true, decide_eq_true_eq] at h
    obtain ⟨⟨⟨h2, h3⟩, h4⟩, h6⟩ := h
    cases h7 : run s1 (tbDropped ++ tbAfter) with
    | err => rw [h7] at h6; cases h6
    | panic => rw [h7] at h6; cases h6
    | ok s2 =>
      rw [h7] at h6
      simp only [Bool.and_eq_true, decide_eq_true_eq] at h6
      obtain ⟨b1, b2⟩ := backB_sound h3 h7
      exact ⟨s1, s2, rfl, promptB_sound h2, ⟨b1, fun g1 ok g2 hh s' hr' c hc hn => b2 g1 ok g2 hh s' hr' c hc (.inl hn)⟩, h7, h4, h6⟩

end Verif.Props.NetTime
