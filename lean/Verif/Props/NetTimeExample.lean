import Verif.Props.NetTime

/-! C108 is not vacuous: two messages wait for the connection, a third comes later; and a peer that is not there. -/
namespace Verif.Props.NetTime
open Verif.NetTime Verif.Spec.NetTime
variable {M : Type}

/-- A test for `Busy`. -/
def busyB (s : St M) : Bool :=
  (decide (s.base.pc = .spawn) && decide (s.wake ≤ s.now)) ||
  (decide (s.base.pc = .wait) && s.base.connectors.any fun c => c.offer.isSome) ||
  (decide (s.base.pc = .top ∨ s.base.pc = .first) && s.base.pushedBack) ||
  (decide (s.base.pc = .top ∨ s.base.pc = .first ∨ s.base.pc = .post) && !s.base.queue.isEmpty) ||
  decide (s.base.pc = .select) || decide (s.base.pc = .fail) ||
  (s.tries.any fun y => match y.timer with | .asleep till => decide (till ≤ s.now) | _ => false) ||
  ((s.base.connectors.zip s.tries).any fun p => decide (p.1.pc = .resting) && decide (p.2.timer = .idle))

theorem busyB_of {s : St M} (h : Busy s) : busyB s = true := by
  unfold busyB
  simp only [Bool.or_eq_true, Bool.and_eq_true, decide_eq_true_eq, List.any_eq_true]
  cases h with
  | spawn h1 h2 => simp only [h1, h2]; simp
  | recv c h1 h2 h3 => exact .inl (.inl (.inl (.inl (.inl (.inl (.inr ⟨h1, c, h2, Option.isSome_iff_ne_none.2 h3⟩))))))
  | back h1 h2 => exact .inl (.inl (.inl (.inl (.inl (.inr ⟨h1, h2⟩)))))
  | get h1 h2 => exact .inl (.inl (.inl (.inl (.inr ⟨h1, by simpa using h2⟩))))
  | select h1 => exact .inl (.inl (.inl (.inr h1)))
  | fail h1 => exact .inl (.inl (.inr h1))
  | awake y till h1 h2 h3 => exact .inl (.inr ⟨y, h1, by rw [h2]; exact decide_eq_true h3⟩)
  | rest i c y h1 h2 h3 h4 => 
    refine .inr ⟨(c, y), ?_, h3, h4⟩
    refine List.mem_of_getElem? (i := i) ?_
    rw [List.getElem?_zip_eq_some]; exact ⟨h1, h2⟩

/-- A test for `Timely`. -/
def timelyB (D L : Int) (s : St M) (t : Int) : Bool :=
  !busyB s && (decide (s.base.pc ≠ .spawn) || decide (t ≤ s.wake)) &&
  (s.tries.all fun y => match y.timer with | .asleep till => decide (t ≤ till) | .dialling since => decide (t ≤ since + D) | .idle => true) &&
  (decide (s.base.pc ≠ .call) || decide (t ≤ s.since + L))

theorem timelyB_sound {D L : Int} {s : St M} {t : Int} (h : timelyB D L s t = true) : Timely D L s t := by
  unfold timelyB at h
  simp only [Bool.and_eq_true, Bool.or_eq_true, decide_eq_true_eq, Bool.not_eq_true', List.all_eq_true] at h
  obtain ⟨⟨⟨h1, h2⟩, h3⟩, h4⟩ := h
  refine ⟨fun hb => ?_, fun hs => h2.resolve_left (fun hn => hn hs), fun y hy till e => ?_, fun y hy since e => ?_, fun hs => h4.resolve_left (fun hn => hn hs)⟩
  · rw [busyB_of hb] at h1; cases h1
  · have := h3 y hy
    rw [e] at this
    exact of_decide_eq_true this
  · have := h3 y hy
    rw [e] at this
    exact of_decide_eq_true this

/-- The test, if the event is a tick. -/
def tickB (D L : Int) (s : St M) : Ev M → Bool
  | .tick t => timelyB D L s t
  | _ => true

/-- A test for `Prompt`. -/
def promptB (D L : Int) : St M → List (Ev M) → Bool
  | _, [] => true
  | s, e :: h => tickB D L s e && match step s e with | .ok s' => promptB D L s' h | _ => true

theorem promptB_sound {D L : Int} {s : St M} {h : List (Ev M)} (hb : promptB D L s h = true) : Prompt D L s h := by
  intro h1 t h2 hh s1 hr
  induction h1 generalizing s h with
  | nil =>
    cases hr
    subst hh
    rw [List.nil_append, promptB, Bool.and_eq_true] at hb
    exact timelyB_sound hb.1
  | cons e h1 ih =>
    subst hh
    rw [run, Outcome.bind_eq_ok] at hr
    obtain ⟨s', h3, h4⟩ := hr
    rw [List.cons_append, promptB, Bool.and_eq_true, h3] at hb
    exact ih hb.2 rfl h4

/-- Two messages are sent at once. -/
def txFirst : List (Ev Nat) := [.send 7, .spawn 150 200, .tick 1, .send 8]

/-- The connection is made after 2 s; a third message comes. -/
def txSecond : List (Ev Nat) :=
  [.tick 2000, .dial 0, .tick 2010, .dialled 0 (some 3), .recv 0, .get, .tick 2015, .call true, .get, .tick 2020, .call true, .send 9, .get, .tick 2021]

/-- The peer is not there. -/
def txAbsent : List (Ev Nat) :=
  [.send 7, .spawn 150 100, .tick 2000, .dial 0, .dialled 0 none, .tick 2100, .dial 0, .dialled 0 none, .tick 2200, .dial 0, .dialled 0 none, .tick 2300, .dial 0,
    .dialled 0 none, .tick 2400, .dial 0, .dialled 0 none, .recv 0, .get, .selDrop]

/-- The first history is prompt and ends with two of the three messages delivered; in the other a message is dropped after 2.4 s. -/
def txCheck : Bool :=
  promptB 10 5 (init 0) (txFirst ++ txSecond) &&
  (match run (init 0) txFirst with
  | .ok s1 => decide (s1.base.accepted = [7, 8]) && decide (s1.now = 1) && decide (called s1 = []) && match run s1 txSecond with
    | .ok s2 => decide (called s2 = [7, 8]) && decide (s2.base.accepted = [7, 8, 9]) && decide (s2.now = 2021)
    | _ => false
  | _ => false) &&
  match run (init 0) txAbsent with
  | .ok s => decide (s.now = 2400) && decide (s.base.queue = []) && decide (called s = []) && decide (s.base.accepted = [7])
  | _ => false

theorem txCheck_ok : txCheck = true := by decide +kernel

/-- All hypotheses of `C108_delivers` hold with `D = 10` and `L = 5`. -/
theorem tx_hypotheses : ∃ s1 s2, Prompt 10 5 (init 0) (txFirst ++ txSecond) ∧ Answers (txFirst ++ txSecond) ∧ run (init 0) txFirst = .ok s1 ∧
    run s1 txSecond = .ok s2 ∧ max s1.now (0 + 2000 + 10) + ((s1.base.accepted.length : Int) - (called s1).length) * 5 < s2.now := by
  have h := txCheck_ok
  unfold txCheck at h
  simp only [Bool.and_eq_true] at h
  obtain ⟨⟨h1, h2⟩, _⟩ := h
  cases h3 : run (init 0) txFirst with
  | err => rw [h3] at h2; cases h2
  | panic => rw [h3] at h2; cases h2
  | ok s1 =>
    rw [h3] at h2
    simp only [Bool.and_eq_true, decide_eq_true_eq] at h2
    obtain ⟨⟨⟨h4, h5⟩, h6⟩, h7⟩ := h2
    cases h8 : run s1 txSecond with
    | err => rw [h8] at h7; cases h7
    | panic => rw [h8] at h7; cases h7
    | ok s2 =>
      rw [h8] at h7
      simp only [Bool.and_eq_true, decide_eq_true_eq] at h7
      refine ⟨s1, s2, promptB_sound h1, ⟨?_, ?_⟩, rfl, h8, ?_⟩
      · intro i r hm
        simp only [txFirst, txSecond, List.cons_append, List.nil_append, List.mem_cons, List.not_mem_nil, or_false, reduceCtorEq, false_or, Ev.dialled.injEq] at hm
        rw [hm.2]; exact nofun
      · intro ok hm
        simp only [txFirst, txSecond, List.cons_append, List.nil_append, List.mem_cons, List.not_mem_nil, or_false, reduceCtorEq, false_or, Ev.call.injEq] at hm
        rcases hm with hm | hm <;> exact hm
      · rw [h4, h5, h6, h7.2]; decide

end Verif.Props.NetTime
