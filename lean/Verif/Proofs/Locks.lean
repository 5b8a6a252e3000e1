import Verif.Spec.Locks

/-!
For C112 and C113, on the mutexes of signode. The proof orders the mutexes (`rank`): a goroutine takes
one only while all those that it holds come earlier in the order, and does nothing that waits while it holds one. `Ok` says this of a
piece of code, and is shown of every function of the model.
-/
namespace Verif.Locks
open Function (update)

/-! ### The order, and what a function does with the mutexes -/

/-- The place of a mutex in the order. -/
def rank : Lock → Nat
  | .fw => 0
  | .runs _ => 0
  | .run _ => 0
  | .obs _ => 0
  | .kdats => 1
  | .outputs _ => 1
  | .docs => 2
  | .rng => 2

/-- The mutex that guards the data, if one does. -/
def guardOf : Var → Option Lock
  | .fw => some .fw
  | .runs q => some (.runs q)
  | .run r => some (.run r)
  | .obs q => some (.obs q)
  | .outputs q => some (.outputs q)
  | .kdats => some .kdats
  | .docs => some .docs
  | .rng => some .rng
  | .secret _ => none

/-- If a goroutine that holds the mutexes `H`, the last one first, does this then it keeps to the order, gives back only what it holds,
accesses guarded data only with its mutex, does not wait with a mutex, and holds `H'` after it. -/
inductive Ok : List Lock → Code → List Lock → Prop
  | skip {H} : Ok H .skip H
  | acq {H l} (h : ∀ m ∈ H, rank m < rank l) : Ok H (.act (.acq l)) (l :: H)
  | rel {H l} : Ok (l :: H) (.act (.rel l)) H
  | acc {H w v} (h : ∀ l, guardOf v = some l → l ∈ H) : Ok H (.act (.acc w v)) H
  | go {H} : Ok H (.act .go) H
  | wait : Ok [] (.act .wait) []
  | seq {H H' H'' a b} (ha : Ok H a H') (hb : Ok H' b H'') : Ok H (.seq a b) H''
  | alt {H H' a b} (ha : Ok H a H') (hb : Ok H b H') : Ok H (.alt a b) H'
  | loop {H a} (ha : Ok H a H) : Ok H (.loop a) H
  | any {H H' f} (h : ∀ n, Ok H (f n) H') : Ok H (.any f) H'

/-- The same of all that a goroutine has still to do; in the end it holds nothing. -/
inductive OkK : List Lock → List Code → Prop
  | nil : OkK [] []
  | cons {H H' c k} (h : Ok H c H') (hk : OkK H' k) : OkK H (c :: k)

macro "lock_ok" : tactic =>
  `(tactic| repeat' (first
    | exact Ok.skip | exact Ok.go | exact Ok.wait | exact Ok.rel
    | (apply Ok.acq; simp [rank]; done)
    | (apply Ok.acc; simp [guardOf]; done)
    | assumption
    | apply Ok.seq | apply Ok.alt | apply Ok.loop | (apply Ok.any; intro n)))

/-! ### The functions -/

/-- All mutexes that the goroutine holds are before those of `csprng` in the order. -/
def Low (n : Nat) (H : List Lock) : Prop := ∀ m ∈ H, rank m < n

theorem ok_fill {H} (h : Low 2 H) : Ok H fill H := by
  have h' : Ok H (acq .rng) (.rng :: H) := .acq (by simpa [rank, Low] using h)
  unfold fill; lock_ok

theorem ok_marshalSecret {H g} : Ok H (marshalSecret g) H := by unfold marshalSecret; lock_ok

theorem ok_kyber {H g} (h : Low 2 H) : Ok H (kyber g) H := by
  have := ok_fill h; have := @ok_marshalSecret H g
  unfold kyber; lock_ok

theorem ok_docs {H w} (h : Low 2 H) : Ok H (acq .docs ;; .act (.acc w .docs) ;; rel .docs) H := by
  have h' : Ok H (acq .docs) (.docs :: H) := .acq (by simpa [rank, Low] using h)
  lock_ok

theorem ok_registerDoc {H} (h : Low 2 H) : Ok H registerDoc H := ok_docs h
theorem ok_deregisterDoc {H} (h : Low 2 H) : Ok H deregisterDoc H := ok_docs h
theorem ok_dssInit {H} (h : Low 2 H) : Ok H dssInit H := ok_docs h
theorem ok_longterm1 {H} (h : Low 2 H) : Ok H longterm1 H := ok_docs h
theorem ok_docFor {H} (h : Low 2 H) : Ok H docFor H := ok_docs h

theorem Low.mono {H n m} (h : Low n H) (hn : n ≤ m) : Low m H := fun l hl => Nat.lt_of_lt_of_le (h l hl) hn

theorem ok_dssKdat {H} (h : Low 1 H) : Ok H dssKdat H := by
  have h' : Ok H (acq .kdats) (.kdats :: H) := .acq (by simpa [rank, Low] using h)
  unfold dssKdat; lock_ok

theorem ok_makeDssKdat {H g} (h : Low 1 H) : Ok H (makeDssKdat g) H := by
  have h' : Ok H (acq .kdats) (.kdats :: H) := .acq (by simpa [rank, Low] using h)
  have := @ok_kyber H g (h.mono (by decide))
  unfold makeDssKdat makeDkgKdat; lock_ok

theorem ok_pushOutput {H q} (h : Low 1 H) : Ok H (pushOutput q) H := by
  have h' : Ok H (acq (.outputs q)) (.outputs q :: H) := .acq (by simpa [rank, Low] using h)
  unfold pushOutput; lock_ok

theorem ok_popOutput {H q} (h : Low 1 H) : Ok H (popOutput q) H := by
  have h' : Ok H (acq (.outputs q)) (.outputs q :: H) := .acq (by simpa [rank, Low] using h)
  unfold popOutput; lock_ok

theorem low_run {r} : Low 1 [.run r] := by simp [Low, rank]
theorem low_runs {q} : Low 1 [.runs q] := by simp [Low, rank]
theorem low_nil {n} : Low n [] := by simp [Low]

theorem ok_send {r} : Ok [.run r] (send r) [.run r] := by unfold send trySend; lock_ok

theorem ok_broadcast {r} : Ok [.run r] (broadcast r) [.run r] := by
  have := @ok_send r
  unfold broadcast; lock_ok

theorem ok_dssCleanup {r} : Ok [.run r] (dssCleanup r) [.run r] := by unfold dssCleanup; lock_ok

theorem ok_step {r g} : Ok [.run r] (step r g) [.run r] := by
  have := @ok_send r; have := @ok_broadcast r; have := @ok_kyber _ g (@low_run r |>.mono (by decide : 1 ≤ 2))
  have := ok_dssKdat (@low_run r); have := @ok_pushOutput _ (0, g) (@low_run r); have := @ok_pushOutput _ (1, g) (@low_run r)
  have := @ok_longterm1 [.kdats, .run r] (by simp [Low, rank]); have := @ok_docFor [.kdats, .run r] (by simp [Low, rank])
  have := @ok_marshalSecret [.kdats, .run r] g; have := @ok_marshalSecret [.run r] g
  have := ok_fill (@low_run r |>.mono (by decide : 1 ≤ 2))
  unfold step stepDeal stepCommits stepFinal stInit stPartsig dssStFinal abandon sign; lock_ok

theorem ok_processMsg {r g} : Ok [.run r] (processMsg r g) [.run r] := by
  have := @ok_broadcast r; have := @ok_kyber _ g (@low_run r |>.mono (by decide : 1 ≤ 2)); have := ok_dssKdat (@low_run r)
  unfold processMsg dkgProc prPartsig; lock_ok

theorem ok_ensureActiveRun {q} : Ok [] (ensureActiveRun q) [] := by
  have := @ok_kyber _ q.2 (@low_runs q |>.mono (by decide : 1 ≤ 2)); have := @ok_makeDssKdat _ q.2 (@low_runs q)
  unfold ensureActiveRun ensureRun newRun makeDkgKdat; lock_ok

theorem ok_updateTermObservers {q} : Ok [] (updateTermObservers q) [] := by unfold updateTermObservers; lock_ok

theorem ok_obsTerm {q} : Ok [] (obsTerm q) [] := by
  have := @ok_updateTermObservers q
  unfold obsTerm; lock_ok

theorem ok_flushSndBuf {r} : Ok [.run r] (flushSndBuf r) [.run r] := by unfold flushSndBuf trySend; lock_ok

theorem ok_runTimedSteps {r q} : Ok [] (runTimedSteps r q) [] := by
  have := @ok_flushSndBuf r; have := @ok_step r q.2; have := @ok_processMsg r q.2; have := @ok_dssCleanup r
  have := @ok_updateTermObservers q
  unfold runTimedSteps unlockedSleep; lock_ok

theorem ok_runIncomingQueueConsumer {q} : Ok [] (runIncomingQueueConsumer q) [] := by
  have := @ok_ensureActiveRun q; have := fun r => @ok_processMsg r q.2
  unfold runIncomingQueueConsumer deleteRun; lock_ok

theorem ok_fwStateStep : Ok [] fwStateStep [] := by unfold fwStateStep fwSleepUnlockedUntil fwFlush receiveMsg; lock_ok

theorem ok_fwProcess : Ok [] fwProcess [] := by unfold fwProcess receiveMsg; lock_ok

theorem ok_runnerRunGuest {q} : Ok [] (runnerRunGuest q) [] := by
  have := @ok_obsTerm q; have := @ok_ensureActiveRun q
  unfold runnerRunGuest fwSetAllowance; lock_ok

theorem ok_forGuests {f} (h : ∀ g, Ok [] (f g) []) : Ok [] (forGuests f) [] := .loop (.any fun _ => h _)

theorem ok_runSig1 : Ok [] runSig1 [] := by
  have := ok_forGuests fun _ => ok_registerDoc low_nil; have := ok_forGuests fun _ => ok_deregisterDoc low_nil
  have := ok_forGuests fun g => @ok_popOutput _ (1, g) low_nil
  unfold runSig1 runDss runnerRun; lock_ok

theorem ok_main : Ok [] main [] := by
  have := ok_dssInit low_nil; have := ok_forGuests fun g => @ok_popOutput _ (0, g) low_nil
  have := ok_forGuests fun g => Ok.alt (@ok_kyber _ g low_nil) (@ok_makeDssKdat _ g low_nil)
  unfold main protocolStart runLongterm runSigs runnerRun makeDkgKdat; lock_ok

/-- Every goroutine of the program keeps to the order. -/
theorem ok_code (t : Thread) : Ok [] t.code [] := by
  cases t with
  | main => exact ok_main
  | fwLatch => unfold Thread.code fwLatch; lock_ok
  | fwStateStep => exact ok_fwStateStep
  | receive => have := ok_fwProcess; unfold Thread.code receive; lock_ok
  | runOutgoingQueueConsumer => unfold Thread.code runOutgoingQueueConsumer; lock_ok
  | runConnector => unfold Thread.code runConnector; lock_ok
  | runIncomingQueueConsumer q => exact ok_runIncomingQueueConsumer
  | runTimedSteps r q => exact ok_runTimedSteps
  | runnerRunGuest q => exact ok_runnerRunGuest
  | runnerCleanupRun => unfold Thread.code runnerCleanupRun; lock_ok
  | runSig1 => exact ok_runSig1

/-! ### All goroutines together -/

/-- What holds at all times. -/
structure Good (s : Sys) : Prop where
  ok : ∀ i, OkK (s i).held (s i).code
  nodup : ∀ i, (s i).held.Nodup
  own : ∀ i j l, l ∈ (s i).held → l ∈ (s j).held → i = j

theorem OkK.head {H c k} (h : OkK H (c :: k)) : ∃ H', Ok H c H' ∧ OkK H' k := by
  cases h with
  | cons h hk => exact ⟨_, h, hk⟩

/-- A step of one goroutine that takes no mutex. -/
theorem Good.shrink {s : Sys} (g : Good s) (i : Nat) {H k} (hH : H.Sublist (s i).held) (hk : OkK H k) : Good (update s i ⟨H, k⟩) := by
  refine ⟨fun j => ?_, fun j => ?_, fun j j' l h h' => ?_⟩
  · by_cases e : j = i
    · subst e; simpa using hk
    · simpa [e] using g.ok j
  · by_cases e : j = i
    · subst e; simpa using (g.nodup _).sublist hH
    · simpa [e] using g.nodup j
  · have sub : ∀ j, l ∈ (update s i ⟨H, k⟩ j).held → l ∈ (s j).held := by
      intro j hj
      by_cases e : j = i
      · subst e; exact hH.subset (by simpa using hj)
      · simpa [e] using hj
    exact g.own j j' l (sub j h) (sub j' h')

theorem Good.grow {s : Sys} (g : Good s) (i : Nat) {l k} (free : Free s l) (hk : OkK (l :: (s i).held) k) :
    Good (update s i ⟨l :: (s i).held, k⟩) := by
  have mem : ∀ j m, m ∈ (update s i ⟨l :: (s i).held, k⟩ j).held → (m = l ∧ j = i) ∨ m ∈ (s j).held := by
    intro j m hj
    by_cases e : j = i
    · subst e
      rcases List.mem_cons.1 (by simpa using hj : m ∈ l :: (s j).held) with h | h
      · exact .inl ⟨h, rfl⟩
      · exact .inr h
    · exact .inr (by simpa [e] using hj)
  refine ⟨fun j => ?_, fun j => ?_, fun j j' m h h' => ?_⟩
  · by_cases e : j = i
    · subst e; simpa using hk
    · simpa [e] using g.ok j
  · by_cases e : j = i
    · subst e; simpa using ⟨free j, g.nodup j⟩
    · simpa [e] using g.nodup j
  · rcases mem j m h with ⟨e, ej⟩ | h1 <;> rcases mem j' m h' with ⟨e', ej'⟩ | h2
    · rw [ej, ej']
    · exact absurd (e ▸ h2) (free j')
    · exact absurd (e' ▸ h1) (free j)
    · exact g.own j j' m h1 h2

theorem Ok.acq_inv {H l H'} (h : Ok H (.act (.acq l)) H') : H' = l :: H ∧ ∀ m ∈ H, rank m < rank l := by
  cases h with | acq h => exact ⟨rfl, h⟩

theorem Ok.rel_inv {H l H'} (h : Ok H (.act (.rel l)) H') : H = l :: H' := by cases h; rfl

theorem Ok.acc_inv {H w v H'} (h : Ok H (.act (.acc w v)) H') : H' = H ∧ ∀ l, guardOf v = some l → l ∈ H := by
  cases h with | acc h => exact ⟨rfl, h⟩

theorem Ok.go_inv {H H'} (h : Ok H (.act .go) H') : H' = H := by cases h; rfl

theorem Ok.wait_inv {H H'} (h : Ok H (.act .wait) H') : H = [] ∧ H' = [] := by cases h; exact ⟨rfl, rfl⟩

theorem Ok.skip_inv {H H'} (h : Ok H .skip H') : H' = H := by cases h; rfl

theorem Ok.seq_inv {H a b H'} (h : Ok H (.seq a b) H') : ∃ H'', Ok H a H'' ∧ Ok H'' b H' := by
  cases h with | seq ha hb => exact ⟨_, ha, hb⟩

theorem Ok.alt_inv {H a b H'} (h : Ok H (.alt a b) H') : Ok H a H' ∧ Ok H b H' := by
  cases h with | alt ha hb => exact ⟨ha, hb⟩

theorem Ok.loop_inv {H a H'} (h : Ok H (.loop a) H') : H' = H ∧ Ok H a H := by
  cases h with | loop ha => exact ⟨rfl, ha⟩

theorem Ok.any_inv {H f H'} (h : Ok H (.any f) H') : ∀ n, Ok H (f n) H' := by
  cases h with | any h => exact h

theorem Good.moves {s s' : Sys} (g : Good s) {i : Nat} (m : Moves s i s') : Good s' := by
  have hk := g.ok i
  have same : ∀ k, OkK (s i).held k → Good (update s i ⟨(s i).held, k⟩) := fun k h => g.shrink i (List.Sublist.refl _) h
  cases m with
  | acq h free =>
    rw [h] at hk; obtain ⟨H', ho, hk'⟩ := hk.head
    exact g.grow i free (ho.acq_inv.1 ▸ hk')
  | rel h own =>
    rw [h] at hk; obtain ⟨H', ho, hk'⟩ := hk.head
    refine g.shrink i List.erase_sublist ?_
    rw [ho.rel_inv]; simpa using hk'
  | acc h =>
    rw [h] at hk; obtain ⟨H', ho, hk'⟩ := hk.head
    exact same _ (ho.acc_inv.1 ▸ hk')
  | go h =>
    rw [h] at hk; obtain ⟨H', ho, hk'⟩ := hk.head
    exact same _ (ho.go_inv ▸ hk')
  | skip h =>
    rw [h] at hk; obtain ⟨H', ho, hk'⟩ := hk.head
    exact same _ (ho.skip_inv ▸ hk')
  | seq h =>
    rw [h] at hk; obtain ⟨H', ho, hk'⟩ := hk.head; obtain ⟨H'', ha, hb⟩ := ho.seq_inv
    exact same _ (.cons ha (.cons hb hk'))
  | left h =>
    rw [h] at hk; obtain ⟨H', ho, hk'⟩ := hk.head
    exact same _ (.cons ho.alt_inv.1 hk')
  | right h =>
    rw [h] at hk; obtain ⟨H', ho, hk'⟩ := hk.head
    exact same _ (.cons ho.alt_inv.2 hk')
  | leave h =>
    rw [h] at hk; obtain ⟨H', ho, hk'⟩ := hk.head
    exact same _ (ho.loop_inv.1 ▸ hk')
  | again h =>
    rw [h] at hk; obtain ⟨H', ho, hk'⟩ := hk.head
    exact same _ (.cons ho.loop_inv.2 (.cons (.loop ho.loop_inv.2) (ho.loop_inv.1 ▸ hk')))
  | pick n h =>
    rw [h] at hk; obtain ⟨H', ho, hk'⟩ := hk.head
    exact same _ (.cons (ho.any_inv n) hk')

theorem Good.wait_nil {s : Sys} (g : Good s) {i k} (h : (s i).code = .act .wait :: k) : (s i).held = [] ∧ OkK [] k := by
  have hk := g.ok i
  rw [h] at hk; obtain ⟨H', ho, hk'⟩ := hk.head
  exact ⟨ho.wait_inv.1, ho.wait_inv.2 ▸ hk'⟩

theorem Good.idle_nil {s : Sys} (g : Good s) {i} (h : (s i).code = []) : (s i).held = [] := by
  have hk := g.ok i
  rw [h] at hk
  generalize e : (s i).held = H at *
  cases hk; rfl

theorem Reach.good {s : Sys} (h : Reach s) : Good s := by
  induction h with
  | init => exact ⟨fun _ => .nil, fun _ => .nil, fun _ _ _ h => by simp at h⟩
  | start i t _ idle ih =>
    refine ih.shrink i (List.Sublist.refl _) ?_
    rw [ih.idle_nil idle]
    exact .cons (ok_code t) .nil
  | move i _ m ih => exact ih.moves m
  | wait i _ w ih =>
    obtain ⟨h, hk⟩ := ih.wait_nil w
    exact ih.shrink i (List.Sublist.refl _) (by rw [h]; exact hk)

/-! ### Every mutex is given back -/

/-- A goroutine that is about to take a mutex whose place is at most `n`. -/
def Waits (n : Nat) (t : Thr) : Prop := ∃ l k, t.code = .act (.acq l) :: k ∧ rank l ≤ n

/-- Steps that leave those alone that are about to take a mutex whose place is at most `n`. -/
def Leads (n : Nat) (s s' : Sys) : Prop := Run s s' ∧ Good s' ∧ ∀ i, Waits n (s i) → s' i = s i

theorem Run.trans {s s' s'' : Sys} (h : Run s s') (h' : Run s' s'') : Run s s'' := by
  induction h with
  | nil => exact h'
  | cons i m _ ih => exact .cons i m (ih h')

theorem Leads.trans {n} {s s' s'' : Sys} (h : Leads n s s') (h' : Leads n s' s'') : Leads n s s'' :=
  ⟨h.1.trans h'.1, h'.2.1, fun i hi => by rw [h'.2.2 i (by rw [h.2.2 i hi]; exact hi), h.2.2 i hi]⟩

theorem Leads.mono {n m} {s s' : Sys} (hn : n ≤ m) (h : Leads m s s') : Leads n s s' :=
  ⟨h.1, h.2.1, fun i ⟨l, k, e, hl⟩ => h.2.2 i ⟨l, k, e, Nat.le_trans hl hn⟩⟩

theorem Leads.one {n} {s s' : Sys} {i : Nat} (g : Good s) (m : Moves s i s') (hi : ¬ Waits n (s i)) (he : ∀ j, j ≠ i → s' j = s j) :
    Leads n s s' :=
  ⟨.cons i m .nil, g.moves m, fun j hj => he j fun e => hi (e ▸ hj)⟩

/-- The goroutine can finish `c`, or the mutex comes free before. -/
def Finishes (n : Nat) (l : Lock) (i : Nat) (c : Code) : Prop :=
  ∀ (s : Sys) k, Good s → (s i).code = c :: k → l ∈ (s i).held →
    ∃ s', Leads n s s' ∧ (Free s' l ∨ ((s' i).code = k ∧ l ∈ (s' i).held))

theorem Finishes.step {n l i} {s : Sys} {k t} (g : Good s) (hw : ¬ Waits n (s i)) (m : Moves s i (update s i t)) (hc : t.code = k)
    (hl : l ∈ t.held) : ∃ s', Leads n s s' ∧ (Free s' l ∨ ((s' i).code = k ∧ l ∈ (s' i).held)) :=
  ⟨_, .one g m hw (fun j e => by simp [e]), .inr (by simp [hc, hl])⟩

/-- One after the other. -/
theorem Finishes.next {n l i} {c : Code} (hc : Finishes n l i c) {s s' : Sys} {k} (hs : Leads n s s') (e : (s' i).code = c :: k)
    (hl : l ∈ (s' i).held) : ∃ s'', Leads n s s'' ∧ (Free s'' l ∨ ((s'' i).code = k ∧ l ∈ (s'' i).held)) := by
  obtain ⟨s'', h, h'⟩ := hc s' k hs.2.1 e hl
  exact ⟨s'', hs.trans h, h'⟩

theorem finishes {n l i} (hn : rank l = n) (rec' : ∀ l' s, Good s → n < rank l' → ¬ Free s l' → ∃ s', Leads (rank l') s s' ∧ Free s' l')
    (c : Code) : Finishes n l i c := by
  induction c with
  | skip =>
    intro s k g e hl
    exact Finishes.step g (by rintro ⟨_, _, h, _⟩; simp [e] at h) (.skip e) rfl hl
  | act a =>
    intro s k g e hl
    have hk := g.ok i
    rw [e] at hk
    obtain ⟨H', ho, hk⟩ := hk.head
    cases a with
    | acq l' =>
      have hlt : rank l < rank l' := ho.acq_inv.2 _ hl
      have hw : ¬ Waits n (s i) := by
        rintro ⟨l'', k', h, h'⟩
        rw [e] at h; simp only [List.cons.injEq, Code.act.injEq, Act.acq.injEq] at h
        rw [← h.1] at h'; omega
      by_cases free : Free s l'
      · exact Finishes.step g hw (.acq e free) rfl (by simp [hl])
      · obtain ⟨s', hs, free'⟩ := rec' l' s g (hn ▸ hlt) free
        have same : s' i = s i := hs.2.2 i ⟨l', k, e, Nat.le_refl _⟩
        have e' : (s' i).code = .act (.acq l') :: k := by rw [same]; exact e
        have hw' : ¬ Waits n (s' i) := by rw [same]; exact hw
        have one : Leads n s' _ := .one hs.2.1 (.acq e' free') hw' (fun j e => by simp [e])
        exact ⟨_, (hs.mono (by omega)).trans one, .inr (by simp [same, hl])⟩
    | rel l' =>
      have hw : ¬ Waits n (s i) := by rintro ⟨_, _, h, _⟩; simp [e] at h
      have own : l' ∈ (s i).held := by rw [ho.rel_inv]; simp
      have one : Leads n s _ := .one g (.rel e own) hw (fun j e => by simp [e])
      by_cases el : l' = l
      · subst el
        refine ⟨_, one, .inl fun j hj => ?_⟩
        by_cases ej : j = i
        · subst ej
          simp only [Function.update_self] at hj
          exact ((g.nodup j).not_mem_erase) hj
        · simp only [ne_eq, ej, not_false_eq_true, Function.update_of_ne] at hj
          exact ej (g.own j i _ hj own)
      · exact ⟨_, one, .inr (by simp [(List.mem_erase_of_ne (Ne.symm el)).2 hl])⟩
    | acc w v => exact Finishes.step g (by rintro ⟨_, _, h, _⟩; simp [e] at h) (.acc e) rfl hl
    | go => exact Finishes.step g (by rintro ⟨_, _, h, _⟩; simp [e] at h) (.go e) rfl hl
    | wait =>
      rw [(g.wait_nil e).1] at hl
      simp at hl
  | seq a b iha ihb =>
    intro s k g e hl
    have one : Leads n s _ := .one g (.seq e) (by rintro ⟨_, _, h, _⟩; simp [e] at h) (fun j e => by simp [e])
    obtain ⟨s', hs, free | ⟨e', hl'⟩⟩ := iha.next one (k := b :: k) (by simp) (by simpa using hl)
    · exact ⟨s', hs, .inl free⟩
    · exact ihb.next hs e' hl'
  | alt a b iha _ =>
    intro s k g e hl
    have one : Leads n s _ := .one g (.left e) (by rintro ⟨_, _, h, _⟩; simp [e] at h) (fun j e => by simp [e])
    exact iha.next one (by simp) (by simpa using hl)
  | loop a _ =>
    intro s k g e hl
    exact Finishes.step g (by rintro ⟨_, _, h, _⟩; simp [e] at h) (.leave e) rfl hl
  | any f ih =>
    intro s k g e hl
    have one : Leads n s _ := .one g (.pick 0 e) (by rintro ⟨_, _, h, _⟩; simp [e] at h) (fun j e => by simp [e])
    exact (ih 0).next one (by simp) (by simpa using hl)

theorem releases (d : Nat) : ∀ l s, Good s → 3 ≤ rank l + d → ¬ Free s l → ∃ s', Leads (rank l) s s' ∧ Free s' l := by
  induction d with
  | zero => intro l s g h; cases l <;> simp [rank] at h
  | succ d ih =>
    intro l s g h held
    obtain ⟨i, hi⟩ : ∃ i, l ∈ (s i).held := by simpa [Free] using held
    have fin := fun c => @finishes (rank l) l i rfl (fun l' s g hl => ih l' s g (by omega)) c
    have all : ∀ k s, Good s → (s i).code = k → l ∈ (s i).held → ∃ s', Leads (rank l) s s' ∧ Free s' l := by
      intro k
      induction k with
      | nil => intro s g e hl; rw [g.idle_nil e] at hl; simp at hl
      | cons c k ihk =>
        intro s g e hl
        obtain ⟨s', hs, free | ⟨e', hl'⟩⟩ := fin c s k g e hl
        · exact ⟨s', hs, free⟩
        · obtain ⟨s'', hs', free⟩ := ihk s' hs.2.1 e' hl'
          exact ⟨s'', hs.trans hs', free⟩
    exact all _ s g rfl hi

/-! ### Executions for the examples and the counterexample -/

/-- One step of a goroutine while others hold `others`; `n` makes the choice if there is one. -/
def next (others : List Lock) (n : Nat) (t : Thr) : Option Thr :=
  match t.code with
  | .act (.acq l) :: k => if l ∈ t.held ++ others then none else some ⟨l :: t.held, k⟩
  | .act (.rel l) :: k => if l ∈ t.held then some ⟨t.held.erase l, k⟩ else none
  | .act _ :: k => some ⟨t.held, k⟩
  | .skip :: k => some ⟨t.held, k⟩
  | .seq a b :: k => some ⟨t.held, a :: b :: k⟩
  | .alt a b :: k => some ⟨t.held, (if n = 0 then a else b) :: k⟩
  | .loop a :: k => some ⟨t.held, if n = 0 then k else a :: .loop a :: k⟩
  | .any f :: k => some ⟨t.held, f n :: k⟩
  | [] => none

/-- Several steps of a goroutine. -/
def drive (others : List Lock) : List Nat → Thr → Option Thr
  | [], t => some t
  | n :: ns, t => (next others n t).bind (drive others ns)

theorem Reach.next {s : Sys} (h : Reach s) {i n t others} (ho : ∀ j, j ≠ i → ∀ l ∈ (s j).held, l ∈ others)
    (e : next others n (s i) = some t) : Reach (update s i t) := by
  unfold Locks.next at e
  split at e
  · rename_i l k hc
    split at e
    · simp at e
    · rename_i hl
      simp only [List.mem_append, not_or] at hl
      obtain rfl := Option.some.inj e
      refine h.move i (.acq hc fun j hj => ?_)
      by_cases ej : j = i
      · exact hl.1 (ej ▸ hj)
      · exact hl.2 (ho j ej l hj)
  · rename_i l k hc
    split at e
    · rename_i hl
      obtain rfl := Option.some.inj e
      exact h.move i (.rel hc hl)
    · simp at e
  · rename_i a k hn hn' hc
    obtain rfl := Option.some.inj e
    cases a with
    | acq l => exact absurd rfl (hn l)
    | rel l => exact absurd rfl (hn' l)
    | acc w v => exact h.move i (.acc hc)
    | go => exact h.move i (.go hc)
    | wait => exact h.wait i hc
  · rename_i hc; obtain rfl := Option.some.inj e; exact h.move i (.skip hc)
  · rename_i hc; obtain rfl := Option.some.inj e; exact h.move i (.seq hc)
  · rename_i hc; obtain rfl := Option.some.inj e
    split
    · exact h.move i (.left hc)
    · exact h.move i (.right hc)
  · rename_i hc; obtain rfl := Option.some.inj e
    split
    · exact h.move i (.leave hc)
    · exact h.move i (.again hc)
  · rename_i hc; obtain rfl := Option.some.inj e; exact h.move i (.pick n hc)
  · simp at e

theorem Reach.drive {i others} (ns : List Nat) : ∀ {s : Sys} {t}, Reach s → (∀ j, j ≠ i → ∀ l ∈ (s j).held, l ∈ others) →
    drive others ns (s i) = some t → Reach (update s i t) := by
  induction ns with
  | nil => intro s t h _ e; obtain rfl := Option.some.inj e; simpa using h
  | cons n ns ih =>
    intro s t h ho e
    obtain ⟨t', e', e⟩ := Option.bind_eq_some_iff.1 e
    have := @ih _ t (h.next ho e') (fun j ej => by simpa [ej] using ho j ej) (by simpa using e)
    simpa using this

/-- Two goroutines, the second going on while the first stays where it is. -/
theorem Reach.two (t₀ t₁ : Thread) (ns₀ ns₁ : List Nat) {a b : Thr} (h₀ : Locks.drive [] ns₀ ⟨[], [t₀.code]⟩ = some a)
    (h₁ : Locks.drive a.held ns₁ ⟨[], [t₁.code]⟩ = some b) : ∃ s, Reach s ∧ s 0 = a ∧ s 1 = b := by
  have r := (Reach.init.start 0 t₀ rfl).drive ns₀ (i := 0) (t := a) (others := []) (fun j e => by simp [e]) (by simpa using h₀)
  have r' := (r.start 1 t₁ (by simp)).drive ns₁ (i := 1) (t := b) (others := a.held)
    (fun j e => by by_cases e0 : j = 0 <;> simp [e, e0]) (by simpa using h₁)
  exact ⟨_, r', by simp, by simp⟩

/-- The choices by which `runTimedSteps` comes to a step of its first stage, the one with the given choices. -/
def toStep (ns : List Nat) : List Nat :=
  [0, 0, 0, 1, 0, 0, 0, 1, 0, 0, 0, 0, 0, 0, 0, 0, 0, 0, 0] ++ ns

end Verif.Locks
