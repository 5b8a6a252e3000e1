import Verif.Proofs.NetTime
import Verif.Props.NetCaller

/-!
Property C108: when outgoing messages are sent. For two seconds after the start of the tool nothing is sent, and for 2.4 seconds nothing is dropped for want of a
connection. If the peer is there, every message is delivered in its turn.
-/
namespace Verif.Props.NetTime
open Verif.NetTime Verif.Spec.NetTime
open Verif.NetCaller (CPc Pc Connector)
variable {M : Type}

/-- C108 (refinement). Without the clock, a history of this model is one of the model of C53 to C55, with the same messages. -/
theorem C108_refines (t0 : Int) (h : List (Ev M)) (s : St M) (hr : run (init t0) h = .ok s) :
    ∃ h0, NetCaller.run NetCaller.init h0 = .ok s.base ∧ Spec.NetCaller.sends h0 = sends h ∧ (.selDrop ∈ h0 → .selDrop ∈ h) := by
  have key : ∀ (h : List (Ev M)) (s s' : St M), run s h = .ok s' →
      ∃ h0, NetCaller.run s.base h0 = .ok s'.base ∧ Spec.NetCaller.sends h0 = sends h ∧ (.selDrop ∈ h0 → .selDrop ∈ h) := by
    intro h
    induction h with
    | nil => intro s s' hr; cases hr; exact ⟨[], rfl, rfl, nofun⟩
    | cons e h ih =>
      intro s s' hr
      rw [run, Outcome.bind_eq_ok] at hr
      obtain ⟨s1, h1, h2⟩ := hr
      obtain ⟨h0, h3, h4, h5⟩ := ih s1 s' h2
      have hc : sends (e :: h) = sends [e] ++ sends h := by cases e <;> rfl
      rcases step_base h1 with ⟨h6, h7⟩ | ⟨e0, h6, h7, h8⟩
      · exact ⟨h0, by rw [← h6]; exact h3, by rw [hc, h7, h4]; rfl, fun hm => List.mem_cons_of_mem _ (h5 hm)⟩
      · refine ⟨e0 :: h0, ?_, ?_, fun hm => ?_⟩
        · rw [NetCaller.run, h6]; exact h3
        · rw [Props.NetCaller.sends_cons, hc, h8, h4]
        · rcases List.mem_cons.1 hm with hm | hm
          · rw [h7 hm.symm]; exact List.mem_cons_self ..
          · exact List.mem_cons_of_mem _ (h5 hm)
  exact key h _ s hr

section grace
variable {t0 now now' : Int} {c c' : Connector} {y y' : Try}

/-- What is known about a connector and its attempts. -/
structure Slow (t0 now : Int) (c : Connector) (y : Try) : Prop where
  delay : 100 ≤ y.delay
  sleeps : c.pc = .trying → c.failedBefore = false → ∀ till, y.timer = .asleep till → t0 + 2000 + 100 * y.attempt ≤ till
  dials : c.pc = .trying → c.failedBefore = false → ∀ since, y.timer = .dialling since → t0 + 2000 + 100 * y.attempt ≤ since ∧ since ≤ now
  got : ∀ x, c.pc = .haveConn x → t0 + 2000 ≤ now
  told : c.pc = .haveNil → c.failedBefore = true
  failed : c.failedBefore = true → t0 + 2400 ≤ now

theorem Slow.mono (h : Slow t0 now c y) (hn : now ≤ now') : Slow t0 now' c y :=
  ⟨h.delay, h.sleeps, fun a b x e => ⟨(h.dials a b x e).1, (h.dials a b x e).2.trans hn⟩, fun x e => (h.got x e).trans hn, h.told,
    fun e => (h.failed e).trans hn⟩

theorem Slow.taken (h : Slow t0 now c y) : Slow t0 now c.taken y := by
  unfold Connector.taken
  split
  · exact ⟨h.delay, nofun, nofun, nofun, nofun, h.failed⟩
  · exact ⟨h.delay, nofun, nofun, nofun, nofun, h.failed⟩
  · exact h

/-- Each connector with its attempts. -/
def Each (t0 now : Int) (cs : List Connector) (ys : List Try) : Prop :=
  ∀ (i : Nat) (c : Connector) (y : Try), cs[i]? = some c → ys[i]? = some y → Slow t0 now c y

variable {cs : List Connector} {ys : List Try} {i : Nat}

theorem Each.set (h : Each t0 now cs ys) (hn : Slow t0 now c' y') : Each t0 now (cs.set i c') (ys.set i y') := by
  intro j c y hc hy
  rw [List.getElem?_set] at hc hy
  by_cases hj : i = j
  · rw [if_pos hj] at hc hy
    split at hy
    · split at hc
      · cases hc; cases hy; exact hn
      · cases hc
    · cases hy
  · rw [if_neg hj] at hc hy
    exact h j c y hc hy

theorem Each.conn (h : Each t0 now cs ys) (hn : ∀ y, ys[i]? = some y → Slow t0 now c' y) : Each t0 now (cs.set i c') ys := by
  intro j c y hc hy
  rw [List.getElem?_set] at hc
  by_cases hj : i = j
  · rw [if_pos hj] at hc
    split at hc
    · cases hc; exact hn y (hj ▸ hy)
    · cases hc
  · rw [if_neg hj] at hc
    exact h j c y hc hy

theorem Each.tries (h : Each t0 now cs ys) (hn : ∀ c, cs[i]? = some c → Slow t0 now c y') : Each t0 now cs (ys.set i y') := by
  intro j c y hc hy
  rw [List.getElem?_set] at hy
  by_cases hj : i = j
  · rw [if_pos hj] at hy
    split at hy
    · cases hy; exact hn c (hj ▸ hc)
    · cases hy
  · rw [if_neg hj] at hy
    exact h j c y hc hy

/-- What holds at any time. -/
structure SI (t0 : Int) (s : St M) : Prop where
  len : s.tries.length = s.base.connectors.length
  past : t0 ≤ s.now
  each : Each t0 s.now s.base.connectors s.tries
  conn : s.base.calls ≠ [] ∨ s.base.pc = .first ∨ s.base.pc = .call ∨ s.base.pc = .post ∨ s.base.pc = .fail → t0 + 2000 ≤ s.now
  top : s.base.pc = .top ∨ s.base.pc = .select → t0 + 2400 ≤ s.now

theorem offer_cases {x : Option Nat} (h : c.offer = some x) : (∃ n, c.pc = .haveConn n ∧ x = some n) ∨ (c.pc = .haveNil ∧ x = none) := by
  unfold Connector.offer at h
  split at h
  · next n hn => exact .inl ⟨n, hn, (Option.some.inj h).symm⟩
  · next hn => exact .inr ⟨hn, (Option.some.inj h).symm⟩
  · cases h

theorem si_step {s s' : St M} {e : Ev M} (h : SI t0 s) (hs : step s e = .ok s') : SI t0 s' := by
  obtain ⟨hlen, hpast, heach, hconn, htop⟩ := h
  cases move_of_step hs with
  | tick t h1 h2 =>
    subst h2
    have hn := Int.le_of_lt h1
    exact ⟨hlen, hpast.trans hn, fun i c y a b => (heach i c y a b).mono hn, fun a => (hconn a).trans hn, fun a => (htop a).trans hn⟩
  | send m h2 =>
    subst h2
    refine ⟨?_, hpast, ?_, ?_, ?_⟩ <;> (dsimp only; unfold NetCaller.trySend; split) <;> assumption
  | spawn retry delay h1 h2 h3 h4 =>
    subst h4
    refine ⟨by rw [List.length_append, List.length_append, hlen]; rfl, hpast, ?_, fun a => hconn ?_, ?_⟩
    · intro j c y hc hy
      dsimp only at hc hy ⊢
      by_cases hj : j < s.tries.length
      · rw [List.getElem?_append_left (hlen ▸ hj)] at hc
        rw [List.getElem?_append_left hj] at hy
        exact heach j c y hc hy
      · obtain ⟨k, rfl⟩ := Nat.exists_eq_add_of_le (Nat.le_of_not_lt hj)
        rw [List.getElem?_append_right (by omega), Nat.add_sub_cancel_left] at hy
        rw [List.getElem?_append_right (by omega), ← hlen, Nat.add_sub_cancel_left] at hc
        cases k with
        | zero =>
          cases hc; cases hy
          refine ⟨h1, fun _ _ till e => ?_, nofun, nofun, nofun, nofun⟩
          cases e
          show t0 + 2000 + 100 * ((0 : Nat) : Int) ≤ s.now + 2000
          omega
        | succ k => cases hc
    · rcases a with a | a | a | a | a
      · exact .inl a
      all_goals cases a
    · rintro (a | a) <;> cases a
  | dial i n delay till c h1 h2 h3 h4 h5 =>
    subst h5
    refine ⟨by rw [List.length_set]; exact hlen, hpast, heach.tries fun c' hc' => ?_, hconn, htop⟩
    obtain ⟨g1, g2, g3, g4, g5, g6⟩ := heach i _ _ hc' h1
    refine ⟨g1, nofun, fun a b since e => ?_, g4, g5, g6⟩
    cases e
    exact ⟨(g2 a b till rfl).trans h4, Int.le_refl _⟩
  | refused i n delay since h1 h2 h3 =>
    subst h3
    refine ⟨by rw [List.length_set]; exact hlen, hpast, heach.tries fun c' hc' => ?_, hconn, htop⟩
    obtain ⟨g1, g2, g3, g4, g5, g6⟩ := heach i _ _ hc' h1
    refine ⟨g1, fun a b till e => ?_, nofun, g4, g5, g6⟩
    cases e
    have := g3 a b since rfl
    dsimp only at this g1 ⊢
    omega
  | tried i n delay since r c c' h1 h2 h3 h4 h5 =>
    subst h5
    refine ⟨by rw [List.length_set, List.length_set]; exact hlen, hpast, heach.set ?_, hconn, htop⟩
    obtain ⟨g1, g2, g3, g4, g5, g6⟩ := heach i _ _ h3 h1
    unfold Connector.tried at h4
    split at h4
    · next hpc =>
      have hdone : t0 + 2000 ≤ s.now := by
        cases hf : c.failedBefore with
        | true => have := g6 hf; omega
        | false => have := g3 hpc hf since rfl; dsimp only at this; omega
      cases r with
      | some x => cases h4; exact ⟨g1, nofun, nofun, fun _ _ => hdone, nofun, g6⟩
      | none =>
        dsimp only at h4
        cases hf : c.failedBefore with
        | true =>
          rw [hf] at h4
          cases h4
          exact ⟨g1, nofun, nofun, nofun, nofun, fun _ => g6 hf⟩
        | false =>
          rw [hf] at h4
          cases h4
          refine ⟨g1, nofun, nofun, nofun, fun _ => rfl, fun _ => ?_⟩
          have := g3 hpc hf since rfl
          have := h2 rfl
          dsimp only at *
          omega
    · cases h4
  | rest i n delay c h1 h2 h3 h4 =>
    subst h4
    refine ⟨by rw [List.length_set]; exact hlen, hpast, heach.tries fun c' hc' => ?_, hconn, htop⟩
    obtain ⟨g1, g2, g3, g4, g5, g6⟩ := heach i _ _ hc' h1
    rw [h2] at hc'
    cases hc'
    exact ⟨g1, (fun a => by rw [h3] at a; cases a), nofun, g4, g5, g6⟩
  | again i delay y till c c' h1 h2 h3 h4 h5 h6 h7 =>
    subst h7
    refine ⟨by rw [List.length_set, List.length_set]; exact hlen, hpast, heach.set ?_, hconn, htop⟩
    obtain ⟨g1, g2, g3, g4, g5, g6⟩ := heach i _ _ h5 h2
    unfold Connector.sleep at h6
    split at h6
    · cases h6
      refine ⟨h1, fun _ _ till e => ?_, nofun, nofun, nofun, g6⟩
      cases e
      show t0 + 2000 + 100 * ((0 : Nat) : Int) ≤ s.now + 2000
      omega
    · cases h6
  | recv i c x h1 h2 h3 h4 =>
    subst h4
    have hy : i < s.tries.length := hlen ▸ (List.getElem?_eq_some_iff.1 h1).1
    have hsl := heach i c _ h1 (List.getElem?_eq_getElem hy)
    refine ⟨by rw [List.length_set]; exact hlen, hpast, heach.conn fun y hy => (heach i c y h1 hy).taken, fun a => ?_, fun a => ?_⟩
    · rcases offer_cases h2 with ⟨n, h5, rfl⟩ | ⟨h5, rfl⟩
      · exact hsl.got n h5
      · have := hsl.failed (hsl.told h5)
        dsimp only
        omega
    · rcases offer_cases h2 with ⟨n, h5, rfl⟩ | ⟨h5, rfl⟩
      · rcases a with a | a <;> cases a
      · exact hsl.failed (hsl.told h5)
  | get b h1 h2 =>
    subst h2
    obtain ⟨k1, k2, k3, k4, k5, k6, k7⟩ := inv_get h1
    refine ⟨by rw [k1]; exact hlen, hpast, by rw [k1]; exact heach, fun a => ?_, fun a => ?_⟩
    · rcases k6 with ⟨k8, k9⟩ | ⟨k8, _⟩ | ⟨k8, _⟩
      · have := htop (.inl k8); dsimp only; omega
      · exact hconn (.inr (.inl k8))
      · exact hconn (.inr (.inr (.inr (.inl k8))))
    · rcases k6 with ⟨k8, k9⟩ | ⟨k8, k9, _⟩ | ⟨k8, _, _, k9⟩
      · exact htop (.inl k8)
      · dsimp only at a; rw [k9] at a; rcases a with a | a <;> cases a
      · dsimp only at a; rw [k9] at a
        exfalso
        cases hf : s.base.failed <;> rw [hf] at a <;> rcases a with a | a <;> cases a
  | selConn i c x h1 h2 h3 h4 =>
    subst h4
    refine ⟨by rw [List.length_set]; exact hlen, hpast, heach.conn fun y hy => (heach i c y h1 hy).taken, fun a => ?_, ?_⟩
    · have := htop (.inr h3); dsimp only; omega
    · rintro (a | a) <;> cases a
  | selDrop h1 h2 =>
    subst h2
    exact ⟨hlen, hpast, heach, fun _ => by have := htop (.inr h1); dsimp only; omega, fun _ => htop (.inr h1)⟩
  | call ok c m h1 h2 h3 h4 =>
    subst h4
    refine ⟨hlen, hpast, heach, fun _ => hconn (.inr (.inr (.inl h1))), ?_⟩
    rintro (a | a) <;> cases a
  | closing retry h1 h2 h3 =>
    subst h3
    refine ⟨hlen, hpast, heach, fun _ => hconn (.inr (.inr (.inr (.inr h2)))), ?_⟩
    rintro (a | a) <;> cases a

end grace

theorem si_init (t0 : Int) : SI t0 (init t0 : St M) := by
  refine ⟨rfl, Int.le_refl _, fun i c y a => (nomatch a), ?_, ?_⟩
  · rintro (a | a | a | a | a)
    · exact absurd rfl a
    all_goals cases a
  · rintro (a | a) <;> cases a

theorem si_run {t0 : Int} {h : List (Ev M)} {s : St M} (hr : run (init t0) h = .ok s) : SI t0 s :=
  run_induct (P := SI t0) (si_init t0) (fun _ _ _ _ hi hs => si_step hi hs) hr

/-- C108 (grace). Whatever the peer does, the first call is at least two seconds after the start, since `_try_connect` waits before it dials; and for 2.4
seconds after the start no message is dropped for want of a connection: until then they are buffered. -/
theorem C108_grace (t0 : Int) (h : List (Ev M)) (s : St M) (hr : run (init t0) h = .ok s) :
    (s.base.calls ≠ [] ∨ s.base.pc = .call → t0 + 2000 ≤ s.now) ∧
    ∀ h1 h2 s1, h = h1 ++ .selDrop :: h2 → run (init t0) h1 = .ok s1 → t0 + 2400 ≤ s1.now := by
  refine ⟨fun a => (si_run hr).conn ?_, fun h1 h2 s1 hh hr1 => (si_run hr1).top (.inr ?_)⟩
  · rcases a with a | a
    · exact .inl a
    · exact .inr (.inr (.inl a))
  · rw [hh, run_append, hr1] at hr
    have hr : (step s1 .selDrop >>= fun s' => run s' h2) = .ok s := hr
    rw [Outcome.bind_eq_ok] at hr
    obtain ⟨s2, h3, _⟩ := hr
    cases move_of_step h3
    assumption

section delivery
variable {t0 D L : Int} {s s' : St M} {e : Ev M}

/-- What the consumer holds. -/
def held (b : NetCaller.St M) : List M := if b.pc = .call then b.msg.toList else []

/-- What holds while the peer answers. -/
structure DI (t0 D L : Int) (s : St M) : Prop where
  back : s.base.pushedBack = false
  failed : s.base.failed = false
  flow : s.base.accepted = called s ++ held s.base ++ s.base.queue
  msg : s.base.pc = .call → s.base.msg ≠ none
  call : s.base.pc = .call → s.since ≤ s.now ∧ s.now ≤ s.since + L
  shape : (s.base.pc = .spawn ∧ s.base.connectors = [] ∧ s.tries = [] ∧ s.now = t0 ∧ s.wake = t0) ∨
    (s.base.pc = .wait ∧ ∃ c y, s.base.connectors = [c] ∧ s.tries = [y] ∧ c.failedBefore = false ∧
      ((c.pc = .trying ∧ y.timer = .asleep (t0 + 2000) ∧ s.now ≤ t0 + 2000) ∨
       (∃ since, c.pc = .trying ∧ y.timer = .dialling since ∧ since ≤ t0 + 2000 ∧ s.now ≤ since + D) ∨
       (∃ x, c.pc = .haveConn x ∧ y.timer = .idle ∧ s.now ≤ t0 + 2000 + D))) ∨
    ((s.base.pc = .first ∨ s.base.pc = .call ∨ s.base.pc = .post) ∧ (∀ c ∈ s.base.connectors, c.pc = .ended) ∧ ∀ y ∈ s.tries, y.timer = .idle)

theorem single {α : Type} {l : List α} {a b : α} {i : Nat} (h : l = [a]) (hi : l[i]? = some b) : i = 0 ∧ b = a := by
  rw [h] at hi
  cases i with
  | zero => exact ⟨rfl, (Option.some.inj hi).symm⟩
  | succ i => cases hi

theorem di_init (t0 D L : Int) : DI t0 D L (init t0 : St M) := ⟨rfl, rfl, rfl, nofun, nofun, .inl ⟨rfl, rfl, rfl, rfl, rfl⟩⟩

theorem di_step (hD : 0 ≤ D) (hL : 0 ≤ L) (h : DI t0 D L s) (ht : ∀ t, e = .tick t → Timely D L s t) (hd : ∀ i r, e = .dialled i r → r ≠ none)
    (hc : ∀ ok, e = .call ok → ok = true) (hs : step s e = .ok s') : DI t0 D L s' := by
  obtain ⟨hback, hfailed, hflow, hmsg, hcall, hshape⟩ := h
  cases move_of_step hs with
  | tick t h1 h2 =>
    subst h2
    obtain ⟨g1, g2, g3, g4, g5⟩ := ht t rfl
    refine ⟨hback, hfailed, hflow, hmsg, fun a => ⟨(hcall a).1.trans (Int.le_of_lt h1), g5 a⟩, ?_⟩
    rcases hshape with ⟨k1, k2, k3, k4, k5⟩ | ⟨k1, c, y, k2, k3, k4, k5⟩ | k
    · exact absurd (.spawn k1 (by omega)) g1
    · refine .inr (.inl ⟨k1, c, y, k2, k3, k4, ?_⟩)
      have hy : y ∈ s.tries := by rw [k3]; exact List.mem_singleton_self _
      rcases k5 with ⟨k6, k7, k8⟩ | ⟨since, k6, k7, k8, k9⟩ | ⟨x, k6, k7, k8⟩
      · exact .inl ⟨k6, k7, g3 y hy _ k7⟩
      · exact .inr (.inl ⟨since, k6, k7, k8, g4 y hy _ k7⟩)
      · refine absurd (.recv c k1 (by rw [k2]; exact List.mem_singleton_self _) ?_) g1
        rw [Connector.offer, k6]; exact nofun
    · exact .inr (.inr k)
  | send m h2 =>
    subst h2
    refine ⟨?_, ?_, ?_, ?_, ?_, ?_⟩ <;> (dsimp only [called, held] at hflow ⊢; unfold NetCaller.trySend; split) <;> try assumption
    dsimp only
    rw [hflow, List.append_assoc _ s.base.queue]
  | spawn retry delay h1 h2 h3 h4 =>
    subst h4
    refine ⟨hback, hfailed, ?_, nofun, nofun, ?_⟩
    · dsimp only [called, held] at hflow ⊢
      rw [h3, if_neg nofun] at hflow
      rw [if_neg nofun]; exact hflow
    · rcases hshape with ⟨k1, k2, k3, k4, k5⟩ | ⟨k1, _⟩ | ⟨k1 | k1 | k1, _⟩
      · refine .inr (.inl ⟨rfl, .start retry, ⟨0, delay, .asleep (s.now + 2000)⟩, ?_, ?_, rfl, .inl ⟨rfl, ?_, ?_⟩⟩)
        · dsimp only; rw [k2]; rfl
        · dsimp only; rw [k3]; rfl
        · dsimp only; rw [k4]
        · dsimp only; omega
      all_goals rw [h3] at k1; cases k1
  | dial i n delay till c h1 h2 h3 h4 h5 =>
    subst h5
    refine ⟨hback, hfailed, hflow, hmsg, hcall, ?_⟩
    rcases hshape with ⟨k1, k2, k3, k4, k5⟩ | ⟨k1, c', y, k2, k3, k4, k5⟩ | ⟨k1, k2, k3⟩
    · rw [k3] at h1; cases h1
    · obtain ⟨rfl, rfl⟩ := single k2 h2
      obtain ⟨-, rfl⟩ := single k3 h1
      refine .inr (.inl ⟨k1, c, _, k2, by dsimp only; rw [k3]; rfl, k4, .inr (.inl ⟨s.now, h3, rfl, ?_, by dsimp only; omega⟩)⟩)
      rcases k5 with ⟨_, _, k8⟩ | ⟨_, _, k7, _⟩ | ⟨_, _, k7, _⟩
      · exact k8
      all_goals cases k7
    · have := k3 _ (List.mem_of_getElem? h1); cases this
  | refused i n delay since h1 h2 h3 => exact absurd rfl (hd _ _ rfl)
  | tried i n delay since r c c' h1 h2 h3 h4 h5 =>
    subst h5
    refine ⟨hback, hfailed, hflow, hmsg, hcall, ?_⟩
    rcases hshape with ⟨k1, k2, k3, k4, k5⟩ | ⟨k1, c', y, k2, k3, k4, k5⟩ | ⟨k1, k2, k3⟩
    · rw [k3] at h1; cases h1
    · obtain ⟨rfl, rfl⟩ := single k2 h3
      obtain ⟨-, rfl⟩ := single k3 h1
      cases r with
      | none => exact absurd rfl (hd _ _ rfl)
      | some x =>
        unfold Connector.tried at h4
        split at h4
        · cases h4
          refine .inr (.inl ⟨k1, { c with pc := .haveConn x }, ⟨n + 1, delay, .idle⟩, by dsimp only; rw [k2]; rfl, by dsimp only; rw [k3]; rfl, k4,
            .inr (.inr ⟨x, rfl, rfl, ?_⟩)⟩)
          rcases k5 with ⟨_, k7, _⟩ | ⟨σ, _, k7, k8, k9⟩ | ⟨_, _, k7, _⟩
          · cases k7
          · dsimp only; omega
          · cases k7
        · cases h4
    · have := k3 _ (List.mem_of_getElem? h1); cases this
  | rest i n delay c h1 h2 h3 h4 =>
    rcases hshape with ⟨k1, k2, k3, k4, k5⟩ | ⟨k1, c', y, k2, k3, k4, k5⟩ | ⟨k1, k2, k3⟩
    · rw [k3] at h1; cases h1
    · obtain ⟨rfl, rfl⟩ := single k2 h2
      rcases k5 with ⟨k6, _⟩ | ⟨_, k6, _⟩ | ⟨_, k6, _⟩ <;> (rw [h3] at k6; cases k6)
    · have := k2 _ (List.mem_of_getElem? h2); rw [h3] at this; cases this
  | again i delay y till c c' h1 h2 h3 h4 h5 h6 h7 =>
    unfold Connector.sleep at h6
    split at h6
    · next h8 =>
      rcases hshape with ⟨k1, k2, k3, k4, k5⟩ | ⟨k1, c', y, k2, k3, k4, k5⟩ | ⟨k1, k2, k3⟩
      · rw [k2] at h5; cases h5
      · obtain ⟨rfl, rfl⟩ := single k2 h5
        rcases k5 with ⟨k6, _⟩ | ⟨_, k6, _⟩ | ⟨_, k6, _⟩ <;> (rw [h8] at k6; cases k6)
      · have := k2 _ (List.mem_of_getElem? h5); rw [h8] at this; cases this
    · cases h6
  | recv i c x h1 h2 h3 h4 =>
    subst h4
    rcases hshape with ⟨k1, _⟩ | ⟨k1, c', y, k2, k3, k4, k5⟩ | ⟨k1 | k1 | k1, _⟩
    · rw [h3] at k1; cases k1
    · obtain ⟨rfl, rfl⟩ := single k2 h1
      have hx : ∃ n, c.pc = .haveConn n ∧ x = some n ∧ y.timer = .idle := by
        rcases k5 with ⟨k6, _⟩ | ⟨_, k6, _⟩ | ⟨n, k6, k7, _⟩
        · rw [Connector.offer, k6] at h2; cases h2
        · rw [Connector.offer, k6] at h2; cases h2
        · rw [Connector.offer, k6] at h2; cases h2; exact ⟨n, k6, rfl, k7⟩
      obtain ⟨n, k6, rfl, k7⟩ := hx
      refine ⟨hback, hfailed, ?_, nofun, nofun, .inr (.inr ⟨.inl rfl, ?_, ?_⟩)⟩
      · dsimp only [called, held] at hflow ⊢
        rw [h3, if_neg nofun] at hflow
        rw [if_neg nofun]; exact hflow
      · intro z hz
        dsimp only at hz
        rw [k2] at hz
        obtain rfl := List.mem_singleton.1 hz
        rw [Connector.taken, k6]
      · dsimp only
        rw [k3]
        intro z hz
        rw [List.mem_singleton.1 hz]; exact k7
    all_goals rw [h3] at k1; cases k1
  | get b h1 h2 =>
    subst h2
    obtain ⟨k1, k2, k3, k4, k5, k6, k7⟩ := inv_get h1
    have hq : ∃ m ms, s.base.queue = m :: ms ∧ b.queue = ms ∧ b.msg = some m ∧ b.pushedBack = s.base.pushedBack := by
      rcases k7 with ⟨k8, _⟩ | k7
      · rw [hback] at k8; cases k8
      · exact k7
    obtain ⟨m, ms, q1, q2, q3, q4⟩ := hq
    have hpc : (s.base.pc = .first ∨ s.base.pc = .post) ∧ b.pc = .call ∧ b.failed = false := by
      rcases k6 with ⟨k8, _⟩ | ⟨k8, k9, k10⟩ | ⟨k8, k9, _, k10⟩
      · rcases hshape with ⟨k1, _⟩ | ⟨k1, _⟩ | ⟨k1 | k1 | k1, _⟩ <;> (rw [k8] at k1; cases k1)
      · exact ⟨.inl k8, k9, k10⟩
      · rw [hfailed] at k9 k10
        exact ⟨.inr k8, k10, k9⟩
    obtain ⟨p1, p2, p3⟩ := hpc
    have hne : s.base.pc ≠ .call := by rcases p1 with p | p <;> rw [p] <;> exact nofun
    refine ⟨q4.trans hback, p3, ?_, fun _ => by dsimp only; rw [q3]; exact nofun, fun _ => ?_, .inr (.inr ⟨.inr (.inl p2), ?_, ?_⟩)⟩
    · dsimp only [called, held] at hflow ⊢
      rw [if_neg hne, q1] at hflow
      rw [if_pos p2, k4, k2, q3, q2, hflow, List.append_nil, List.append_assoc]; rfl
    · dsimp only
      rw [if_pos ⟨p2, hne⟩]
      exact ⟨Int.le_refl _, by omega⟩
    · dsimp only
      rw [k1]
      rcases hshape with ⟨k1, _⟩ | ⟨k1, _⟩ | k
      · rcases p1 with p | p <;> (rw [p] at k1; cases k1)
      · rcases p1 with p | p <;> (rw [p] at k1; cases k1)
      · exact k.2.1
    · rcases hshape with ⟨k1, _⟩ | ⟨k1, _⟩ | k
      · rcases p1 with p | p <;> (rw [p] at k1; cases k1)
      · rcases p1 with p | p <;> (rw [p] at k1; cases k1)
      · exact k.2.2
  | selConn i c x h1 h2 h3 h4 => rcases hshape with ⟨k1, _⟩ | ⟨k1, _⟩ | ⟨k1 | k1 | k1, _⟩ <;> (rw [h3] at k1; cases k1)
  | selDrop h1 h2 => rcases hshape with ⟨k1, _⟩ | ⟨k1, _⟩ | ⟨k1 | k1 | k1, _⟩ <;> (rw [h1] at k1; cases k1)
  | call ok c m h1 h2 h3 h4 =>
    subst h4
    obtain rfl := hc ok rfl
    refine ⟨hback, rfl, ?_, nofun, nofun, ?_⟩
    · dsimp only [called, held, Spec.NetCaller.called] at hflow ⊢
      rw [if_pos h1, h3] at hflow
      rw [if_neg nofun, hflow, List.map_append, List.append_nil]; rfl
    · rcases hshape with ⟨k1, _⟩ | ⟨k1, _⟩ | ⟨_, k⟩
      · rw [h1] at k1; cases k1
      · rw [h1] at k1; cases k1
      · exact .inr (.inr ⟨.inr (.inr rfl), k⟩)
  | closing retry h1 h2 h3 => rcases hshape with ⟨k1, _⟩ | ⟨k1, _⟩ | ⟨k1 | k1 | k1, _⟩ <;> (rw [h2] at k1; cases k1)

/-- How far the calls have come since the consumer had made `c` calls and `n` messages were accepted, at time `B`. -/
def Ahead (B L : Int) (n c : Nat) (s : St M) : Prop :=
  n ≤ s.base.calls.length ∨
  (n ≤ s.base.accepted.length ∧ (if s.base.pc = .call then s.since else s.now) ≤ B + ((s.base.calls.length : Int) - c) * L)

theorem accepted_mono (hs : step s e = .ok s') : s.base.accepted <+: s'.base.accepted ∧ s.base.calls.length ≤ s'.base.calls.length := by
  cases move_of_step hs with
  | get b h1 h2 =>
    subst h2
    obtain ⟨k1, k2, k3, k4, k5, k6, k7⟩ := inv_get h1
    exact ⟨by dsimp only; rw [k4]; exact List.prefix_refl _, by dsimp only; rw [k2]⟩
  | send m h2 =>
    subst h2
    dsimp only
    unfold NetCaller.trySend
    split
    · exact ⟨List.prefix_append _ _, Nat.le_refl _⟩
    · exact ⟨List.prefix_refl _, Nat.le_refl _⟩
  | call ok c m h1 h2 h3 h4 =>
    subst h4
    exact ⟨List.prefix_refl _, by dsimp only; rw [List.length_append]; omega⟩
  | _ => subst_vars; exact ⟨List.prefix_refl _, Nat.le_refl _⟩

theorem ahead_step {B : Int} {n c : Nat} (hB : t0 + 2000 + D ≤ B) (hD : 0 ≤ D) (hL : 0 ≤ L) (hi : DI t0 D L s) (hi' : DI t0 D L s')
    (ht : ∀ t, e = .tick t → Timely D L s t) (hcn : c ≤ s.base.calls.length)
    (hs : step s e = .ok s') (h : Ahead B L n c s) : Ahead B L n c s' := by
  obtain ⟨hacc, hcal⟩ := accepted_mono hs
  rcases h with h | ⟨h1, h2⟩
  · exact .inl (h.trans hcal)
  have hacc' := h1.trans hacc.length_le
  have hk : 0 ≤ ((s.base.calls.length : Int) - c) * L := Int.mul_nonneg (by omega) hL
  cases move_of_step hs with
  | tick t g1 g2 =>
    subst g2
    obtain ⟨f1, f2, f3, f4, f5⟩ := ht t rfl
    rcases hi'.shape with ⟨k1, _, _, k4, _⟩ | ⟨k1, c', y, _, _, _, k5⟩ | ⟨k1 | k1 | k1, _⟩
    · refine .inr ⟨hacc', ?_⟩
      dsimp only at k1 k4 ⊢
      rw [k1, if_neg nofun]; omega
    · refine .inr ⟨hacc', ?_⟩
      dsimp only at k1 k5 ⊢
      rw [k1, if_neg nofun]
      rcases k5 with ⟨_, _, k⟩ | ⟨_, _, _, k, k'⟩ | ⟨_, _, _, k⟩ <;> omega
    · left
      dsimp only at k1 ⊢
      have hq : s.base.queue = [] := Classical.byContradiction fun hq => f1 (.get (.inr (.inl k1)) hq)
      have := congrArg List.length hi.flow
      rw [hq, held, k1, if_neg nofun, List.append_nil, List.append_nil, called, Spec.NetCaller.called, List.length_map] at this
      omega
    · refine .inr ⟨hacc', ?_⟩
      dsimp only at k1 ⊢
      rw [k1, if_pos rfl] at h2
      rw [k1, if_pos rfl]; exact h2
    · left
      dsimp only at k1 ⊢
      have hq : s.base.queue = [] := Classical.byContradiction fun hq => f1 (.get (.inr (.inr k1)) hq)
      have := congrArg List.length hi.flow
      rw [hq, held, k1, if_neg nofun, List.append_nil, List.append_nil, called, Spec.NetCaller.called, List.length_map] at this
      omega
  | get b g1 g2 =>
    subst g2
    obtain ⟨k1, k2, k3, k4, k5, k6, k7⟩ := inv_get g1
    refine .inr ⟨hacc', ?_⟩
    dsimp only
    rw [k2]
    rcases k6 with ⟨k8, k9⟩ | ⟨k8, k9, _⟩ | ⟨k8, _, _, k9⟩
    · rw [k8, if_neg nofun] at h2
      rw [k9, if_neg nofun]; exact h2
    · rw [k8, if_neg nofun] at h2
      rw [k9, if_pos rfl, k8, if_pos ⟨rfl, nofun⟩]; exact h2
    · rw [hi.failed, if_neg nofun] at k9
      rw [k8, if_neg nofun] at h2
      rw [k9, if_pos rfl, k8, if_pos ⟨rfl, nofun⟩]; exact h2
  | call ok x m g1 g2 g3 g4 =>
    subst g4
    refine .inr ⟨hacc', ?_⟩
    dsimp only
    rw [if_neg nofun, List.length_append]
    rw [g1, if_pos rfl] at h2
    have := (hi.call g1).2
    have e : ((s.base.calls.length + [(x, m, ok)].length : Nat) : Int) - c = ((s.base.calls.length : Int) - c) + 1 := by simp; omega
    rw [e, Int.add_mul, Int.one_mul]
    omega
  | send m g2 =>
    subst g2
    refine .inr ⟨hacc', ?_⟩
    dsimp only
    unfold NetCaller.trySend
    split <;> exact h2
  | spawn retry delay g1 g2 g3 g4 =>
    subst g4
    rw [g3, if_neg nofun] at h2
    exact .inr ⟨hacc', h2⟩
  | recv i x y g1 g2 g3 g4 =>
    subst g4
    rw [g3, if_neg nofun] at h2
    refine .inr ⟨hacc', ?_⟩
    have : (if y = none then Pc.top else Pc.first) ≠ .call := by split <;> exact nofun
    dsimp only
    rw [if_neg this]; exact h2
  | dial i n delay till c g1 g2 g3 g4 g5 => subst g5; exact .inr ⟨hacc', h2⟩
  | refused i n delay since g1 g2 g3 => subst g3; exact .inr ⟨hacc', h2⟩
  | tried i n delay since r c c' g1 g2 g3 g4 g5 => subst g5; exact .inr ⟨hacc', h2⟩
  | rest i n delay c g1 g2 g3 g4 => subst g4; exact .inr ⟨hacc', h2⟩
  | again i delay y till c c' g1 g2 g3 g4 g5 g6 g7 => subst g7; exact .inr ⟨hacc', h2⟩
  | selConn i c x g1 g2 g3 g4 => rcases hi.shape with ⟨k1, _⟩ | ⟨k1, _⟩ | ⟨k1 | k1 | k1, _⟩ <;> (rw [g3] at k1; cases k1)
  | selDrop g1 g2 => rcases hi.shape with ⟨k1, _⟩ | ⟨k1, _⟩ | ⟨k1 | k1 | k1, _⟩ <;> (rw [g1] at k1; cases k1)
  | closing retry g1 g2 g3 => rcases hi.shape with ⟨k1, _⟩ | ⟨k1, _⟩ | ⟨k1 | k1 | k1, _⟩ <;> (rw [g2] at k1; cases k1)

/-- Induction over a history in which no thread is late and the peer answers. -/
theorem run_prompt {P : St M → Prop} {h : List (Ev M)} (h0 : P s) (hp : Prompt D L s h) (ha : Answers h)
    (hs : ∀ s s' e, (∀ t, e = .tick t → Timely D L s t) → (∀ i r, e = .dialled i r → r ≠ none) → (∀ ok, e = .call ok → ok = true) → P s →
      step s e = .ok s' → P s') (hr : run s h = .ok s') : P s' := by
  induction h generalizing s with
  | nil => cases hr; exact h0
  | cons e h ih =>
    rw [run, Outcome.bind_eq_ok] at hr
    obtain ⟨s1, h1, h2⟩ := hr
    refine ih (hs _ _ e (fun t ht => ?_) (fun i r hi => ?_) (fun ok ho => ?_) h0 h1) (fun g1 t g2 hg s2 hr2 => ?_)
      ⟨fun i r hi => ha.1 i r (List.mem_cons_of_mem _ hi), fun ok ho => ha.2 ok (List.mem_cons_of_mem _ ho)⟩ h2
    · exact hp [] t h (by rw [ht]; rfl) s rfl
    · exact ha.1 i r (by rw [hi]; exact List.mem_cons_self ..)
    · exact ha.2 ok (by rw [ho]; exact List.mem_cons_self ..)
    · refine hp (e :: g1) t g2 (by rw [hg]; rfl) s2 ?_
      rw [run, h1]; exact hr2

theorem prompt_split {h1 h2 : List (Ev M)} {s1 : St M} (hp : Prompt D L s (h1 ++ h2)) (hr : run s h1 = .ok s1) : Prompt D L s h1 ∧ Prompt D L s1 h2 := by
  refine ⟨fun g1 t g2 hg s2 h3 => hp g1 t (g2 ++ h2) (by rw [hg, List.append_assoc]; rfl) s2 h3,
    fun g1 t g2 hg s2 h3 => hp (h1 ++ g1) t g2 (by rw [hg, List.append_assoc]) s2 ?_⟩
  rw [run_append, hr]; exact h3

end delivery

/-- C108 (delivery). Let the peer be there, with dialling taking at most `D` and a call at most `L`, and let no thread be late. Then nothing is dropped for want
of a connection, and a message is delivered after those before it: all that was accepted up to some time has been delivered, in order, once the
connection has had the time to be made (2 s and `D`) and each of the messages that were to be delivered then has had the time for its call. -/
theorem C108_delivers (t0 D L : Int) (hD : 0 ≤ D) (hL : 0 ≤ L) (h1 h2 : List (Ev M)) (s1 s2 : St M) (hp : Prompt D L (init t0) (h1 ++ h2))
    (ha : Answers (h1 ++ h2)) (hr1 : run (init t0) h1 = .ok s1) (hr2 : run s1 h2 = .ok s2) :
    .selDrop ∉ h1 ++ h2 ∧ called s2 <+: s2.base.accepted ∧
    (max s1.now (t0 + 2000 + D) + ((s1.base.accepted.length : Int) - (called s1).length) * L < s2.now → s1.base.accepted <+: called s2) := by
  obtain ⟨p1, p2⟩ := prompt_split hp hr1
  have a1 : Answers h1 := ⟨fun i r hm => ha.1 i r (List.mem_append_left _ hm), fun ok hm => ha.2 ok (List.mem_append_left _ hm)⟩
  have a2 : Answers h2 := ⟨fun i r hm => ha.1 i r (List.mem_append_right _ hm), fun ok hm => ha.2 ok (List.mem_append_right _ hm)⟩
  have hdi : ∀ {h : List (Ev M)} {s : St M}, Prompt D L (init t0) h → Answers h → run (init t0) h = .ok s → DI t0 D L s := fun hp ha hr =>
    run_prompt (P := DI t0 D L) (di_init t0 D L) hp ha (fun _ _ _ ht hd hc hi hs => di_step hD hL hi ht hd hc hs) hr
  have d1 := hdi p1 a1 hr1
  have hfull : run (init t0) (h1 ++ h2) = .ok s2 := by rw [run_append, hr1]; exact hr2
  have d2 := hdi hp ha hfull
  have hpre : called s2 <+: s2.base.accepted := by rw [d2.flow, List.append_assoc]; exact List.prefix_append _ _
  have hlen : ∀ s : St M, (called s).length = s.base.calls.length := fun s => List.length_map ..
  refine ⟨fun hm => ?_, hpre, fun hlt => ?_⟩
  · obtain ⟨g1, g2, hg⟩ := List.append_of_mem hm
    rw [hg] at hp hfull
    rw [run_append] at hfull
    rw [Outcome.bind_eq_ok] at hfull
    obtain ⟨s, h3, h4⟩ := hfull
    have h4 : (step s .selDrop >>= fun s' => run s' g2) = .ok s2 := h4
    rw [Outcome.bind_eq_ok] at h4
    obtain ⟨s', h5, _⟩ := h4
    have hd := hdi (prompt_split hp h3).1 ⟨fun i r hm => ha.1 i r (by rw [hg]; exact List.mem_append_left _ hm),
      fun ok hm => ha.2 ok (by rw [hg]; exact List.mem_append_left _ hm)⟩ h3
    have hpc : s.base.pc = .select := by cases move_of_step h5; assumption
    rcases hd.shape with ⟨k1, _⟩ | ⟨k1, _⟩ | ⟨k1 | k1 | k1, _⟩ <;> (rw [hpc] at k1; cases k1)
  · have key : DI t0 D L s2 ∧ s1.base.calls.length ≤ s2.base.calls.length ∧ s1.base.accepted <+: s2.base.accepted ∧
        Ahead (max s1.now (t0 + 2000 + D)) L s1.base.accepted.length s1.base.calls.length s2 := by
      refine run_prompt (P := fun s => DI t0 D L s ∧ s1.base.calls.length ≤ s.base.calls.length ∧ s1.base.accepted <+: s.base.accepted ∧
        Ahead (max s1.now (t0 + 2000 + D)) L s1.base.accepted.length s1.base.calls.length s) ⟨d1, Nat.le_refl _, List.prefix_refl _, .inr ⟨Nat.le_refl _, ?_⟩⟩
        p2 a2 (fun s s' e ht hd hc hi hs => ?_) hr2
      · rw [Int.sub_self, Int.zero_mul, Int.add_zero]
        split
        · next h3 => exact (d1.call h3).1.trans (Int.le_max_left ..)
        · exact Int.le_max_left ..
      · obtain ⟨i1, i2, i3, i4⟩ := hi
        have d' := di_step hD hL i1 ht hd hc hs
        obtain ⟨m1, m2⟩ := accepted_mono hs
        exact ⟨d', i2.trans m2, i3.trans m1, ahead_step (Int.le_max_right ..) hD hL i1 d' ht i2 hs i4⟩
    obtain ⟨_, k2, k3, k4⟩ := key
    refine List.prefix_of_prefix_length_le k3 hpre ?_
    rw [hlen]
    rw [hlen] at hlt
    rcases k4 with k4 | ⟨_, k4⟩
    · exact k4
    · refine Nat.le_of_not_lt fun hn => ?_
      obtain ⟨B, hB⟩ : ∃ B, B = max s1.now (t0 + 2000 + D) := ⟨_, rfl⟩
      rw [← hB] at k4 hlt
      have h3 : ((s2.base.calls.length : Int) - s1.base.calls.length + 1) * L ≤ ((s1.base.accepted.length : Int) - s1.base.calls.length) * L :=
        Int.mul_le_mul_of_nonneg_right (by omega) hL
      rw [Int.add_mul, Int.one_mul] at h3
      split at k4
      · next h4 => have := (d2.call h4).2; omega
      · omega

end Verif.Props.NetTime
