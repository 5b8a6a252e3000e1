import Verif.Spec.NetCaller
import Mathlib.Data.List.Nodup
import Mathlib.Algebra.Order.Ring.Int
import Mathlib.Tactic.Ring

/-! C53 (outgoing queue), C54 (retry after a failure) and C55 (connector), for all histories. -/
namespace Verif.Props.NetCaller
open Verif.NetCaller Verif.Spec.NetCaller

section Connector

/-- What can happen to a connector. -/
inductive CEv where
  | tried (r : Option Nat)
  | taken
  | sleep

def cstep (c : Connector) : CEv → Outcome Connector
  | .tried r => c.tried r
  | .taken => if c.offer = none then .err else .ok c.taken
  | .sleep => c.sleep

def crun (c : Connector) : List CEv → Outcome Connector
  | [] => .ok c
  | e :: es => cstep c e >>= fun c' => crun c' es

/-- What a connector has done, by where it is. -/
def CInv (d0 : Int) (c : Connector) : Prop :=
  (pubs c.log = match c.pc with
    | .trying => if c.failedBefore then [none] else []
    | .haveConn _ => if c.failedBefore then [none] else []
    | .haveNil => []
    | .resting => [none]
    | .ended => pubs c.log) ∧
  (c.pc = .ended → ∃ x, pubs c.log = [some x] ∨ pubs c.log = [none, some x]) ∧
  (c.pc = .haveNil → c.failedBefore = true) ∧ (c.pc = .resting → c.failedBefore = true) ∧
  sleeps c.log = (List.range (sleeps c.log).length).map (backoff d0 maxDelay) ∧
  c.d = backoff d0 maxDelay (sleeps c.log).length

theorem backoff_succ (d0 : Int) (h0 : 0 ≤ d0) (n : Nat) :
    min' (2 * backoff d0 maxDelay n) maxDelay = backoff d0 maxDelay (n + 1) := by
  rw [min', backoff, backoff]
  have e : d0 * 2 ^ (n + 1) = 2 * (d0 * 2 ^ n) := by ring
  rw [e]
  have : 0 ≤ d0 * 2 ^ n := Int.mul_nonneg h0 (Int.le_of_lt (Int.pow_pos (by decide)))
  by_cases h : d0 * 2 ^ n < maxDelay
  · rw [if_pos h]
  · rw [if_neg h, if_neg (by rw [maxDelay]; omega), if_neg (by rw [maxDelay] at *; omega)]

theorem cinv_step {d0 : Int} (h0 : 0 ≤ d0) {c c' : Connector} (h : CInv d0 c) {e : CEv} (hs : cstep c e = .ok c') : CInv d0 c' := by
  obtain ⟨h1, h2, h3, h4, h5, h6⟩ := h
  cases e with
  | tried r =>
    rw [cstep, Connector.tried.eq_def] at hs
    by_cases hp : c.pc = .trying
    · rw [if_pos hp] at hs
      rw [hp] at h1
      dsimp only at h1
      cases r with
      | some x =>
        have := Outcome.ok.inj hs
        subst this
        exact ⟨h1, nofun, nofun, nofun, h5, h6⟩
      | none =>
        dsimp only at hs
        cases hf : c.failedBefore with
        | false =>
          rw [hf] at hs h1
          have := Outcome.ok.inj hs
          subst this
          exact ⟨h1, nofun, fun _ => rfl, nofun, h5, h6⟩
        | true =>
          rw [hf] at hs h1
          have := Outcome.ok.inj hs
          subst this
          exact ⟨h1, nofun, nofun, fun _ => rfl, h5, h6⟩
    · rw [if_neg hp] at hs; cases hs
  | taken =>
    rw [cstep, Connector.offer, Connector.taken] at hs
    cases hp : c.pc with
    | trying => rw [hp] at hs; cases hs
    | resting => rw [hp] at hs; cases hs
    | ended => rw [hp] at hs; cases hs
    | haveConn x =>
      rw [hp] at hs h1
      dsimp only at hs h1
      rw [if_neg (by nofun)] at hs
      have := Outcome.ok.inj hs
      subst this
      refine ⟨rfl, fun _ => ⟨x, ?_⟩, nofun, nofun, ?_, ?_⟩
      · dsimp only
        rw [pubs_append, h1]
        cases c.failedBefore <;> simp [pubs]
      · dsimp only
        rw [sleeps_append]
        simpa [sleeps] using h5
      · dsimp only
        rw [sleeps_append]
        simpa [sleeps] using h6
    | haveNil =>
      rw [hp] at hs h1
      dsimp only at hs h1
      rw [if_neg (by nofun)] at hs
      have := Outcome.ok.inj hs
      subst this
      refine ⟨?_, nofun, nofun, fun _ => h3 hp, ?_, ?_⟩
      · dsimp only
        rw [pubs_append, h1]; rfl
      · dsimp only
        rw [sleeps_append]
        simpa [sleeps] using h5
      · dsimp only
        rw [sleeps_append]
        simpa [sleeps] using h6
  | sleep =>
    rw [cstep, Connector.sleep] at hs
    by_cases hp : c.pc = .resting
    · rw [if_pos hp] at hs
      have := Outcome.ok.inj hs
      subst this
      rw [hp] at h1
      dsimp only at h1
      refine ⟨?_, nofun, nofun, nofun, ?_, ?_⟩
      · dsimp only
        rw [pubs_append, h1, h4 hp]; rfl
      · dsimp only
        rw [sleeps_append]
        simp only [sleeps, List.length_append, List.length_cons, List.length_nil, List.range_succ, List.map_append, List.map_cons, List.map_nil]
        rw [← h5, h6]
      · dsimp only
        rw [sleeps_append, h6, backoff_succ d0 h0]
        simp [sleeps]
    · rw [if_neg hp] at hs; cases hs

theorem cinv_run {d0 : Int} (h0 : 0 ≤ d0) {c c' : Connector} (h : CInv d0 c) {es : List CEv} (hs : crun c es = .ok c') : CInv d0 c' := by
  induction es generalizing c with
  | nil => have := Outcome.ok.inj hs; subst this; exact h
  | cons e es ih =>
    rw [crun, Outcome.bind_eq_ok] at hs
    obtain ⟨c1, h1, h2⟩ := hs
    exact ih (cinv_step h0 h h1) h2

theorem cinv_start (retry : Int) : CInv (4 * retry) (.start retry) ∨ maxDelay ≤ 4 * retry := by
  by_cases h : 4 * retry < maxDelay
  · left
    refine ⟨rfl, nofun, nofun, nofun, rfl, ?_⟩
    simp only [Connector.start, sleeps, List.length_nil, backoff, pow_zero, mul_one]
    rw [if_pos h]
  · exact .inr (Int.not_lt.1 h)

/-- `_retry_delay` is between 100 and 999 ms (net_caller.go:70-71). -/
def Retry (r : Int) : Prop := 100 ≤ r ∧ r < 1000

/-- C55. Whatever dialling gives, a connector publishes nothing, one nil, one connection, or one nil and then one connection. -/
theorem C55_publications (retry : Int) (hr : Retry retry) (es : List CEv) (c : Connector) (h : crun (.start retry) es = .ok c) :
    pubs c.log = [] ∨ pubs c.log = [none] ∨ ∃ x, pubs c.log = [some x] ∨ pubs c.log = [none, some x] := by
  obtain ⟨hr1, hr2⟩ := hr
  have hi := cinv_run (d0 := 4 * retry) (by omega) ((cinv_start retry).resolve_right (by rw [maxDelay]; omega)) h
  obtain ⟨h1, h2, _⟩ := hi
  cases hp : c.pc with
  | trying => rw [hp] at h1; dsimp only at h1; cases hf : c.failedBefore <;> simp [hf] at h1 <;> simp [h1]
  | haveConn x => rw [hp] at h1; dsimp only at h1; cases hf : c.failedBefore <;> simp [hf] at h1 <;> simp [h1]
  | haveNil => rw [hp] at h1; exact .inl h1
  | resting => rw [hp] at h1; exact .inr (.inl h1)
  | ended => exact .inr (.inr (h2 hp))

/-- C55. The connector ends exactly when it has published a connection, and then nothing more can happen to it. -/
theorem C55_ends (retry : Int) (hr : Retry retry) (es : List CEv) (c : Connector) (h : crun (.start retry) es = .ok c) :
    (c.pc = .ended ↔ ∃ x, some x ∈ pubs c.log) ∧ (c.pc = .ended → ∀ e c', cstep c e ≠ .ok c') := by
  obtain ⟨hr1, hr2⟩ := hr
  have hi := cinv_run (d0 := 4 * retry) (by omega) ((cinv_start retry).resolve_right (by rw [maxDelay]; omega)) h
  obtain ⟨h1, h2, _⟩ := hi
  refine ⟨⟨?_, ?_⟩, ?_⟩
  · intro hp
    obtain ⟨x, hx | hx⟩ := h2 hp <;> exact ⟨x, by rw [hx]; simp⟩
  · rintro ⟨x, hx⟩
    cases hp : c.pc with
    | ended => rfl
    | trying => rw [hp] at h1; dsimp only at h1; rw [h1] at hx; cases hf : c.failedBefore <;> simp [hf] at hx
    | haveConn x => rw [hp] at h1; dsimp only at h1; rw [h1] at hx; cases hf : c.failedBefore <;> simp [hf] at hx
    | haveNil => rw [hp] at h1; dsimp only at h1; rw [h1] at hx; simp at hx
    | resting => rw [hp] at h1; dsimp only at h1; rw [h1] at hx; simp at hx
  · intro hp e c' hs
    cases e with
    | tried r => rw [cstep, Connector.tried.eq_def, hp] at hs; simp at hs
    | taken => rw [cstep, Connector.offer, hp] at hs; simp at hs
    | sleep => rw [cstep, Connector.sleep, hp] at hs; simp at hs

/-- C55. The delays are those of exponential back-off from four times the first random delay, up to five minutes. -/
theorem C55_delays (retry : Int) (hr : Retry retry) (es : List CEv) (c : Connector) (h : crun (.start retry) es = .ok c) :
    sleeps c.log = (List.range (sleeps c.log).length).map (backoff (4 * retry) 300000) := by
  obtain ⟨hr1, hr2⟩ := hr
  exact (cinv_run (d0 := 4 * retry) (by omega) ((cinv_start retry).resolve_right (by rw [maxDelay]; omega)) h).2.2.2.2.1

/-- C55. So they never decrease, are never shorter than 400 ms and never longer than five minutes. -/
theorem C55_delays_bounded (retry : Int) (hr : Retry retry) (es : List CEv) (c : Connector) (h : crun (.start retry) es = .ok c) :
    (sleeps c.log).Pairwise (· ≤ ·) ∧ ∀ d ∈ sleeps c.log, 400 ≤ d ∧ d ≤ 300000 := by
  have hd := C55_delays retry hr es c h
  obtain ⟨hr1, hr2⟩ := hr
  generalize (sleeps c.log).length = n at hd
  have mono : ∀ i j : Nat, i < j → backoff (4 * retry) 300000 i ≤ backoff (4 * retry) 300000 j := by
    intro i j hij
    have hp : (4 * retry) * 2 ^ i ≤ (4 * retry) * 2 ^ j :=
      Int.mul_le_mul_of_nonneg_left (by exact_mod_cast Nat.pow_le_pow_right (by norm_num) (le_of_lt hij)) (by omega)
    rw [backoff, backoff]
    by_cases h1 : 4 * retry * 2 ^ j < 300000
    · rw [if_pos h1, if_pos (by omega)]; exact hp
    · rw [if_neg h1]
      by_cases h2 : 4 * retry * 2 ^ i < 300000
      · rw [if_pos h2]; omega
      · rw [if_neg h2]
  refine ⟨?_, ?_⟩
  · rw [hd, List.pairwise_map]
    exact List.Pairwise.imp (fun {a b} hab => mono a b hab) List.pairwise_lt_range
  · intro d hm
    rw [hd, List.mem_map] at hm
    obtain ⟨i, _, rfl⟩ := hm
    have hp : (4 * retry) * 1 ≤ (4 * retry) * 2 ^ i :=
      Int.mul_le_mul_of_nonneg_left (by exact_mod_cast Nat.one_le_two_pow) (by omega)
    rw [backoff]
    by_cases h1 : 4 * retry * 2 ^ i < 300000
    · rw [if_pos h1]; omega
    · rw [if_neg h1]; omega

theorem tryConnectFrom_eq (delay : Int) (dial : Nat → Option Nat) (n i : Nat) :
    (tryConnectFrom delay dial n i).1 = firstSome dial n i ∧ (tryConnectFrom delay dial n i).2.length ≤ n ∧
      (∀ d ∈ (tryConnectFrom delay dial n i).2, d = peerStartGrace ∨ d = delay) := by
  induction n generalizing i with
  | zero => exact ⟨rfl, Nat.le_refl _, by simp [tryConnectFrom]⟩
  | succ n ih =>
    rw [tryConnectFrom]
    dsimp only
    obtain ⟨h1, h2, h3⟩ := ih (i + 1)
    have hd : (if i = 0 then peerStartGrace else delay) = peerStartGrace ∨ (if i = 0 then peerStartGrace else delay) = delay := by
      by_cases e : i = 0
      · exact .inl (if_pos e)
      · exact .inr (if_neg e)
    cases hi : dial i with
    | some c =>
      refine ⟨?_, by simp, by simpa using hd⟩
      rw [firstSome, List.range'_succ, List.filterMap_cons, hi]; rfl
    | none =>
      refine ⟨?_, by dsimp only; rw [List.length_cons]; omega, ?_⟩
      · dsimp only
        rw [h1, firstSome, firstSome, List.range'_succ, List.filterMap_cons, hi]
      · intro d hm
        rw [List.mem_cons] at hm
        rcases hm with rfl | hm
        · exact hd
        · exact h3 d hm

/-- C55. `_try_connect` dials at most five times, and gives the first connection it gets. -/
theorem C55_try_connect (delay : Int) (dial : Nat → Option Nat) :
    (tryConnect graceConnAttempts delay dial).1 = firstSome dial 5 0 ∧ (tryConnect graceConnAttempts delay dial).2.length ≤ 5 :=
  ⟨(tryConnectFrom_eq delay dial 5 0).1, (tryConnectFrom_eq delay dial 5 0).2.1⟩

def exConnector : List CEv := [.tried none, .taken, .sleep, .tried none, .sleep, .tried none, .sleep, .tried (some 7), .taken]

def exConnectorCheck : Bool :=
  match crun (.start 250) exConnector with
  | .ok c => c.log == [.pubNil, .slept 1000, .slept 2000, .slept 4000, .pubConn 7] && c.pc == .ended
  | _ => false

/-- A connector that fails three times. -/
theorem exConnector_ok : exConnectorCheck = true := by decide +kernel

end Connector

section Queue
variable {M : Type}

/-- The message that the consumer has taken and neither called nor dropped yet. -/
def pending (s : St M) : List M :=
  if s.pushedBack then s.msg.toList
  else match s.pc with
    | .select => s.msg.toList
    | .call => s.msg.toList
    | .fail => s.msg.toList
    | _ => []

/-- The consumer holds a message. -/
def holds : Pc → Bool
  | .select => true
  | .call => true
  | .post => true
  | .fail => true
  | _ => false

/-- The consumer holds a connection. -/
def connected : Pc → Bool
  | .first => true
  | .call => true
  | .post => true
  | .fail => true
  | _ => false

/-- A connector that has not yet published. -/
def Fresh (c : Connector) : Prop :=
  (c.failedBefore = false ∧ (c.pc = .trying ∨ ∃ x, c.pc = .haveConn x)) ∨ (c.failedBefore = true ∧ c.pc = .haveNil)

/-- A connector that has published nil. -/
def Told (c : Connector) : Prop := c.failedBefore = true ∧ (c.pc = .trying ∨ c.pc = .resting ∨ ∃ x, c.pc = .haveConn x)

/-- Which connectors are alive. -/
def ConnInv (pc : Pc) (cs : List Connector) : Prop :=
  match pc with
  | .wait => ∃ l c, cs = l ++ [c] ∧ (∀ x ∈ l, x.pc = .ended) ∧ Fresh c
  | .top => ∃ l c, cs = l ++ [c] ∧ (∀ x ∈ l, x.pc = .ended) ∧ Told c
  | .select => ∃ l c, cs = l ++ [c] ∧ (∀ x ∈ l, x.pc = .ended) ∧ Told c
  | _ => ∀ x ∈ cs, x.pc = .ended

structure Inv (s : St M) : Prop where
  len : s.queue.length ≤ msgMax
  sub : s.accepted.Sublist s.offered
  order : (called s.calls ++ (pending s ++ s.queue)).Sublist s.accepted
  client : connected s.pc = true → s.client ≠ none
  msg : holds s.pc = true ∨ s.pushedBack = true → s.msg ≠ none
  pb : s.pushedBack = true → holds s.pc = false
  conn : ConnInv s.pc s.connectors

theorem inv_init : Inv (init : St M) :=
  ⟨Nat.zero_le _, .refl _, .refl _, nofun, (by rintro (h | h) <;> cases h), nofun, (by intro x hx; cases hx)⟩

/-- Only the last connector can be other than at its end. -/
theorem last_of {l : List Connector} {c x : Connector} {i : Nat} (hl : ∀ x ∈ l, x.pc = .ended) (hx : (l ++ [c])[i]? = some x)
    (hn : x.pc ≠ .ended) : x = c ∧ ∀ y, (l ++ [c]).set i y = l ++ [y] := by
  by_cases h : i < l.length
  · rw [List.getElem?_append_left h] at hx
    exact absurd (hl x (List.mem_iff_getElem?.2 ⟨i, hx⟩)) hn
  · rw [List.getElem?_append_right (by omega)] at hx
    have : i = l.length := by
      by_contra hne
      rw [List.getElem?_eq_none (by simp; omega)] at hx
      cases hx
    subst this
    simp at hx
    exact ⟨hx.symm, fun y => by simp⟩

theorem offer_cases {c : Connector} {x : Option Nat} (h : c.offer = some x) :
    (∃ y, c.pc = .haveConn y ∧ x = some y) ∨ (c.pc = .haveNil ∧ x = none) := by
  rw [Connector.offer] at h
  cases hp : c.pc with
  | haveConn y => rw [hp] at h; injection h with h; exact .inl ⟨y, rfl, h.symm⟩
  | haveNil => rw [hp] at h; injection h with h; exact .inr ⟨rfl, h.symm⟩
  | trying => rw [hp] at h; cases h
  | resting => rw [hp] at h; cases h
  | ended => rw [hp] at h; cases h

theorem pending_of {s : St M} (h : s.pushedBack = false) (hh : s.pc = .select ∨ s.pc = .call ∨ s.pc = .fail) : pending s = s.msg.toList := by
  rw [pending, h]
  rcases hh with e | e | e <;> rw [e] <;> rfl

theorem pb_false {s : St M} (h : Inv s) (hh : holds s.pc = true) : s.pushedBack = false := by
  cases hp : s.pushedBack with
  | false => rfl
  | true => rw [h.pb hp] at hh; cases hh

/-- A connector of the list moves, and the consumer does not. -/
theorem connInv_set {pc : Pc} {cs : List Connector} (h : ConnInv pc cs) {i : Nat} {c c' : Connector} (hc : cs[i]? = some c)
    (hn : c.pc ≠ .ended) (hF : Fresh c → Fresh c') (hT : Told c → Told c') : ConnInv pc (cs.set i c') := by
  have allEnded : (∀ x ∈ cs, x.pc = .ended) → False := fun h => hn (h c (List.mem_iff_getElem?.2 ⟨i, hc⟩))
  cases pc with
  | wait =>
    obtain ⟨l, d, rfl, hl, hd⟩ := h
    obtain ⟨rfl, hset⟩ := last_of hl hc hn
    exact ⟨l, c', hset c', hl, hF hd⟩
  | top =>
    obtain ⟨l, d, rfl, hl, hd⟩ := h
    obtain ⟨rfl, hset⟩ := last_of hl hc hn
    exact ⟨l, c', hset c', hl, hT hd⟩
  | select =>
    obtain ⟨l, d, rfl, hl, hd⟩ := h
    obtain ⟨rfl, hset⟩ := last_of hl hc hn
    exact ⟨l, c', hset c', hl, hT hd⟩
  | spawn => exact (allEnded h).elim
  | first => exact (allEnded h).elim
  | call => exact (allEnded h).elim
  | post => exact (allEnded h).elim
  | fail => exact (allEnded h).elim

theorem inv_step {s s' : St M} (h : Inv s) {e : Ev M} (hs : step s e = .ok s') : Inv s' := by
  cases e with
  | send m =>
    have := Outcome.ok.inj hs
    subst this
    rw [trySend]
    by_cases hl : s.queue.length < msgMax
    · rw [if_pos hl]
      refine ⟨?_, ?_, ?_, h.client, h.msg, h.pb, h.conn⟩
      · simp only [List.length_append, List.length_cons, List.length_nil]; omega
      · exact h.sub.append (.refl _)
      · have := h.order.append (List.Sublist.refl [m])
        simp only [List.append_assoc] at this
        exact this
    · rw [if_neg hl]
      exact ⟨h.len, h.sub.trans (List.sublist_append_left _ _), h.order, h.client, h.msg, h.pb, h.conn⟩
  | spawn retry =>
    rw [step] at hs
    by_cases hp : s.pc = .spawn
    · rw [if_pos hp] at hs
      have := Outcome.ok.inj hs
      subst this
      refine ⟨h.len, h.sub, ?_, nofun, ?_, fun _ => rfl, ?_⟩
      · have := h.order
        rw [pending, hp] at this
        rw [pending]; exact this
      · rintro (x | x)
        · cases x
        · exact h.msg (.inr x)
      · have hc := h.conn
        rw [hp] at hc
        exact ⟨s.connectors, .start retry, rfl, hc, .inl ⟨rfl, .inl rfl⟩⟩
    · rw [if_neg hp] at hs; cases hs
  | recv i =>
    rw [step] at hs
    cases hi : s.connectors[i]? with
    | none => rw [hi] at hs; cases hs
    | some c =>
      rw [hi] at hs
      dsimp only at hs
      cases ho : c.offer with
      | none => rw [ho] at hs; cases hs
      | some x =>
        rw [ho] at hs
        dsimp only at hs
        by_cases hp : s.pc = .wait
        · rw [if_pos hp] at hs
          have := Outcome.ok.inj hs
          subst this
          have hc := h.conn
          rw [hp] at hc
          obtain ⟨l, d, e, hl, hd⟩ := hc
          rw [e] at hi ⊢
          have hpend : pending s = if s.pushedBack then s.msg.toList else [] := by rw [pending, hp]
          have hord := h.order
          rw [hpend] at hord
          rcases offer_cases ho with ⟨y, hy, rfl⟩ | ⟨hy, rfl⟩
          · obtain ⟨rfl, hset⟩ := last_of hl hi (by rw [hy]; nofun)
            rw [hset]
            rw [if_neg (by nofun)]
            refine ⟨h.len, h.sub, ?_, nofun, ?_, fun _ => rfl, ?_⟩
            · rw [pending]; exact hord
            · rintro (x | x)
              · cases x
              · exact h.msg (.inr x)
            · intro z hz
              rw [List.mem_append, List.mem_singleton] at hz
              rcases hz with hz | rfl
              · exact hl z hz
              · rw [Connector.taken, hy]
          · obtain ⟨rfl, hset⟩ := last_of hl hi (by rw [hy]; nofun)
            rw [hset]
            rw [if_pos rfl]
            refine ⟨h.len, h.sub, ?_, nofun, ?_, fun _ => rfl, ?_⟩
            · rw [pending]; exact hord
            · rintro (x | x)
              · cases x
              · exact h.msg (.inr x)
            · refine ⟨l, c.taken, rfl, hl, ?_⟩
              rcases hd with ⟨_, h2 | ⟨z, h2⟩⟩ | ⟨h1, h2⟩
              · rw [h2] at hy; cases hy
              · rw [h2] at hy; cases hy
              · rw [Connector.taken, hy]
                exact ⟨h1, .inr (.inl rfl)⟩
        · rw [if_neg hp] at hs; cases hs
  | get =>
    rw [step] at hs
    by_cases ht : s.pc = .top
    · rw [if_pos ht, getMsg] at hs
      have hc := h.conn
      rw [ht] at hc
      cases hb : s.pushedBack with
      | true =>
        rw [hb] at hs
        have := Outcome.ok.inj hs
        subst this
        refine ⟨h.len, h.sub, ?_, nofun, fun _ => h.msg (.inr hb), nofun, hc⟩
        have := h.order
        rw [pending, hb] at this
        rw [pending]; exact this
      | false =>
        rw [hb] at hs
        cases hq : s.queue with
        | nil => rw [hq] at hs; cases hs
        | cons m ms =>
          rw [hq] at hs
          have := Outcome.ok.inj hs
          subst this
          have hlen := h.len
          have hord := h.order
          rw [hq] at hlen hord
          rw [pending, hb, ht] at hord
          refine ⟨Nat.le_of_succ_le hlen, h.sub, ?_, nofun, nofun, nofun, hc⟩
          rw [pending]; exact hord
    rw [if_neg ht] at hs
    by_cases hf : s.pc = .first
    · rw [if_pos hf, getMsg] at hs
      dsimp only at hs
      have hc := h.conn
      rw [hf] at hc
      have hcl := h.client (by rw [hf]; rfl)
      cases hb : s.pushedBack with
      | true =>
        rw [hb] at hs
        have := Outcome.ok.inj hs
        subst this
        refine ⟨h.len, h.sub, ?_, fun _ => hcl, fun _ => h.msg (.inr hb), nofun, hc⟩
        have := h.order
        rw [pending, hb] at this
        rw [pending]; exact this
      | false =>
        rw [hb] at hs
        cases hq : s.queue with
        | nil => rw [hq] at hs; cases hs
        | cons m ms =>
          rw [hq] at hs
          have := Outcome.ok.inj hs
          subst this
          have hlen := h.len
          have hord := h.order
          rw [hq] at hlen hord
          rw [pending, hb, hf] at hord
          refine ⟨Nat.le_of_succ_le hlen, h.sub, ?_, fun _ => hcl, nofun, nofun, hc⟩
          rw [pending]; exact hord
    rw [if_neg hf] at hs
    by_cases hpo : s.pc = .post
    · rw [if_pos hpo] at hs
      have hb := pb_false h (by rw [hpo]; rfl)
      have hc := h.conn
      rw [hpo] at hc
      have hcl := h.client (by rw [hpo]; rfl)
      cases hq : s.queue with
      | nil => rw [hq] at hs; cases hs
      | cons m ms =>
        rw [hq] at hs
        have := Outcome.ok.inj hs
        subst this
        have hlen := h.len
        have hord := h.order
        rw [hq] at hlen hord
        rw [pending, hb, hpo] at hord
        cases hfl : s.failed with
        | true =>
          refine ⟨Nat.le_of_succ_le hlen, h.sub, ?_, fun _ => hcl, nofun, fun x => ?_, hc⟩
          · rw [pending]; dsimp only; rw [hb]; exact hord
          · rw [hb] at x; cases x
        | false =>
          refine ⟨Nat.le_of_succ_le hlen, h.sub, ?_, fun _ => hcl, nofun, fun x => ?_, hc⟩
          · rw [pending]; dsimp only; rw [hb]; exact hord
          · rw [hb] at x; cases x
    · rw [if_neg hpo] at hs; cases hs
  | selConn i =>
    rw [step] at hs
    cases hi : s.connectors[i]? with
    | none => rw [hi] at hs; cases hs
    | some c =>
      rw [hi] at hs
      dsimp only at hs
      cases ho : c.offer with
      | none => rw [ho] at hs; cases hs
      | some x =>
        rw [ho] at hs
        dsimp only at hs
        by_cases hp : s.pc = .select
        · rw [if_pos hp] at hs
          have := Outcome.ok.inj hs
          subst this
          have hb := pb_false h (by rw [hp]; rfl)
          have hc := h.conn
          rw [hp] at hc
          obtain ⟨l, d, e, hl, hd⟩ := hc
          rw [e] at hi ⊢
          have hord := h.order
          rw [pending_of hb (.inl hp)] at hord
          rcases offer_cases ho with ⟨y, hy, rfl⟩ | ⟨hy, rfl⟩
          · obtain ⟨rfl, hset⟩ := last_of hl hi (by rw [hy]; nofun)
            rw [hset]
            refine ⟨h.len, h.sub, ?_, nofun, fun _ => h.msg (.inl (by rw [hp]; rfl)), fun x => ?_, ?_⟩
            · rw [pending]; dsimp only; rw [hb]; exact hord
            · dsimp only at x; rw [hb] at x; cases x
            · intro z hz
              rw [List.mem_append, List.mem_singleton] at hz
              rcases hz with hz | rfl
              · exact hl z hz
              · rw [Connector.taken, hy]
          · obtain ⟨rfl, hset⟩ := last_of hl hi (by rw [hy]; nofun)
            obtain ⟨_, h2 | h2 | ⟨z, h2⟩⟩ := hd <;> (rw [h2] at hy; cases hy)
        · rw [if_neg hp] at hs; cases hs
  | selDrop =>
    rw [step] at hs
    by_cases hp : s.pc = .select ∧ ∀ c ∈ s.connectors, c.offer = none
    · rw [if_pos hp] at hs
      have := Outcome.ok.inj hs
      subst this
      have hb := pb_false h (by rw [hp.1]; rfl)
      have hc := h.conn
      rw [hp.1] at hc
      refine ⟨h.len, h.sub, ?_, nofun, ?_, fun _ => rfl, hc⟩
      · refine List.Sublist.trans ?_ h.order
        refine (List.Sublist.refl _).append ?_
        rw [pending, hb]
        exact List.sublist_append_right _ _
      · rintro (x | x)
        · cases x
        · dsimp only at x; rw [hb] at x; cases x
    · rw [if_neg hp] at hs; cases hs
  | call ok =>
    rw [step] at hs
    by_cases hp : s.pc = .call
    · rw [if_pos hp] at hs
      have hb := pb_false h (by rw [hp]; rfl)
      have hc := h.conn
      rw [hp] at hc
      have hord := h.order
      rw [pending_of hb (.inr (.inl hp))] at hord
      cases hcl : s.client with
      | none => rw [hcl] at hs; cases hs
      | some c =>
        cases hm : s.msg with
        | none => rw [hcl, hm] at hs; cases hs
        | some m =>
          rw [hcl, hm] at hs
          have := Outcome.ok.inj hs
          subst this
          refine ⟨h.len, h.sub, ?_, nofun, nofun, fun x => ?_, hc⟩
          · rw [pending]
            dsimp only
            rw [hb, called, List.map_append]
            rw [hm] at hord
            simpa [called] using hord
          · dsimp only at x; rw [hb] at x; cases x
    · rw [if_neg hp] at hs; cases hs
  | closing =>
    rw [step] at hs
    by_cases hp : s.pc = .fail
    · rw [if_pos hp] at hs
      have := Outcome.ok.inj hs
      subst this
      have hb := pb_false h (by rw [hp]; rfl)
      have hc := h.conn
      rw [hp] at hc
      have hord := h.order
      rw [pending_of hb (.inr (.inr hp))] at hord
      refine ⟨h.len, h.sub, ?_, nofun, fun _ => h.msg (.inl (by rw [hp]; rfl)), fun _ => rfl, hc⟩
      rw [pending]; exact hord
    · rw [if_neg hp] at hs; cases hs
  | tried i r =>
    rw [step] at hs
    cases hi : s.connectors[i]? with
    | none => rw [hi] at hs; cases hs
    | some c =>
      rw [hi] at hs
      dsimp only at hs
      rw [Outcome.bind_eq_ok] at hs
      obtain ⟨c', hc', hs⟩ := hs
      have := Outcome.ok.inj hs
      subst this
      rw [Connector.tried.eq_def] at hc'
      by_cases hp : c.pc = .trying
      · rw [if_pos hp] at hc'
        have key : (Fresh c → Fresh c') ∧ (Told c → Told c') := by
          cases r with
          | some x =>
            have := Outcome.ok.inj hc'
            subst this
            refine ⟨?_, ?_⟩
            · rintro (⟨h1, _⟩ | ⟨_, h2⟩)
              · exact .inl ⟨h1, .inr ⟨x, rfl⟩⟩
              · rw [hp] at h2; cases h2
            · rintro ⟨h1, _⟩
              exact ⟨h1, .inr (.inr ⟨x, rfl⟩)⟩
          | none =>
            dsimp only at hc'
            cases hf : c.failedBefore with
            | false =>
              rw [hf] at hc'
              have := Outcome.ok.inj hc'
              subst this
              refine ⟨fun _ => .inr ⟨rfl, rfl⟩, ?_⟩
              rintro ⟨h1, _⟩
              rw [hf] at h1; cases h1
            | true =>
              rw [hf] at hc'
              have := Outcome.ok.inj hc'
              subst this
              refine ⟨?_, fun _ => ⟨rfl, .inr (.inl rfl)⟩⟩
              rintro (⟨h1, _⟩ | ⟨_, h2⟩)
              · rw [hf] at h1; cases h1
              · rw [hp] at h2; cases h2
        exact ⟨h.len, h.sub, h.order, h.client, h.msg, h.pb, connInv_set h.conn hi (by rw [hp]; nofun) key.1 key.2⟩
      · rw [if_neg hp] at hc'; cases hc'
  | sleep i =>
    rw [step] at hs
    cases hi : s.connectors[i]? with
    | none => rw [hi] at hs; cases hs
    | some c =>
      rw [hi] at hs
      dsimp only at hs
      rw [Outcome.bind_eq_ok] at hs
      obtain ⟨c', hc', hs⟩ := hs
      have := Outcome.ok.inj hs
      subst this
      rw [Connector.sleep] at hc'
      by_cases hp : c.pc = .resting
      · rw [if_pos hp] at hc'
        have := Outcome.ok.inj hc'
        subst this
        refine ⟨h.len, h.sub, h.order, h.client, h.msg, h.pb, connInv_set h.conn hi (by rw [hp]; nofun) ?_ ?_⟩
        · rintro (⟨_, h2 | ⟨x, h2⟩⟩ | ⟨_, h2⟩) <;> (rw [hp] at h2; cases h2)
        · rintro ⟨h1, _⟩
          exact ⟨h1, .inl rfl⟩
      · rw [if_neg hp] at hc'; cases hc'

theorem inv_run {s s' : St M} (h : Inv s) {es : List (Ev M)} (hs : run s es = .ok s') : Inv s' := by
  induction es generalizing s with
  | nil => have := Outcome.ok.inj hs; subst this; exact h
  | cons e es ih =>
    rw [run, Outcome.bind_eq_ok] at hs
    obtain ⟨s1, h1, h2⟩ := hs
    exact ih (inv_step h h1) h2

/-- All messages accepted and not dropped: those called, the one held and those waiting. -/
def flow (s : St M) : List M := called s.calls ++ (pending s ++ s.queue)

/-- Nothing but the select drops a message that was accepted. -/
theorem flow_step {s s' : St M} (h : Inv s) {e : Ev M} (hs : step s e = .ok s') (hn : e ≠ .selDrop) (hf : flow s = s.accepted) :
    flow s' = s'.accepted := by
  rw [flow] at hf ⊢
  cases e with
  | send m =>
    have := Outcome.ok.inj hs
    subst this
    rw [trySend]
    by_cases hl : s.queue.length < msgMax
    · rw [if_pos hl]
      dsimp only
      rw [← hf]
      change called s.calls ++ (pending s ++ (s.queue ++ [m])) = _
      simp only [List.append_assoc]
    · rw [if_neg hl]; exact hf
  | spawn retry =>
    rw [step] at hs
    by_cases hp : s.pc = .spawn
    · rw [if_pos hp] at hs
      have := Outcome.ok.inj hs
      subst this
      rw [pending, hp] at hf
      rw [pending]; exact hf
    · rw [if_neg hp] at hs; cases hs
  | recv i =>
    rw [step] at hs
    cases hi : s.connectors[i]? with
    | none => rw [hi] at hs; cases hs
    | some c =>
      rw [hi] at hs
      dsimp only at hs
      cases ho : c.offer with
      | none => rw [ho] at hs; cases hs
      | some x =>
        rw [ho] at hs
        dsimp only at hs
        by_cases hp : s.pc = .wait
        · rw [if_pos hp] at hs
          have := Outcome.ok.inj hs
          subst this
          rw [pending, hp] at hf
          rw [pending]
          cases x with
          | none => exact hf
          | some y => exact hf
        · rw [if_neg hp] at hs; cases hs
  | get =>
    rw [step] at hs
    by_cases ht : s.pc = .top
    · rw [if_pos ht, getMsg] at hs
      cases hb : s.pushedBack with
      | true =>
        rw [hb] at hs
        have := Outcome.ok.inj hs
        subst this
        rw [pending, hb] at hf
        rw [pending]; exact hf
      | false =>
        rw [hb] at hs
        cases hq : s.queue with
        | nil => rw [hq] at hs; cases hs
        | cons m ms =>
          rw [hq] at hs
          have := Outcome.ok.inj hs
          subst this
          rw [pending, hb, ht, hq] at hf
          rw [pending]; exact hf
    rw [if_neg ht] at hs
    by_cases hfi : s.pc = .first
    · rw [if_pos hfi, getMsg] at hs
      dsimp only at hs
      cases hb : s.pushedBack with
      | true =>
        rw [hb] at hs
        have := Outcome.ok.inj hs
        subst this
        rw [pending, hb] at hf
        rw [pending]; exact hf
      | false =>
        rw [hb] at hs
        cases hq : s.queue with
        | nil => rw [hq] at hs; cases hs
        | cons m ms =>
          rw [hq] at hs
          have := Outcome.ok.inj hs
          subst this
          rw [pending, hb, hfi, hq] at hf
          rw [pending]; exact hf
    rw [if_neg hfi] at hs
    by_cases hpo : s.pc = .post
    · rw [if_pos hpo] at hs
      have hb := pb_false h (by rw [hpo]; rfl)
      cases hq : s.queue with
      | nil => rw [hq] at hs; cases hs
      | cons m ms =>
        rw [hq] at hs
        have := Outcome.ok.inj hs
        subst this
        rw [pending, hb, hpo, hq] at hf
        cases hfl : s.failed with
        | true => rw [pending]; dsimp only; rw [hb]; exact hf
        | false => rw [pending]; dsimp only; rw [hb]; exact hf
    · rw [if_neg hpo] at hs; cases hs
  | selConn i =>
    rw [step] at hs
    cases hi : s.connectors[i]? with
    | none => rw [hi] at hs; cases hs
    | some c =>
      rw [hi] at hs
      dsimp only at hs
      cases ho : c.offer with
      | none => rw [ho] at hs; cases hs
      | some x =>
        rw [ho] at hs
        dsimp only at hs
        by_cases hp : s.pc = .select
        · rw [if_pos hp] at hs
          have := Outcome.ok.inj hs
          subst this
          have hb := pb_false h (by rw [hp]; rfl)
          rw [pending, hb, hp] at hf
          rw [pending]; dsimp only; rw [hb]; exact hf
        · rw [if_neg hp] at hs; cases hs
  | selDrop => exact absurd rfl hn
  | call ok =>
    rw [step] at hs
    by_cases hp : s.pc = .call
    · rw [if_pos hp] at hs
      have hb := pb_false h (by rw [hp]; rfl)
      cases hcl : s.client with
      | none => rw [hcl] at hs; cases hs
      | some c =>
        cases hm : s.msg with
        | none => rw [hcl, hm] at hs; cases hs
        | some m =>
          rw [hcl, hm] at hs
          have := Outcome.ok.inj hs
          subst this
          rw [pending, hb, hp, hm] at hf
          rw [pending]
          dsimp only
          rw [hb, called, List.map_append]
          simpa [called] using hf
    · rw [if_neg hp] at hs; cases hs
  | closing =>
    rw [step] at hs
    by_cases hp : s.pc = .fail
    · rw [if_pos hp] at hs
      have := Outcome.ok.inj hs
      subst this
      have hb := pb_false h (by rw [hp]; rfl)
      rw [pending, hb, hp] at hf
      rw [pending]; exact hf
    · rw [if_neg hp] at hs; cases hs
  | tried i r =>
    rw [step] at hs
    cases hi : s.connectors[i]? with
    | none => rw [hi] at hs; cases hs
    | some c =>
      rw [hi] at hs
      dsimp only at hs
      rw [Outcome.bind_eq_ok] at hs
      obtain ⟨c', hc', hs⟩ := hs
      have := Outcome.ok.inj hs
      subst this
      exact hf
  | sleep i =>
    rw [step] at hs
    cases hi : s.connectors[i]? with
    | none => rw [hi] at hs; cases hs
    | some c =>
      rw [hi] at hs
      dsimp only at hs
      rw [Outcome.bind_eq_ok] at hs
      obtain ⟨c', hc', hs⟩ := hs
      have := Outcome.ok.inj hs
      subst this
      exact hf

theorem offered_step {s s' : St M} {e : Ev M} (hs : step s e = .ok s') : s'.offered = s.offered ++ sends [e] := by
  have nil : ∀ t : St M, t.offered = s.offered → s' = t → s'.offered = s.offered ++ [] := by
    rintro t ht rfl; rw [ht, List.append_nil]
  cases e with
  | send m =>
    have := Outcome.ok.inj hs
    subst this
    rw [trySend]
    by_cases hl : s.queue.length < msgMax
    · rw [if_pos hl]; rfl
    · rw [if_neg hl]; rfl
  | spawn retry =>
    rw [step] at hs
    by_cases hp : s.pc = .spawn
    · rw [if_pos hp] at hs; exact nil _ (by rfl) (Outcome.ok.inj hs).symm
    · rw [if_neg hp] at hs; cases hs
  | recv i =>
    rw [step] at hs
    cases hi : s.connectors[i]? with
    | none => rw [hi] at hs; cases hs
    | some c =>
      rw [hi] at hs
      dsimp only at hs
      cases ho : c.offer with
      | none => rw [ho] at hs; cases hs
      | some x =>
        rw [ho] at hs
        dsimp only at hs
        by_cases hp : s.pc = .wait
        · rw [if_pos hp] at hs; exact nil _ (by rfl) (Outcome.ok.inj hs).symm
        · rw [if_neg hp] at hs; cases hs
  | get =>
    rw [step] at hs
    have gm : ∀ (t : St M) (pc : Pc), t.offered = s.offered → getMsg t pc = .ok s' → s'.offered = s.offered ++ [] := by
      intro t pc ht hs
      rw [getMsg] at hs
      cases hb : t.pushedBack with
      | true => rw [hb] at hs; exact nil _ (by exact ht) (Outcome.ok.inj hs).symm
      | false =>
        rw [hb] at hs
        cases hq : t.queue with
        | nil => rw [hq] at hs; cases hs
        | cons m ms => rw [hq] at hs; exact nil _ (by exact ht) (Outcome.ok.inj hs).symm
    by_cases ht : s.pc = .top
    · rw [if_pos ht] at hs; exact gm s _ rfl hs
    rw [if_neg ht] at hs
    by_cases hfi : s.pc = .first
    · rw [if_pos hfi] at hs; exact gm { s with failed := false } _ rfl hs
    rw [if_neg hfi] at hs
    by_cases hpo : s.pc = .post
    · rw [if_pos hpo] at hs
      cases hq : s.queue with
      | nil => rw [hq] at hs; cases hs
      | cons m ms => rw [hq] at hs; exact nil _ (by rfl) (Outcome.ok.inj hs).symm
    · rw [if_neg hpo] at hs; cases hs
  | selConn i =>
    rw [step] at hs
    cases hi : s.connectors[i]? with
    | none => rw [hi] at hs; cases hs
    | some c =>
      rw [hi] at hs
      dsimp only at hs
      cases ho : c.offer with
      | none => rw [ho] at hs; cases hs
      | some x =>
        rw [ho] at hs
        dsimp only at hs
        by_cases hp : s.pc = .select
        · rw [if_pos hp] at hs; exact nil _ (by rfl) (Outcome.ok.inj hs).symm
        · rw [if_neg hp] at hs; cases hs
  | selDrop =>
    rw [step] at hs
    by_cases hp : s.pc = .select ∧ ∀ c ∈ s.connectors, c.offer = none
    · rw [if_pos hp] at hs; exact nil _ (by rfl) (Outcome.ok.inj hs).symm
    · rw [if_neg hp] at hs; cases hs
  | call ok =>
    rw [step] at hs
    by_cases hp : s.pc = .call
    · rw [if_pos hp] at hs
      cases hcl : s.client with
      | none => rw [hcl] at hs; cases hs
      | some c =>
        cases hm : s.msg with
        | none => rw [hcl, hm] at hs; cases hs
        | some m => rw [hcl, hm] at hs; exact nil _ (by rfl) (Outcome.ok.inj hs).symm
    · rw [if_neg hp] at hs; cases hs
  | closing =>
    rw [step] at hs
    by_cases hp : s.pc = .fail
    · rw [if_pos hp] at hs; exact nil _ (by rfl) (Outcome.ok.inj hs).symm
    · rw [if_neg hp] at hs; cases hs
  | tried i r =>
    rw [step] at hs
    cases hi : s.connectors[i]? with
    | none => rw [hi] at hs; cases hs
    | some c =>
      rw [hi] at hs
      dsimp only at hs
      rw [Outcome.bind_eq_ok] at hs
      obtain ⟨c', hc', hs⟩ := hs
      exact nil _ (by rfl) (Outcome.ok.inj hs).symm
  | sleep i =>
    rw [step] at hs
    cases hi : s.connectors[i]? with
    | none => rw [hi] at hs; cases hs
    | some c =>
      rw [hi] at hs
      dsimp only at hs
      rw [Outcome.bind_eq_ok] at hs
      obtain ⟨c', hc', hs⟩ := hs
      exact nil _ (by rfl) (Outcome.ok.inj hs).symm

theorem sends_cons (e : Ev M) (h : List (Ev M)) : sends (e :: h) = sends [e] ++ sends h := by
  cases e <;> rfl

theorem offered_run {s s' : St M} {h : List (Ev M)} (hs : run s h = .ok s') : s'.offered = s.offered ++ sends h := by
  induction h generalizing s with
  | nil => have := Outcome.ok.inj hs; subst this; simp [sends]
  | cons e es ih =>
    rw [run, Outcome.bind_eq_ok] at hs
    obtain ⟨s1, h1, h2⟩ := hs
    rw [ih h2, offered_step h1, sends_cons e es, List.append_assoc]

/-- C53. At most 1000 messages wait. -/
theorem C53_bounded (h : List (Ev M)) (s : St M) (hr : run init h = .ok s) : s.queue.length ≤ 1000 := (inv_run inv_init hr).len

/-- C53. Sending never blocks and never fails, in no state; the message is queued exactly when there is room. -/
theorem C53_never_blocks (s : St M) (m : M) : ∃ s', step s (.send m) = .ok s' ∧
    s'.queue = if s.queue.length < 1000 then s.queue ++ [m] else s.queue := by
  refine ⟨_, rfl, ?_⟩
  rw [trySend]
  by_cases hl : s.queue.length < msgMax
  · rw [if_pos hl, if_pos (by exact hl)]
  · rw [if_neg hl, if_neg (by exact hl)]

/-- C53. The calls, so also the messages delivered, are a subsequence of the messages sent: in the order of sending, none twice, none that was
not sent. The same holds with those that are still to come. -/
theorem C53_order (h : List (Ev M)) (s : St M) (hr : run init h = .ok s) :
    (called s.calls).Sublist (sends h) ∧ (called s.calls ++ s.queue).Sublist (sends h) := by
  have hi := inv_run inv_init hr
  have ho := offered_run hr
  rw [show (init : St M).offered = [] from rfl, List.nil_append] at ho
  have h1 : (called s.calls ++ s.queue).Sublist (sends h) := by
    rw [← ho]
    refine List.Sublist.trans ?_ (hi.order.trans hi.sub)
    exact (List.Sublist.refl _).append (List.sublist_append_right _ _)
  exact ⟨(List.sublist_append_left _ _).trans h1, h1⟩

/-- C53. Unless the select drops a message while disconnected, every message accepted is called, held or waiting, in order: nothing
gets lost or reordered, whatever calls fail. -/
theorem C53_lossless (h : List (Ev M)) (s : St M) (hr : run init h = .ok s) (hd : ∀ e ∈ h, e ≠ .selDrop) :
    ∃ held : List M, held.length ≤ 1 ∧ called s.calls ++ held ++ s.queue = s.accepted := by
  have key : ∀ (h : List (Ev M)) (s s' : St M), Inv s → flow s = s.accepted → (∀ e ∈ h, e ≠ .selDrop) → run s h = .ok s' →
      flow s' = s'.accepted := by
    intro h
    induction h with
    | nil => intro s s' _ hf _ hr; have := Outcome.ok.inj hr; subst this; exact hf
    | cons e es ih =>
      intro s s' hi hf hd hr
      rw [run, Outcome.bind_eq_ok] at hr
      obtain ⟨s1, h1, h2⟩ := hr
      exact ih s1 s' (inv_step hi h1) (flow_step hi h1 (hd e (by simp)) hf) (fun x hx => hd x (by simp [hx])) h2
  refine ⟨pending s, ?_, ?_⟩
  · rw [pending]
    have : s.msg.toList.length ≤ 1 := by cases s.msg <;> simp
    cases s.pushedBack with
    | true => exact this
    | false => cases s.pc <;> first | exact this | exact Nat.zero_le 1
  · rw [List.append_assoc]; exact key h init s inv_init rfl hd hr

/-- C53. The consumer never makes a call without a connection and a message: no history ends in a panic. -/
theorem C53_no_panic (h : List (Ev M)) : run (init : St M) h ≠ .panic := by
  have key : ∀ (h : List (Ev M)) (s : St M), Inv s → run s h ≠ .panic := by
    intro h
    induction h with
    | nil => intro s _ hr; cases hr
    | cons e es ih =>
      intro s hi hr
      rw [run] at hr
      cases hs : step s e with
      | ok s1 => rw [hs] at hr; exact ih s1 (inv_step hi hs) hr
      | err => rw [hs] at hr; cases hr
      | panic =>
        have gm : ∀ (t : St M) (pc : Pc), getMsg t pc ≠ .panic := by
          intro t pc ht
          rw [getMsg] at ht
          cases hb : t.pushedBack with
          | true => rw [hb] at ht; cases ht
          | false =>
            rw [hb] at ht
            cases hq : t.queue with
            | nil => rw [hq] at ht; cases ht
            | cons m ms => rw [hq] at ht; cases ht
        cases e with
        | send m => cases hs
        | spawn retry => rw [step] at hs; by_cases hp : s.pc = .spawn <;> simp [hp] at hs
        | recv i =>
          rw [step] at hs
          cases hc : s.connectors[i]? with
          | none => rw [hc] at hs; cases hs
          | some c =>
            rw [hc] at hs
            dsimp only at hs
            cases ho : c.offer with
            | none => rw [ho] at hs; cases hs
            | some x => rw [ho] at hs; by_cases hp : s.pc = .wait <;> simp [hp] at hs
        | selConn i =>
          rw [step] at hs
          cases hc : s.connectors[i]? with
          | none => rw [hc] at hs; cases hs
          | some c =>
            rw [hc] at hs
            dsimp only at hs
            cases ho : c.offer with
            | none => rw [ho] at hs; cases hs
            | some x => rw [ho] at hs; by_cases hp : s.pc = .select <;> simp [hp] at hs
        | get =>
          rw [step] at hs
          by_cases ht : s.pc = .top
          · rw [if_pos ht] at hs; exact gm _ _ hs
          rw [if_neg ht] at hs
          by_cases hfi : s.pc = .first
          · rw [if_pos hfi] at hs; exact gm _ _ hs
          rw [if_neg hfi] at hs
          by_cases hpo : s.pc = .post
          · rw [if_pos hpo] at hs
            cases hq : s.queue with
            | nil => rw [hq] at hs; cases hs
            | cons m ms => rw [hq] at hs; cases hs
          · rw [if_neg hpo] at hs; cases hs
        | selDrop =>
          rw [step] at hs
          by_cases hp : s.pc = .select ∧ ∀ c ∈ s.connectors, c.offer = none
          · rw [if_pos hp] at hs; cases hs
          · rw [if_neg hp] at hs; cases hs
        | call ok =>
          rw [step] at hs
          by_cases hp : s.pc = .call
          · rw [if_pos hp] at hs
            have h1 := hi.client (by rw [hp]; rfl)
            have h2 := hi.msg (.inl (by rw [hp]; rfl))
            cases hcl : s.client with
            | none => exact h1 hcl
            | some c =>
              cases hm : s.msg with
              | none => exact h2 hm
              | some m => rw [hcl, hm] at hs; cases hs
          · rw [if_neg hp] at hs; cases hs
        | closing => rw [step] at hs; by_cases hp : s.pc = .fail <;> simp [hp] at hs
        | tried i r =>
          rw [step] at hs
          cases hc : s.connectors[i]? with
          | none => rw [hc] at hs; cases hs
          | some c =>
            rw [hc] at hs
            dsimp only at hs
            rw [Connector.tried.eq_def] at hs
            by_cases hp : c.pc = .trying
            · rw [if_pos hp] at hs
              cases r with
              | some x => cases hs
              | none => cases hf : c.failedBefore <;> (rw [hf] at hs; cases hs)
            · rw [if_neg hp] at hs; cases hs
        | sleep i =>
          rw [step] at hs
          cases hc : s.connectors[i]? with
          | none => rw [hc] at hs; cases hs
          | some c =>
            rw [hc] at hs
            dsimp only at hs
            rw [Connector.sleep] at hs
            by_cases hp : c.pc = .resting
            · rw [if_pos hp] at hs; cases hs
            · rw [if_neg hp] at hs; cases hs
  exact key h init inv_init

/-- C55. At most one connector of a peer is alive at any time. -/
theorem C55_one_connector (h : List (Ev M)) (s : St M) (hr : run init h = .ok s) (i j : Nat) (c d : Connector)
    (hi : s.connectors[i]? = some c) (hj : s.connectors[j]? = some d) (hc : c.pc ≠ .ended) (hd : d.pc ≠ .ended) : i = j := by
  have hinv := (inv_run inv_init hr).conn
  have last : ∀ l x, s.connectors = l ++ [x] → (∀ y ∈ l, y.pc = .ended) → i = j := by
    intro l x e hl
    have key : ∀ (a : Nat) (y : Connector), s.connectors[a]? = some y → y.pc ≠ .ended → a = l.length := by
      intro a y ha hy
      rw [e] at ha
      by_cases h1 : a < l.length
      · rw [List.getElem?_append_left h1] at ha
        exact absurd (hl y (List.mem_iff_getElem?.2 ⟨a, ha⟩)) hy
      · by_contra hne
        rw [List.getElem?_eq_none (by simp; omega)] at ha
        cases ha
    rw [key i c hi hc, key j d hj hd]
  have none_ : (∀ y ∈ s.connectors, y.pc = .ended) → i = j := fun hl => absurd (hl c (List.mem_iff_getElem?.2 ⟨i, hi⟩)) hc
  cases hp : s.pc <;> rw [hp] at hinv
  case wait => obtain ⟨l, x, e, hl, _⟩ := hinv; exact last l x e hl
  case top => obtain ⟨l, x, e, hl, _⟩ := hinv; exact last l x e hl
  case select => obtain ⟨l, x, e, hl, _⟩ := hinv; exact last l x e hl
  all_goals exact none_ hinv

/-- C54 is false of the code, in every history: no message is ever called twice (the messages sent being distinct), so a message whose call
failed is never transmitted again. -/
theorem C54_never_retried (h : List (Ev M)) (s : St M) (hr : run init h = .ok s) (hd : (sends h).Nodup) (l1 l2 : List (Nat × M × Bool))
    (c : Nat) (m : M) (hf : s.calls = l1 ++ (c, m, false) :: l2) : m ∉ called l2 := by
  have hn := ((C53_order h s hr).1).nodup hd
  rw [hf, called, List.map_append, List.map_cons, List.nodup_append] at hn
  exact (List.nodup_cons.1 hn.2.1).1

/-- Three messages; the call of the first fails. -/
def exFail : List (Ev Nat) :=
  [.send 1, .spawn 100, .tried 0 (some 10), .recv 0, .get, .call false, .send 2, .get, .closing, .send 3, .spawn 100, .tried 1 (some 11), .recv 1,
   .get, .call true, .get, .call true]

def exFailCheck : Bool :=
  match run init exFail with
  | .ok s => s.calls == [(10, 1, false), (11, 2, true), (11, 3, true)]
  | _ => false

/-- C54 fails: the call of message 1 on connection 10 fails, and the first message on connection 11 is message 2. -/
theorem C54_counterexample : exFailCheck = true := by decide +kernel

/-- C54, the part that holds: only the message of the failed call is lost. If no message is dropped while disconnected, the calls after a failed
call go on, on the next connection, with the message that was accepted next, and so on without a gap. -/
theorem C54_next_message_partial (h : List (Ev M)) (s : St M) (hr : run init h = .ok s) (hd : ∀ e ∈ h, e ≠ .selDrop)
    (l1 l2 : List (Nat × M × Bool)) (c : Nat) (m : M) (ok : Bool) (hf : s.calls = l1 ++ (c, m, ok) :: l2) :
    ∃ rest, s.accepted = called l1 ++ m :: (called l2 ++ rest) := by
  obtain ⟨held, _, e⟩ := C53_lossless h s hr hd
  refine ⟨held ++ s.queue, ?_⟩
  rw [← e, hf]
  simp [called]

/-- A peer that cannot be reached at first: the second message is dropped, the third is the first to be called. -/
def exDrop : List (Ev Nat) :=
  [.spawn 100, .send 1, .send 2, .send 3, .tried 0 none, .recv 0, .get, .selDrop, .get, .selDrop, .sleep 0, .get, .tried 0 (some 5),
   .selConn 0, .call true, .send 4, .get, .call false, .send 5, .get, .closing]

def exDropCheck : Bool :=
  match run init exDrop with
  | .ok s => s.calls == [(5, 3, true), (5, 4, false)] && s.pushedBack && s.msg == some 5 && s.pc == .spawn
  | _ => false

theorem exDrop_ok : exDropCheck = true := by decide +kernel

end Queue

end Verif.Props.NetCaller
