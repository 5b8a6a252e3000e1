import Verif.Props.NetLoad
import Verif.Spec.NetBack

/-! Invariants of the outgoing queue with a clock: what the timers say, and what holds once the peer is back. -/
namespace Verif.Props.NetTime
open Verif.NetTime Verif.Spec.NetTime
open Verif.NetCaller (CPc Pc Connector)
open Verif.Props.NetCaller (Inv ConnInv Fresh Told pending flow)
variable {M : Type} {s s' : St M} {e : Ev M} {D L T : Int}

section pairs
variable {P : Connector → Try → Prop} {cs : List Connector} {ys : List Try} {i : Nat} {c' : Connector} {y' : Try}

/-- A property of each connector with its attempts. -/
def Pairs (P : Connector → Try → Prop) (cs : List Connector) (ys : List Try) : Prop :=
  ∀ (i : Nat) (c : Connector) (y : Try), cs[i]? = some c → ys[i]? = some y → P c y

theorem Pairs.set (h : Pairs P cs ys) (hn : P c' y') : Pairs P (cs.set i c') (ys.set i y') := by
  intro j c y hc hy
  rw [List.getElem?_set] at hc hy
  by_cases hj : i = j
  · rw [if_pos hj] at hc hy
    split at hy
    · split at hc
      · cases hc; cases hy; exact hn
      · cases hc
    · cases hy
  · rw [if_neg hj] at hc hy
    exact h j c y hc hy

theorem Pairs.conn (h : Pairs P cs ys) (hn : ∀ y, ys[i]? = some y → P c' y) : Pairs P (cs.set i c') ys := by
  intro j c y hc hy
  rw [List.getElem?_set] at hc
  by_cases hj : i = j
  · rw [if_pos hj] at hc
    split at hc
    · cases hc; exact hn y (hj ▸ hy)
    · cases hc
  · rw [if_neg hj] at hc
    exact h j c y hc hy

theorem Pairs.tries (h : Pairs P cs ys) (hn : ∀ c, cs[i]? = some c → P c y') : Pairs P cs (ys.set i y') := by
  intro j c y hc hy
  rw [List.getElem?_set] at hy
  by_cases hj : i = j
  · rw [if_pos hj] at hy
    split at hy
    · cases hy; exact hn c (hj ▸ hc)
    · cases hy
  · rw [if_neg hj] at hy
    exact h j c y hc hy

theorem Pairs.snoc (h : Pairs P cs ys) (hl : ys.length = cs.length) (hn : P c' y') : Pairs P (cs ++ [c']) (ys ++ [y']) := by
  intro j c y hc hy
  by_cases hj : j < ys.length
  · rw [List.getElem?_append_left (hl ▸ hj)] at hc
    rw [List.getElem?_append_left hj] at hy
    exact h j c y hc hy
  · obtain ⟨k, rfl⟩ := Nat.exists_eq_add_of_le (Nat.le_of_not_lt hj)
    rw [List.getElem?_append_right (by omega), Nat.add_sub_cancel_left] at hy
    rw [List.getElem?_append_right (by omega), ← hl, Nat.add_sub_cancel_left] at hc
    cases k with
    | zero => cases hc; cases hy; exact hn
    | succ k => cases hc

theorem Pairs.imp {Q : Connector → Try → Prop} (h : Pairs P cs ys) (hi : ∀ (i : Nat) (c : Connector) (y : Try), cs[i]? = some c → ys[i]? = some y → P c y → Q c y) : Pairs Q cs ys :=
  fun i c y hc hy => hi i c y hc hy (h i c y hc hy)

end pairs

/-- The random delays are less than a second. -/
theorem retry_lt (hs : step s e = .ok s') : (∀ r d, e = .spawn r d → r < 1000 ∧ d < 1000) ∧ (∀ i d, e = .again i d → d < 1000) ∧
    ∀ r, e = .closing r → r < 1000 := by
  refine ⟨?_, ?_, ?_⟩
  · rintro r d rfl
    rw [step] at hs
    split at hs
    · next h =>
      simp only [Bool.and_eq_true, isRetry_iff] at h
      exact ⟨h.1.1.2, h.1.2.2⟩
    · cases hs
  · rintro i d rfl
    rw [step] at hs
    split at hs
    · split at hs
      · next h =>
        simp only [Bool.and_eq_true, isRetry_iff] at h
        exact h.1.2
      · cases hs
    · cases hs
  · rintro r rfl
    rw [step] at hs
    split at hs
    · next h => exact (isRetry_iff.1 h).2
    · cases hs

/-- When the select drops a message, no connector offers anything. -/
theorem drop_offers (hs : step s .selDrop = .ok s') : s.base.pc = .select ∧ ∀ c ∈ s.base.connectors, c.offer = none := by
  have hs : untimed s .selDrop = .ok s' := hs
  obtain ⟨b, h1, _⟩ := inv_untimed hs
  rw [NetCaller.step] at h1
  split at h1
  · next h => exact h
  · cases h1

/-- How a connector is, and what it waits for. -/
structure Link (now : Int) (c : Connector) (y : Try) : Prop where
  delay : y.delay < 1000
  d : c.d ≤ 300000
  trying : c.pc = .trying → (∃ till, y.timer = .asleep till ∧ till ≤ now + 2000) ∨ ∃ since, y.timer = .dialling since ∧ since ≤ now
  resting : c.pc = .resting → y.timer = .idle ∨ ∃ till, y.timer = .asleep till ∧ till ≤ now + 300000
  other : c.pc ≠ .trying → c.pc ≠ .resting → y.timer = .idle

theorem Link.mono {now now' : Int} {c : Connector} {y : Try} (h : Link now c y) (hn : now ≤ now') : Link now' c y := by
  refine ⟨h.delay, h.d, fun a => ?_, fun a => ?_, h.other⟩
  · rcases h.trying a with ⟨till, h1, h2⟩ | ⟨since, h1, h2⟩
    · exact .inl ⟨till, h1, by omega⟩
    · exact .inr ⟨since, h1, by omega⟩
  · rcases h.resting a with h1 | ⟨till, h1, h2⟩
    · exact .inl h1
    · exact .inr ⟨till, h1, by omega⟩

theorem Link.taken {now : Int} {c : Connector} {y : Try} (h : Link now c y) : Link now c.taken y := by
  unfold Connector.taken
  split
  · next x hx => exact ⟨h.delay, h.d, nofun, nofun, fun _ _ => h.other (by rw [hx]; exact nofun) (by rw [hx]; exact nofun)⟩
  · next hx => exact ⟨h.delay, h.d, nofun, fun _ => .inl (h.other (by rw [hx]; exact nofun) (by rw [hx]; exact nofun)), fun _ a => absurd rfl a⟩
  · exact h

/-- What holds at any time. -/
structure TI (s : St M) : Prop where
  inv : Inv s.base
  len : s.tries.length = s.base.connectors.length
  each : Pairs (Link s.now) s.base.connectors s.tries
  wake : s.base.pc = .spawn → s.wake ≤ s.now + 999
  since : s.base.pc = .call → s.since ≤ s.now

theorem ti_init (t0 : Int) : TI (init t0 : St M) :=
  ⟨Props.NetCaller.inv_init, rfl, fun i c y a => (nomatch a), fun _ => by show t0 ≤ t0 + 999; omega, nofun⟩

theorem ti_step (h : TI s) (hs : step s e = .ok s') : TI s' := by
  obtain ⟨hinv, hlen, heach, hwake, hsince⟩ := h
  have hinv' : Inv s'.base := by
    rcases step_base hs with ⟨h1, _⟩ | ⟨e0, h1, _⟩
    · rw [h1]; exact hinv
    · exact Props.NetCaller.inv_step hinv h1
  obtain ⟨r1, r2, r3⟩ := retry_lt hs
  cases move_of_step hs with
  | tick t h1 h2 =>
    subst h2
    have hn := Int.le_of_lt h1
    exact ⟨hinv', hlen, heach.imp fun _ _ _ _ _ h => h.mono hn, fun a => by have := hwake a; dsimp only; omega, fun a => (hsince a).trans hn⟩
  | send m h2 =>
    subst h2
    refine ⟨hinv', ?_, ?_, ?_, ?_⟩ <;> (dsimp only; unfold NetCaller.trySend; split) <;> assumption
  | spawn retry delay h1 h2 h3 h4 =>
    subst h4
    obtain ⟨r4, r5⟩ := r1 _ _ rfl
    refine ⟨hinv', by rw [List.length_append, List.length_append, hlen]; rfl, heach.snoc hlen ?_, nofun, nofun⟩
    refine ⟨r5, ?_, fun _ => .inl ⟨_, rfl, Int.le_refl _⟩, nofun, fun a => absurd rfl a⟩
    show 4 * retry ≤ 300000
    omega
  | dial i n delay till c h1 h2 h3 h4 h5 =>
    subst h5
    refine ⟨hinv', by rw [List.length_set]; exact hlen, heach.tries fun c' hc' => ?_, hwake, hsince⟩
    obtain ⟨g1, g2, g3, g4, g5⟩ := heach i _ _ hc' h1
    rw [h2] at hc'
    cases hc'
    exact ⟨g1, g2, fun _ => .inr ⟨_, rfl, Int.le_refl _⟩, (fun a => by rw [h3] at a; cases a), fun a => absurd h3 a⟩
  | refused i n delay since h1 h2 h3 =>
    subst h3
    refine ⟨hinv', by rw [List.length_set]; exact hlen, heach.tries fun c' hc' => ?_, hwake, hsince⟩
    obtain ⟨g1, g2, g3, g4, g5⟩ := heach i _ _ hc' h1
    have htry : c'.pc = .trying := by
      by_contra ht
      by_cases hr : c'.pc = .resting
      · rcases g4 hr with g | ⟨_, g, _⟩ <;> cases g
      · have := g5 ht hr; cases this
    refine ⟨g1, g2, fun _ => .inl ⟨_, rfl, ?_⟩, (fun a => by rw [htry] at a; cases a), fun a => absurd htry a⟩
    dsimp only at g1 ⊢
    omega
  | tried i n delay since r c c' h1 h2 h3 h4 h5 =>
    subst h5
    refine ⟨hinv', by rw [List.length_set, List.length_set]; exact hlen, heach.set ?_, hwake, hsince⟩
    obtain ⟨g1, g2, g3, g4, g5⟩ := heach i _ _ h3 h1
    unfold Connector.tried at h4
    split at h4
    · cases r with
      | some x => cases h4; exact ⟨g1, g2, nofun, nofun, fun _ _ => rfl⟩
      | none =>
        dsimp only at h4
        cases hf : c.failedBefore with
        | true => rw [hf] at h4; cases h4; exact ⟨g1, g2, nofun, fun _ => .inl rfl, fun _ _ => rfl⟩
        | false => rw [hf] at h4; cases h4; exact ⟨g1, g2, nofun, nofun, fun _ _ => rfl⟩
    · cases h4
  | rest i n delay c h1 h2 h3 h4 =>
    subst h4
    refine ⟨hinv', by rw [List.length_set]; exact hlen, heach.tries fun c' hc' => ?_, hwake, hsince⟩
    obtain ⟨g1, g2, g3, g4, g5⟩ := heach i _ _ hc' h1
    rw [h2] at hc'
    cases hc'
    refine ⟨g1, g2, (fun a => by rw [h3] at a; cases a), fun _ => .inr ⟨_, rfl, ?_⟩, fun _ a => absurd h3 a⟩
    omega
  | again i delay y till c c' h1 h2 h3 h4 h5 h6 h7 =>
    subst h7
    refine ⟨hinv', by rw [List.length_set, List.length_set]; exact hlen, heach.set ?_, hwake, hsince⟩
    obtain ⟨g1, g2, g3, g4, g5⟩ := heach i _ _ h5 h2
    unfold Connector.sleep at h6
    split at h6
    · cases h6
      refine ⟨r2 _ _ rfl, ?_, fun _ => .inl ⟨_, rfl, Int.le_refl _⟩, nofun, fun a => absurd rfl a⟩
      dsimp only
      rw [NetCaller.min', NetCaller.maxDelay]
      split <;> omega
    · cases h6
  | recv i c x h1 h2 h3 h4 =>
    subst h4
    refine ⟨hinv', by rw [List.length_set]; exact hlen, heach.conn fun y hy => (heach i c y h1 hy).taken, fun a => ?_, fun a => ?_⟩
    · exfalso; dsimp only at a; split at a <;> cases a
    · exfalso; dsimp only at a; split at a <;> cases a
  | get b h1 h2 =>
    subst h2
    obtain ⟨k1, k2, k3, k4, k5, k6, k7⟩ := inv_get h1
    refine ⟨hinv', by rw [k1]; exact hlen, by rw [k1]; exact heach, fun a => ?_, fun a => ?_⟩
    · dsimp only at a
      rcases k6 with ⟨k8, k9⟩ | ⟨k8, k9, _⟩ | ⟨k8, _, _, k9⟩
      · rw [k9] at a; cases a
      · rw [k9] at a; cases a
      · rw [k9] at a; split at a <;> cases a
    · dsimp only at a ⊢
      have : s.base.pc ≠ .call := by
        rcases k6 with ⟨k8, k9⟩ | ⟨k8, k9, _⟩ | ⟨k8, _, _, k9⟩ <;> rw [k8] <;> exact nofun
      rw [if_pos ⟨a, this⟩]
  | selConn i c x h1 h2 h3 h4 =>
    subst h4
    exact ⟨hinv', by rw [List.length_set]; exact hlen, heach.conn fun y hy => (heach i c y h1 hy).taken, nofun, fun _ => Int.le_refl _⟩
  | selDrop h1 h2 => subst h2; exact ⟨hinv', hlen, heach, nofun, nofun⟩
  | call ok c m h1 h2 h3 h4 => subst h4; exact ⟨hinv', hlen, heach, nofun, nofun⟩
  | closing retry h1 h2 h3 =>
    subst h3
    have := r3 _ rfl
    exact ⟨hinv', hlen, heach, fun _ => by dsimp only; omega, nofun⟩

theorem ti_run {t0 : Int} {h : List (Ev M)} (hr : run (init t0) h = .ok s) : TI s :=
  run_induct (P := TI) (ti_init t0) (fun _ _ _ _ hi hs => ti_step hi hs) hr

/-- The connector that is alive is the last one, and the consumer waits for it. -/
theorem alive (h : Inv s.base) {c : Connector} (hc : c ∈ s.base.connectors) (hn : c.pc ≠ .ended) :
    (s.base.pc = .wait ∧ Fresh c) ∨ ((s.base.pc = .top ∨ s.base.pc = .select) ∧ Told c) := by
  have hconn := h.conn
  have last : ∀ l d, s.base.connectors = l ++ [d] → (∀ x ∈ l, x.pc = .ended) → c = d := by
    intro l d h1 h2
    rw [h1] at hc
    rcases List.mem_append.1 hc with hc | hc
    · exact absurd (h2 c hc) hn
    · exact List.mem_singleton.1 hc
  cases hp : s.base.pc <;> rw [hp] at hconn <;> try exact absurd (hconn c hc) hn
  · obtain ⟨l, d, h1, h2, h3⟩ := hconn
    obtain rfl := last l d h1 h2
    exact .inl ⟨rfl, h3⟩
  · obtain ⟨l, d, h1, h2, h3⟩ := hconn
    obtain rfl := last l d h1 h2
    exact .inr ⟨.inl rfl, h3⟩
  · obtain ⟨l, d, h1, h2, h3⟩ := hconn
    obtain rfl := last l d h1 h2
    exact .inr ⟨.inr rfl, h3⟩

/-- By when a connector that has told of a failure has a connection, if the peer is there from `T` on. -/
structure Due (T D now : Int) (c : Connector) (y : Try) : Prop where
  told : c.pc = .haveNil → now = T
  idle : c.pc = .resting → y.timer = .idle → now = T
  rests : c.pc = .resting → ∀ till, y.timer = .asleep till → till ≤ T + 300000 ∧ (now ≤ till ∨ now = T)
  sleeps : c.pc = .trying → c.failedBefore = true → ∀ till, y.timer = .asleep till → till ≤ T + 302000 ∧ (now ≤ till ∨ now = T)
  dials : c.pc = .trying → c.failedBefore = true → ∀ since, y.timer = .dialling since → since ≤ T + 302000 ∧ (now ≤ since + D ∨ now = T)

/-- What holds from `T` on, if the peer is there. -/
structure RI (T D : Int) (s : St M) : Prop where
  ti : TI s
  past : T ≤ s.now
  each : Pairs (Due T D s.now) s.base.connectors s.tries

theorem ri_start (h : TI s) : RI s.now D s := by
  refine ⟨h, Int.le_refl _, fun i c y hc hy => ?_⟩
  obtain ⟨g1, g2, g3, g4, g5⟩ := h.each i c y hc hy
  refine ⟨fun _ => rfl, fun _ _ => rfl, fun a till ht => ?_, fun a _ till ht => ?_, fun a _ since ht => ?_⟩
  · rcases g4 a with g | ⟨u, g, g'⟩
    · rw [ht] at g; cases g
    · rw [ht] at g; cases g; exact ⟨g', .inr rfl⟩
  · rcases g3 a with ⟨u, g, g'⟩ | ⟨u, g, g'⟩
    · rw [ht] at g; cases g; exact ⟨by omega, .inr rfl⟩
    · rw [ht] at g; cases g
  · rcases g3 a with ⟨u, g, g'⟩ | ⟨u, g, g'⟩
    · rw [ht] at g; cases g
    · rw [ht] at g; cases g; exact ⟨by omega, .inr rfl⟩

theorem Due.taken {now : Int} {c : Connector} {y : Try} (h : Due T D now c y) (hl : Link now c y) : Due T D now c.taken y := by
  unfold Connector.taken
  split
  · exact ⟨nofun, nofun, nofun, nofun, nofun⟩
  · next hx =>
    refine ⟨nofun, fun _ _ => h.told hx, fun _ till ht => ?_, nofun, nofun⟩
    have := hl.other (by rw [hx]; exact nofun) (by rw [hx]; exact nofun)
    rw [ht] at this; cases this
  · exact h

theorem ri_step (hD : 0 ≤ D) (h : RI T D s) (ht : ∀ t, e = .tick t → Timely D L s t) (hd : ∀ i r, e = .dialled i r → r ≠ none)
    (hs : step s e = .ok s') : RI T D s' := by
  obtain ⟨hti, hpast, heach⟩ := h
  have hti' := ti_step hti hs
  have hlink := hti.each
  cases move_of_step hs with
  | tick t h1 h2 =>
    subst h2
    obtain ⟨f1, f2, f3, f4, f5⟩ := ht t rfl
    refine ⟨hti', hpast.trans (Int.le_of_lt h1), fun i c y hc hy => ?_⟩
    obtain ⟨g1, g2, g3, g4, g5⟩ := heach i c y hc hy
    have my := List.mem_of_getElem? hy
    have mc := List.mem_of_getElem? hc
    refine ⟨fun a => ?_, fun a b => ?_, fun a till b => ⟨(g3 a till b).1, .inl (f3 y my till b)⟩, fun a b till c => ⟨(g4 a b till c).1, .inl (f3 y my till c)⟩,
      fun a b since c => ⟨(g5 a b since c).1, .inl (f4 y my since c)⟩⟩
    · rcases alive hti.inv mc (by rw [a]; exact nofun) with ⟨k1, _⟩ | ⟨_, _, k | k | ⟨_, k⟩⟩
      · exact absurd (.recv c k1 mc (by rw [Connector.offer, a]; exact nofun)) f1
      all_goals rw [a] at k; cases k
    · exact absurd (.rest i c y hc hy a b) f1
  | send m h2 =>
    subst h2
    refine ⟨hti', hpast, ?_⟩
    dsimp only
    unfold NetCaller.trySend
    split <;> exact heach
  | spawn retry delay h1 h2 h3 h4 =>
    subst h4
    exact ⟨hti', hpast, heach.snoc hti.len ⟨nofun, nofun, nofun, (fun _ a => nomatch a), (fun _ a => nomatch a)⟩⟩
  | dial i n delay till c h1 h2 h3 h4 h5 =>
    subst h5
    refine ⟨hti', hpast, heach.tries fun c' hc' => ?_⟩
    rw [h2] at hc'
    cases hc'
    obtain ⟨g1, g2, g3, g4, g5⟩ := heach i _ _ h2 h1
    refine ⟨g1, nofun, nofun, nofun, fun a b since e => ?_⟩
    cases e
    have := g4 a b till rfl
    omega
  | refused i n delay since h1 h2 h3 => exact absurd rfl (hd _ _ rfl)
  | tried i n delay since r c c' h1 h2 h3 h4 h5 =>
    subst h5
    refine ⟨hti', hpast, heach.set ?_⟩
    unfold Connector.tried at h4
    split at h4
    · cases r with
      | some x => cases h4; exact ⟨nofun, nofun, nofun, nofun, nofun⟩
      | none => exact absurd rfl (hd _ _ rfl)
    · cases h4
  | rest i n delay c h1 h2 h3 h4 =>
    subst h4
    refine ⟨hti', hpast, heach.tries fun c' hc' => ?_⟩
    rw [h2] at hc'
    cases hc'
    obtain ⟨g1, g2, g3, g4, g5⟩ := heach i _ _ h2 h1
    have hnow := g2 h3 rfl
    refine ⟨g1, fun _ _ => hnow, fun _ till e => ?_, (fun a => by rw [h3] at a; cases a), (fun a => by rw [h3] at a; cases a)⟩
    cases e
    have := (hlink i _ _ h2 h1).d
    exact ⟨by omega, .inr hnow⟩
  | again i delay y till c c' h1 h2 h3 h4 h5 h6 h7 =>
    subst h7
    refine ⟨hti', hpast, heach.set ?_⟩
    obtain ⟨g1, g2, g3, g4, g5⟩ := heach i _ _ h5 h2
    unfold Connector.sleep at h6
    split at h6
    · next hpc =>
      cases h6
      refine ⟨nofun, nofun, nofun, fun _ _ till e => ?_, nofun⟩
      cases e
      have := g3 hpc till h3
      show s.now + 2000 ≤ _ ∧ (_ ≤ s.now + 2000 ∨ _)
      omega
    · cases h6
  | recv i c x h1 h2 h3 h4 =>
    subst h4
    exact ⟨hti', hpast, heach.conn fun y hy => (heach i c y h1 hy).taken (hlink i c y h1 hy)⟩
  | get b h1 h2 =>
    subst h2
    exact ⟨hti', hpast, by rw [(inv_get h1).1]; exact heach⟩
  | selConn i c x h1 h2 h3 h4 =>
    subst h4
    exact ⟨hti', hpast, heach.conn fun y hy => (heach i c y h1 hy).taken (hlink i c y h1 hy)⟩
  | selDrop h1 h2 => subst h2; exact ⟨hti', hpast, heach⟩
  | call ok c m h1 h2 h3 h4 => subst h4; exact ⟨hti', hpast, heach⟩
  | closing retry h1 h2 h3 => subst h3; exact ⟨hti', hpast, heach⟩

/-- A connector that has told of a failure has a connection, five minutes, two seconds and `D` after the peer has come back. -/
theorem ri_conn (hD : 0 ≤ D) (h : RI T D s) (ht : T + 302000 + D < s.now) (hp : s.base.pc = .top ∨ s.base.pc = .select) :
    ∃ c ∈ s.base.connectors, ∃ x, c.pc = .haveConn x := by
  have hconn := h.ti.inv.conn
  obtain ⟨l, c, h1, h2, h3⟩ : ∃ l c, s.base.connectors = l ++ [c] ∧ (∀ x ∈ l, x.pc = .ended) ∧ Told c := by
    rcases hp with hp | hp <;> (rw [hp] at hconn; exact hconn)
  have mc : c ∈ s.base.connectors := by rw [h1]; exact List.mem_append_right _ (List.mem_singleton_self _)
  obtain ⟨i, hi⟩ := List.mem_iff_getElem?.1 mc
  obtain ⟨y, hy⟩ : ∃ y, s.tries[i]? = some y := ⟨_, List.getElem?_eq_getElem (by rw [h.ti.len]; exact (List.getElem?_eq_some_iff.1 hi).1)⟩
  obtain ⟨g1, g2, g3, g4, g5⟩ := h.each i c y hi hy
  have hl := h.ti.each i c y hi hy
  rcases h3 with ⟨hf, hpc | hpc | ⟨x, hpc⟩⟩
  · exfalso
    rcases hl.trying hpc with ⟨till, e, _⟩ | ⟨since, e, _⟩
    · have := g4 hpc hf till e; omega
    · have := g5 hpc hf since e; omega
  · exfalso
    rcases hl.resting hpc with e | ⟨till, e, _⟩
    · have := g2 hpc e; omega
    · have := g3 hpc till e; omega
  · exact ⟨c, mc, x, hpc⟩

/-- The connection has been made during this history. -/
def New (g : List (Ev M)) (x : Nat) : Prop := ∃ i, .dialled i (some x) ∈ g

theorem New.mono {g : List (Ev M)} {x : Nat} (h : New g x) : New (g ++ [e]) x := by
  obtain ⟨i, hi⟩ := h
  exact ⟨i, List.mem_append_left _ hi⟩

/-- After one call has failed there are only new connections. -/
def NI (F : Nat) (g : List (Ev M)) (s : St M) : Prop :=
  failures s = F ∨ (failures s = F + 1 ∧ (∀ c ∈ s.base.connectors, ∀ x, c.pc = .haveConn x → New g x) ∧
    (s.base.pc = .first ∨ s.base.pc = .call ∨ (s.base.pc = .post ∧ s.base.failed = false) → ∃ x, s.base.client = some x ∧ New g x))

theorem taken_conn {c : Connector} {x : Nat} (h : c.taken.pc = .haveConn x) : False := by
  unfold Connector.taken at h
  split at h
  · cases h
  · cases h
  · next h1 _ => exact h1 x h

theorem mem_set {α : Type} {l : List α} {i : Nat} {a b : α} (h : b ∈ l.set i a) : b ∈ l ∨ b = a := List.mem_or_eq_of_mem_set h

theorem ni_step {F : Nat} {g : List (Ev M)} (hi : Inv s.base) (h : NI F g s) (hd : ∀ i r, e = .dialled i r → r ≠ none)
    (hc : ∀ ok c, e = .call ok → s.base.client = some c → New g c → ok = true) (hs : step s e = .ok s') : NI F (g ++ [e]) s' := by
  rcases h with h | ⟨h0, ha, hb⟩
  · -- no call has failed yet
    have hcase : failures s' = F ∨ e = .call false := by
      cases move_of_step hs with
      | get b k1 k2 => subst k2; left; rw [failures] at h ⊢; dsimp only; rw [(inv_get k1).2.1]; exact h
      | send m k2 => subst k2; left; rw [failures] at h ⊢; dsimp only; unfold NetCaller.trySend; split <;> exact h
      | call ok c m k1 k2 k3 k4 =>
        cases ok with
        | false => exact .inr rfl
        | true =>
          subst k4; left; rw [failures] at h ⊢; dsimp only; rw [List.filter_append]
          simpa using h
      | _ => left; rw [← h]; subst_vars; rfl
    rcases hcase with hcase | rfl
    · exact .inl hcase
    · cases move_of_step hs with
      | call ok c m k1 k2 k3 k4 =>
        subst k4
        refine .inr ⟨?_, fun c' hc' x hx => ?_, ?_⟩
        · rw [failures] at h ⊢; dsimp only; rw [List.filter_append, List.length_append, h]; rfl
        · have hconn := hi.conn
          rw [k1] at hconn
          have := hconn c' hc'
          rw [hx] at this; cases this
        · rintro (a | a | ⟨_, a⟩) <;> cases a
  · have ha' : ∀ c ∈ s.base.connectors, ∀ x, c.pc = .haveConn x → New (g ++ [e]) x := fun c hc x hx => (ha c hc x hx).mono
    have hb' : s.base.pc = .first ∨ s.base.pc = .call ∨ (s.base.pc = .post ∧ s.base.failed = false) → ∃ x, s.base.client = some x ∧ New (g ++ [e]) x := by
      intro a
      obtain ⟨x, h1, h2⟩ := hb a
      exact ⟨x, h1, h2.mono⟩
    right
    cases move_of_step hs with
    | tick t h1 h2 => subst h2; exact ⟨h0, ha', hb'⟩
    | send m h2 =>
      subst h2
      refine ⟨?_, ?_, ?_⟩ <;> (dsimp only [failures] at h0 ⊢; unfold NetCaller.trySend; split) <;> assumption
    | spawn retry delay h1 h2 h3 h4 =>
      subst h4
      refine ⟨h0, fun c hc x hx => ?_, ?_⟩
      · rcases List.mem_append.1 hc with hc | hc
        · exact ha' c hc x hx
        · obtain rfl := List.mem_singleton.1 hc; cases hx
      · rintro (a | a | ⟨a, _⟩) <;> cases a
    | dial i n delay till c h1 h2 h3 h4 h5 => subst h5; exact ⟨h0, ha', hb'⟩
    | refused i n delay since h1 h2 h3 => exact absurd rfl (hd _ _ rfl)
    | tried i n delay since r c c' h1 h2 h3 h4 h5 =>
      subst h5
      refine ⟨h0, fun c'' hc x hx => ?_, hb'⟩
      rcases mem_set hc with hc | rfl
      · exact ha' _ hc x hx
      · unfold Connector.tried at h4
        split at h4
        · cases r with
          | some z => cases h4; cases hx; exact ⟨i, List.mem_append_right _ (List.mem_singleton_self _)⟩
          | none => exact absurd rfl (hd _ _ rfl)
        · cases h4
    | rest i n delay c h1 h2 h3 h4 => subst h4; exact ⟨h0, ha', hb'⟩
    | again i delay y till c c' h1 h2 h3 h4 h5 h6 h7 =>
      subst h7
      refine ⟨h0, fun c'' hc x hx => ?_, hb'⟩
      rcases mem_set hc with hc | rfl
      · exact ha' _ hc x hx
      · unfold Connector.sleep at h6
        split at h6
        · cases h6; cases hx
        · cases h6
    | recv i c x h1 h2 h3 h4 =>
      subst h4
      refine ⟨h0, fun c'' hc z hz => ?_, fun a => ?_⟩
      · rcases mem_set hc with hc | rfl
        · exact ha' _ hc z hz
        · exact (taken_conn hz).elim
      · rcases offer_cases h2 with ⟨z, k1, rfl⟩ | ⟨k1, rfl⟩
        · exact ⟨z, rfl, ha' c (List.mem_of_getElem? h1) z k1⟩
        · rcases a with a | a | ⟨a, _⟩ <;> cases a
    | get b h1 h2 =>
      subst h2
      obtain ⟨k1, k2, k3, k4, k5, k6, k7⟩ := inv_get h1
      refine ⟨by rw [failures] at h0 ⊢; dsimp only; rw [k2]; exact h0, by dsimp only; rw [k1]; exact ha', fun a => ?_⟩
      dsimp only at a ⊢
      rw [k3]
      rcases k6 with ⟨k8, k9⟩ | ⟨k8, k9, _⟩ | ⟨k8, k10, _, k9⟩
      · rw [k9] at a; rcases a with a | a | ⟨a, _⟩ <;> cases a
      · exact hb' (.inl k8)
      · cases hf : s.base.failed with
        | false => exact hb' (.inr (.inr ⟨k8, hf⟩))
        | true => rw [k9, hf] at a; rcases a with a | a | ⟨a, _⟩ <;> cases a
    | selConn i c x h1 h2 h3 h4 =>
      subst h4
      refine ⟨h0, fun c'' hc z hz => ?_, fun _ => ?_⟩
      · rcases mem_set hc with hc | rfl
        · exact ha' _ hc z hz
        · exact (taken_conn hz).elim
      · rcases offer_cases h2 with ⟨z, k1, rfl⟩ | ⟨k1, rfl⟩
        · exact ⟨z, rfl, ha' c (List.mem_of_getElem? h1) z k1⟩
        · rcases alive hi (List.mem_of_getElem? h1) (by rw [k1]; exact nofun) with ⟨k, _⟩ | ⟨_, _, k | k | ⟨_, k⟩⟩
          · rw [h3] at k; cases k
          all_goals rw [k1] at k; cases k
    | selDrop h1 h2 =>
      subst h2
      refine ⟨h0, ha', ?_⟩
      rintro (a | a | ⟨a, _⟩) <;> cases a
    | call ok c m h1 h2 h3 h4 =>
      subst h4
      obtain ⟨x, k1, k2⟩ := hb (.inr (.inl h1))
      obtain rfl := hc ok x rfl k1 k2
      refine ⟨?_, ha', fun _ => ⟨x, k1, k2.mono⟩⟩
      rw [failures] at h0 ⊢; dsimp only; rw [List.filter_append]
      simpa using h0
    | closing retry h1 h2 h3 =>
      subst h3
      refine ⟨h0, ha', ?_⟩
      rintro (a | a | ⟨a, _⟩) <;> cases a

/-- Induction over a history in which the peer is there again. -/
theorem run_back {P : List (Ev M) → St M → Prop} {s1 s0 s2 : St M} {g1 g2 : List (Ev M)} (h0 : P g1 s0) (hr1 : run s1 g1 = .ok s0)
    (hp : Prompt D L s1 (g1 ++ g2)) (hb : Back s1 (g1 ++ g2))
    (hs : ∀ g s s' e, (∀ t, e = .tick t → Timely D L s t) → (∀ i r, e = .dialled i r → r ≠ none) →
      (∀ ok c, e = .call ok → s.base.client = some c → New g c → ok = true) → P g s → step s e = .ok s' → P (g ++ [e]) s')
    (hr : run s0 g2 = .ok s2) : P (g1 ++ g2) s2 := by
  induction g2 using List.reverseRecOn generalizing s2 with
  | nil => cases hr; rw [List.append_nil]; exact h0
  | append_singleton g e ih =>
    rw [run_append, Outcome.bind_eq_ok] at hr
    obtain ⟨s, h1, h2⟩ := hr
    have h2 : (step s e >>= fun s' => run s' []) = .ok s2 := h2
    rw [Outcome.bind_eq_ok] at h2
    obtain ⟨s', h3, h4⟩ := h2
    cases h4
    have hrs : run s1 (g1 ++ g) = .ok s := by rw [run_append, hr1]; exact h1
    rw [← List.append_assoc] at hp hb ⊢
    have hp' : Prompt D L s1 (g1 ++ g) := fun a t b hh => hp a t (b ++ [e]) (by rw [hh, List.append_assoc]; rfl)
    have hb' : Back s1 (g1 ++ g) :=
      ⟨fun i r hm => hb.1 i r (List.mem_append_left _ hm), fun a ok b hh => hb.2 a ok (b ++ [e]) (by rw [hh, List.append_assoc]; rfl)⟩
    refine hs _ _ _ e (fun t ht => ?_) (fun i r hi => ?_) (fun ok c hk hc hn => ?_) (ih hp' hb' h1) h3
    · exact hp _ t [] (by rw [ht]) s hrs
    · exact hb.1 i r (by rw [hi]; exact List.mem_append_right _ (List.mem_singleton_self _))
    · exact hb.2 _ ok [] (by rw [hk]) s hrs c hc hn

end Verif.Props.NetTime
