import Verif.Proofs.NetBack

/-!
Property C110: what happens to outgoing messages when the peer comes back after it was away. At most one more message is lost with an old
connection, for a little more than five minutes messages may be dropped for want of a connection, and from then on all are delivered.
-/
namespace Verif.Props.NetTime
open Verif.NetTime Verif.Spec.NetTime
open Verif.NetCaller (CPc Pc Connector)
open Verif.Props.NetCaller (Inv ConnInv Fresh Told pending flow)
variable {M : Type} {s s' : St M} {e : Ev M} {D L T dl k : Int} {g : List (Ev M)} {tgt : Nat}

theorem pending_same {b b' : NetCaller.St M} (h1 : b'.pushedBack = b.pushedBack) (h2 : b'.msg = b.msg)
    (h3 : b'.pc = b.pc ∨ (b.pc ≠ .select ∧ b.pc ≠ .call ∧ b.pc ≠ .fail ∧ b'.pc ≠ .select ∧ b'.pc ≠ .call ∧ b'.pc ≠ .fail)) : pending b' = pending b := by
  unfold pending
  rw [h1, h2]
  rcases h3 with h3 | ⟨a1, a2, a3, a4, a5, a6⟩
  · rw [h3]
  · split
    · rfl
    · cases h : b.pc <;> cases h' : b'.pc <;> first | rfl | exact absurd h a1 | exact absurd h a2 | exact absurd h a3 | exact absurd h' a4 | exact absurd h' a5 | exact absurd h' a6

/-- Nothing but the select drops a message. -/
theorem flow_mono (hi : Inv s.base) (hs : step s e = .ok s') (hn : e ≠ .selDrop) : flow s.base <+: flow s'.base := by
  have same : ∀ {b : NetCaller.St M}, b.calls = s.base.calls → pending b = pending s.base → b.queue = s.base.queue → flow s.base <+: flow b := by
    intro b h1 h2 h3
    rw [flow, flow, h1, h2, h3]
  cases move_of_step hs with
  | tick t h1 h2 => subst h2; exact same rfl rfl rfl
  | send m h2 =>
    subst h2
    dsimp only
    unfold NetCaller.trySend
    split
    · rw [flow, flow]
      refine ⟨[m], ?_⟩
      rw [List.append_assoc, List.append_assoc]; rfl
    · exact same rfl rfl rfl
  | spawn retry delay h1 h2 h3 h4 =>
    subst h4
    exact same rfl (pending_same rfl rfl (.inr (by rw [h3]; exact ⟨nofun, nofun, nofun, nofun, nofun, nofun⟩))) rfl
  | dial i n delay till c h1 h2 h3 h4 h5 => subst h5; exact same rfl rfl rfl
  | refused i n delay since h1 h2 h3 => subst h3; exact same rfl rfl rfl
  | tried i n delay since r c c' h1 h2 h3 h4 h5 => subst h5; exact same rfl rfl rfl
  | rest i n delay c h1 h2 h3 h4 => subst h4; exact same rfl rfl rfl
  | again i delay y till c c' h1 h2 h3 h4 h5 h6 h7 => subst h7; exact same rfl rfl rfl
  | recv i c x h1 h2 h3 h4 =>
    subst h4
    refine same rfl (pending_same rfl rfl (.inr ?_)) rfl
    dsimp only
    rw [h3]
    refine ⟨nofun, nofun, nofun, ?_, ?_, ?_⟩ <;> split <;> exact nofun
  | get b h1 h2 =>
    subst h2
    obtain ⟨k1, k2, k3, k4, k5, k6, k7⟩ := inv_get h1
    dsimp only
    rw [flow, flow, k2]
    have hpc' : b.pc = .select ∨ b.pc = .call ∨ b.pc = .fail := by
      rcases k6 with ⟨_, k9⟩ | ⟨_, k9, _⟩ | ⟨_, _, _, k9⟩
      · exact .inl k9
      · exact .inr (.inl k9)
      · split at k9
        · exact .inr (.inr k9)
        · exact .inr (.inl k9)
    have hpc : s.base.pc ≠ .select ∧ s.base.pc ≠ .call ∧ s.base.pc ≠ .fail := by
      rcases k6 with ⟨k9, _⟩ | ⟨k9, _, _⟩ | ⟨k9, _⟩ <;> rw [k9] <;> exact ⟨nofun, nofun, nofun⟩
    rcases k7 with ⟨p1, p2, p3, p4, _⟩ | ⟨m, ms, p1, p2, p3, p4⟩
    · rw [Props.NetCaller.pending_of p2 hpc', p3, p4, pending, p1]; exact List.prefix_refl _
    · have hpb : s.base.pushedBack = false := by
        cases hb : s.base.pushedBack with
        | false => rfl
        | true =>
          -- a message that was pushed back is taken first
          exfalso
          rw [NetCaller.step] at h1
          have hh := hi.pb hb
          split at h1
          · rw [NetCaller.getMsg, hb] at h1; cases h1; rw [hb] at p4; cases p4
          · split at h1
            · rw [NetCaller.getMsg, hb] at h1; cases h1; rw [hb] at p4; cases p4
            · split at h1
              · next h3 => rw [h3] at hh; cases hh
              · cases h1
      rw [Props.NetCaller.pending_of (p4.trans hpb) hpc', p3, p2, p1]
      have : pending s.base = [] := by
        rw [pending, hpb]
        cases h : s.base.pc <;> first | rfl | exact absurd h hpc.1 | exact absurd h hpc.2.1 | exact absurd h hpc.2.2
      rw [this]; exact List.prefix_refl _
  | selConn i c x h1 h2 h3 h4 =>
    subst h4
    refine same rfl ?_ rfl
    have hpb := Props.NetCaller.pb_false hi (by rw [h3]; rfl)
    rw [Props.NetCaller.pending_of hpb (.inl h3)]
    exact Props.NetCaller.pending_of hpb (.inr (.inl rfl))
  | selDrop h1 h2 => exact absurd rfl hn
  | call ok c m h1 h2 h3 h4 =>
    subst h4
    have hpb := Props.NetCaller.pb_false hi (by rw [h1]; rfl)
    rw [flow, flow, Props.NetCaller.pending_of hpb (.inr (.inl h1)), h3]
    have : pending ({ s.base with calls := s.base.calls ++ [(c, m, ok)], failed := !ok, pc := .post } : NetCaller.St M) = [] := by
      rw [pending]; dsimp only; rw [hpb]; rfl
    dsimp only
    rw [this, Spec.NetCaller.called, Spec.NetCaller.called, List.map_append, List.append_assoc]; exact List.prefix_refl _
  | closing retry h1 h2 h3 =>
    subst h3
    refine same rfl ?_ rfl
    have hpb := Props.NetCaller.pb_false hi (by rw [h2]; rfl)
    rw [Props.NetCaller.pending_of hpb (.inr (.inr h2)), pending]; rfl

/-- How much longer it may take, since the connection may be broken. -/
def May (D : Int) (g : List (Ev M)) (x : Option Nat) (a : Int) : Prop := a = 2999 + D ∨ (a = 0 ∧ ∃ n, x = some n ∧ New g n)

theorem May.mono {x : Option Nat} {a : Int} (h : May D g x a) : May D (g ++ [e]) x a := by
  rcases h with h | ⟨h, n, h1, h2⟩
  · exact .inl h
  · exact .inr ⟨h, n, h1, h2.mono⟩

/-- By when a connector that has not told of a failure has a connection. -/
structure Soon (dl D L k now : Int) (g : List (Ev M)) (c : Connector) (y : Try) : Prop where
  nil : c.pc ≠ .haveNil
  sleeps : c.pc = .trying → ∀ till, y.timer = .asleep till → ∃ u, till ≤ u ∧ now ≤ u ∧ u + D + k * L ≤ dl
  dials : c.pc = .trying → ∀ since, y.timer = .dialling since → ∃ u, since + D ≤ u ∧ now ≤ u ∧ u + k * L ≤ dl
  conn : ∀ x, c.pc = .haveConn x → ∃ a, May D g (some x) a ∧ now + a + k * L ≤ dl

theorem Soon.mono {now : Int} {c : Connector} {y : Try} (h : Soon dl D L k now g c y) : Soon dl D L k now (g ++ [e]) c y :=
  ⟨h.nil, h.sleeps, h.dials, fun x hx => by obtain ⟨a, h1, h2⟩ := h.conn x hx; exact ⟨a, h1.mono, h2⟩⟩

/-- Where the consumer is while `k` messages are still to be called until `dl`. -/
inductive Phase (dl D L k : Int) (g : List (Ev M)) (s : St M) : Prop where
  | ready (a : Int) : (s.base.pc = .first ∨ (s.base.pc = .post ∧ s.base.failed = false)) → May D g s.base.client a → s.now + a + k * L ≤ dl → Phase dl D L k g s
  | dropping : (s.base.pc = .top ∨ s.base.pc = .select) → (∃ c ∈ s.base.connectors, ∃ x, c.pc = .haveConn x) → s.now + (2999 + D) + k * L ≤ dl →
      Phase dl D L k g s
  | calling (a u : Int) : s.base.pc = .call → May D g s.base.client a → s.since + L ≤ u → s.now ≤ u → u + a + (k - 1) * L ≤ dl → Phase dl D L k g s
  | broken : (s.base.pc = .post ∧ s.base.failed = true) ∨ s.base.pc = .fail → s.now + (2999 + D) + k * L ≤ dl → Phase dl D L k g s
  | asleep (u : Int) : s.base.pc = .spawn → s.wake ≤ u → s.now ≤ u → u + 2000 + D + k * L ≤ dl → Phase dl D L k g s
  | waiting : s.base.pc = .wait → Pairs (Soon dl D L k s.now g) s.base.connectors s.tries → Phase dl D L k g s

/-- How far the calls have come. -/
def PI (dl D L : Int) (tgt : Nat) (g : List (Ev M)) (s : St M) : Prop :=
  tgt ≤ s.base.calls.length ∨ (tgt ≤ (flow s.base).length ∧ Phase dl D L ((tgt : Int) - s.base.calls.length) g s)

/-- If there is a message to be called, a thread can go on. -/
theorem flow_busy (hi : Inv s.base) (hf : s.base.calls.length < (flow s.base).length) (hp : s.base.pc = .first ∨ s.base.pc = .post ∨ s.base.pc = .top) : Busy s := by
  have hl : (flow s.base).length = s.base.calls.length + ((pending s.base).length + s.base.queue.length) := by
    rw [flow, List.length_append, List.length_append, Spec.NetCaller.called, List.length_map]
  cases hb : s.base.pushedBack with
  | true =>
    have := hi.pb hb
    rcases hp with hp | hp | hp
    · exact .back (.inr hp) hb
    · rw [hp] at this; cases this
    · exact .back (.inl hp) hb
  | false =>
    have : pending s.base = [] := by
      rw [pending, hb]
      rcases hp with hp | hp | hp <;> rw [hp] <;> rfl
    rw [this] at hl
    refine .get ?_ (fun hq => ?_)
    · rcases hp with hp | hp | hp
      · exact .inr (.inl hp)
      · exact .inr (.inr hp)
      · exact .inl hp
    · rw [hq] at hl
      change (flow s.base).length = s.base.calls.length + (0 + 0) at hl
      omega

theorem phase_step (hD : 0 ≤ D) (hL : 0 ≤ L) (hi : RI T D s) (ht : ∀ t, e = .tick t → Timely D L s t) (hd : ∀ i r, e = .dialled i r → r ≠ none)
    (hc : ∀ ok c, e = .call ok → s.base.client = some c → New g c → ok = true)
    (hs : step s e = .ok s') (h : PI dl D L tgt g s) : PI dl D L tgt (g ++ [e]) s' := by
  have hti := hi.ti
  have hinv := hti.inv
  obtain ⟨hacc, hcal⟩ := accepted_mono hs
  rcases h with h | ⟨h1, h2⟩
  · exact .inl (h.trans hcal)
  by_cases hdone : tgt ≤ s.base.calls.length
  · exact .inl (hdone.trans hcal)
  have hk : 0 < (tgt : Int) - s.base.calls.length := by omega
  have hflow : e ≠ .selDrop → tgt ≤ (flow s'.base).length := fun hn => h1.trans (flow_mono hinv hs hn).length_le
  obtain ⟨r1, r2, r3⟩ := retry_lt hs
  -- the connectors of another state are not alive
  have dead : ∀ {c : Connector}, c ∈ s.base.connectors → c.pc ≠ .ended → s.base.pc = .wait ∨ s.base.pc = .top ∨ s.base.pc = .select := by
    intro c hc hn
    rcases alive hinv hc hn with ⟨k, _⟩ | ⟨k | k, _⟩
    · exact .inl k
    · exact .inr (.inl k)
    · exact .inr (.inr k)
  cases move_of_step hs with
  | tick t g1 g2 =>
    subst g2
    obtain ⟨f1, f2, f3, f4, f5⟩ := ht t rfl
    refine .inr ⟨hflow nofun, ?_⟩
    have hb := flow_busy hinv (by omega : s.base.calls.length < (flow s.base).length)
    cases h2 with
    | ready a k1 k2 k3 =>
      rcases k1 with k1 | ⟨k1, _⟩
      · exact absurd (hb (.inl k1)) f1
      · exact absurd (hb (.inr (.inl k1))) f1
    | dropping k1 k2 k3 =>
      rcases k1 with k1 | k1
      · exact absurd (hb (.inr (.inr k1))) f1
      · exact absurd (.select k1) f1
    | calling a u k1 k2 k3 k4 k5 => exact .calling a u k1 k2.mono k3 ((f5 k1).trans k3) k5
    | broken k1 k2 =>
      rcases k1 with ⟨k1, _⟩ | k1
      · exact absurd (hb (.inr (.inl k1))) f1
      · exact absurd (.fail k1) f1
    | asleep u k1 k2 k3 k4 => exact .asleep u k1 k2 ((f2 k1).trans k2) k4
    | waiting k1 k2 =>
      refine .waiting k1 (fun i c y hc hy => ?_)
      obtain ⟨m1, m2, m3, m4⟩ := k2 i c y hc hy
      have my := List.mem_of_getElem? hy
      refine ⟨m1, fun a till b => ?_, fun a since b => ?_, fun x hx => ?_⟩
      · obtain ⟨u, n1, n2, n3⟩ := m2 a till b
        exact ⟨u, n1, (f3 y my till b).trans n1, n3⟩
      · obtain ⟨u, n1, n2, n3⟩ := m3 a since b
        exact ⟨u, n1, (f4 y my since b).trans n1, n3⟩
      · exact absurd (.recv c k1 (List.mem_of_getElem? hc) (by rw [Connector.offer, hx]; exact nofun)) f1
  | send m g2 =>
    refine .inr ⟨hflow nofun, ?_⟩
    subst g2
    have key : ∀ b : NetCaller.St M, b.calls = s.base.calls → b.pc = s.base.pc → b.failed = s.base.failed → b.client = s.base.client →
        b.connectors = s.base.connectors → Phase dl D L ((tgt : Int) - b.calls.length) (g ++ [.send m]) { s with base := b } := by
      intro b e1 e2 e3 e4 e5
      rw [e1]
      cases h2 with
      | ready a k1 k2 k3 => exact .ready a (by dsimp only; rw [e2, e3]; exact k1) (by dsimp only; rw [e4]; exact k2.mono) k3
      | dropping k1 k2 k3 => exact .dropping (by dsimp only; rw [e2]; exact k1) (by dsimp only; rw [e5]; exact k2) k3
      | calling a u k1 k2 k3 k4 k5 => exact .calling a u (by dsimp only; rw [e2]; exact k1) (by dsimp only; rw [e4]; exact k2.mono) k3 k4 k5
      | broken k1 k2 => exact .broken (by dsimp only; rw [e2, e3]; exact k1) k2
      | asleep u k1 k2 k3 k4 => exact .asleep u (by dsimp only; rw [e2]; exact k1) k2 k3 k4
      | waiting k1 k2 => exact .waiting (by dsimp only; rw [e2]; exact k1) (by dsimp only; rw [e5]; exact k2.imp fun _ _ _ _ _ h => h.mono)
    dsimp only
    refine key _ ?_ ?_ ?_ ?_ ?_ <;> (unfold NetCaller.trySend; split <;> rfl)
  | spawn retry delay g1 g2 g3 g4 =>
    refine .inr ⟨hflow nofun, ?_⟩
    subst g4
    cases h2 with
    | asleep u k1 k2 k3 k4 =>
      refine .waiting rfl ?_
      have hold : Pairs (Soon dl D L ((tgt : Int) - s.base.calls.length) s.now (g ++ [.spawn retry delay])) s.base.connectors s.tries := by
        intro i c y hc hy
        have hend : c.pc = .ended := by
          by_contra hn
          rcases dead (List.mem_of_getElem? hc) hn with k | k | k <;> (rw [g3] at k; cases k)
        refine ⟨?_, ?_, ?_, ?_⟩
        · rw [hend]; exact nofun
        · intro a; rw [hend] at a; cases a
        · intro a; rw [hend] at a; cases a
        · intro x a; rw [hend] at a; cases a
      refine hold.snoc hti.len ⟨nofun, fun _ till e => ?_, nofun, nofun⟩
      cases e
      exact ⟨u + 2000, by omega, by omega, by omega⟩
    | ready a k1 => rcases k1 with k1 | ⟨k1, _⟩ <;> (rw [g3] at k1; cases k1)
    | dropping k1 => rcases k1 with k1 | k1 <;> (rw [g3] at k1; cases k1)
    | calling a u k1 => rw [g3] at k1; cases k1
    | broken k1 => rcases k1 with ⟨k1, _⟩ | k1 <;> (rw [g3] at k1; cases k1)
    | waiting k1 => rw [g3] at k1; cases k1
  | dial i n delay till c g1 g2 g3 g4 g5 =>
    refine .inr ⟨hflow nofun, ?_⟩
    subst g5
    cases h2 with
    | ready a k1 k2 k3 => exact .ready a k1 k2.mono k3
    | dropping k1 k2 k3 => exact .dropping k1 k2 k3
    | calling a u k1 k2 k3 k4 k5 => exact .calling a u k1 k2.mono k3 k4 k5
    | broken k1 k2 => exact .broken k1 k2
    | asleep u k1 k2 k3 k4 => exact .asleep u k1 k2 k3 k4
    | waiting k1 k2 =>
      refine .waiting k1 ((k2.imp fun _ _ _ _ _ h => h.mono).tries fun c' hc' => ?_)
      rw [g2] at hc'
      cases hc'
      obtain ⟨m1, m2, m3, m4⟩ := (k2 i _ _ g2 g1).mono (e := .dial i)
      obtain ⟨u, n1, n2, n3⟩ := m2 g3 till rfl
      refine ⟨m1, nofun, fun _ since e => ?_, m4⟩
      cases e
      exact ⟨u + D, by omega, by omega, n3⟩
  | refused i n delay since g1 g2 g3 => exact absurd rfl (hd _ _ rfl)
  | tried i n delay since r c c' g1 g2 g3 g4 g5 =>
    refine .inr ⟨hflow nofun, ?_⟩
    subst g5
    obtain ⟨x, rfl⟩ : ∃ x, r = some x := by
      cases r with
      | none => exact absurd rfl (hd _ _ rfl)
      | some x => exact ⟨x, rfl⟩
    unfold Connector.tried at g4
    split at g4
    · next hpc =>
      cases g4
      cases h2 with
      | ready a k1 k2 k3 => exact .ready a k1 k2.mono k3
      | dropping k1 k2 k3 =>
        refine .dropping k1 ⟨{ c with pc := .haveConn x }, List.mem_iff_getElem?.2 ⟨i, ?_⟩, x, rfl⟩ k3
        exact List.getElem?_set_self (List.getElem?_eq_some_iff.1 g3).1
      | calling a u k1 k2 k3 k4 k5 => exact .calling a u k1 k2.mono k3 k4 k5
      | broken k1 k2 => exact .broken k1 k2
      | asleep u k1 k2 k3 k4 => exact .asleep u k1 k2 k3 k4
      | waiting k1 k2 =>
        refine .waiting k1 ((k2.imp fun _ _ _ _ _ h => h.mono).set ?_)
        obtain ⟨u, n1, n2, n3⟩ := (k2 i _ _ g3 g1).dials hpc since rfl
        refine ⟨nofun, nofun, nofun, fun z hz => ?_⟩
        cases hz
        refine ⟨0, .inr ⟨rfl, x, rfl, i, List.mem_append_right _ (List.mem_singleton_self _)⟩, ?_⟩
        omega
    · cases g4
  | rest i n delay c g1 g2 g3 g4 =>
    refine .inr ⟨hflow nofun, ?_⟩
    subst g4
    cases h2 with
    | ready a k1 k2 k3 => exact .ready a k1 k2.mono k3
    | dropping k1 k2 k3 => exact .dropping k1 k2 k3
    | calling a u k1 k2 k3 k4 k5 => exact .calling a u k1 k2.mono k3 k4 k5
    | broken k1 k2 => exact .broken k1 k2
    | asleep u k1 k2 k3 k4 => exact .asleep u k1 k2 k3 k4
    | waiting k1 k2 =>
      refine .waiting k1 ((k2.imp fun _ _ _ _ _ h => h.mono).tries fun c' hc' => ?_)
      rw [g2] at hc'
      cases hc'
      refine ⟨?_, ?_, ?_, ?_⟩
      · rw [g3]; exact nofun
      · intro a; rw [g3] at a; cases a
      · intro a; rw [g3] at a; cases a
      · intro x a; rw [g3] at a; cases a
  | again i delay y till c c' g1 g2 g3 g4 g5 g6 g7 =>
    refine .inr ⟨hflow nofun, ?_⟩
    subst g7
    have hrest : c.pc = .resting := by
      unfold Connector.sleep at g6
      split at g6
      · assumption
      · cases g6
    cases h2 with
    | ready a k1 k2 k3 => exact .ready a k1 k2.mono k3
    | dropping k1 k2 k3 =>
      refine .dropping k1 ?_ k3
      obtain ⟨d, hd1, x, hx⟩ := k2
      obtain ⟨j, hj⟩ := List.mem_iff_getElem?.1 hd1
      have hne : i ≠ j := by
        rintro rfl
        rw [g5] at hj; cases hj
        rw [hrest] at hx; cases hx
      refine ⟨d, List.mem_iff_getElem?.2 ⟨j, ?_⟩, x, hx⟩
      dsimp only
      rw [List.getElem?_set_ne hne]; exact hj
    | calling a u k1 k2 k3 k4 k5 => exact .calling a u k1 k2.mono k3 k4 k5
    | broken k1 k2 => exact .broken k1 k2
    | asleep u k1 k2 k3 k4 => exact .asleep u k1 k2 k3 k4
    | waiting k1 k2 =>
      exfalso
      rcases alive hinv (List.mem_of_getElem? g5) (by rw [hrest]; exact nofun) with ⟨_, k⟩ | ⟨k | k, _⟩
      · rcases k with ⟨_, k | ⟨_, k⟩⟩ | ⟨_, k⟩ <;> (rw [hrest] at k; cases k)
      · rw [k1] at k; cases k
      · rw [k1] at k; cases k
  | recv i c x g1 g2 g3 g4 =>
    refine .inr ⟨hflow nofun, ?_⟩
    subst g4
    cases h2 with
    | waiting k1 k2 =>
      have hy : i < s.tries.length := hti.len ▸ (List.getElem?_eq_some_iff.1 g1).1
      obtain ⟨m1, m2, m3, m4⟩ := k2 i c _ g1 (List.getElem?_eq_getElem hy)
      rcases offer_cases g2 with ⟨z, n1, rfl⟩ | ⟨n1, rfl⟩
      · obtain ⟨a, n2, n3⟩ := m4 z n1
        exact .ready a (.inl rfl) n2.mono n3
      · exact absurd n1 m1
    | ready a k1 => rcases k1 with k1 | ⟨k1, _⟩ <;> (rw [g3] at k1; cases k1)
    | dropping k1 => rcases k1 with k1 | k1 <;> (rw [g3] at k1; cases k1)
    | calling a u k1 => rw [g3] at k1; cases k1
    | broken k1 => rcases k1 with ⟨k1, _⟩ | k1 <;> (rw [g3] at k1; cases k1)
    | asleep u k1 => rw [g3] at k1; cases k1
  | get b g1 g2 =>
    refine .inr ⟨hflow nofun, ?_⟩
    subst g2
    obtain ⟨k1, k2, k3, k4, k5, k6, k7⟩ := inv_get g1
    dsimp only
    rw [k2]
    rcases k6 with ⟨k8, k9⟩ | ⟨k8, k9, _⟩ | ⟨k8, k10, _, k9⟩
    · cases h2 with
      | dropping m1 m2 m3 => exact .dropping (.inr k9) (by dsimp only; rw [k1]; exact m2) m3
      | ready a m1 => rcases m1 with m1 | ⟨m1, _⟩ <;> (rw [k8] at m1; cases m1)
      | calling a u m1 => rw [k8] at m1; cases m1
      | broken m1 => rcases m1 with ⟨m1, _⟩ | m1 <;> (rw [k8] at m1; cases m1)
      | asleep u m1 => rw [k8] at m1; cases m1
      | waiting m1 => rw [k8] at m1; cases m1
    · cases h2 with
      | ready a m1 m2 m3 =>
        refine .calling a (s.now + L) k9 (by dsimp only; rw [k3]; exact m2.mono) ?_ (by dsimp only; omega) ?_
        · dsimp only
          rw [if_pos ⟨k9, by rw [k8]; exact nofun⟩]
        · rw [Int.sub_mul, Int.one_mul]; omega
      | dropping m1 => rcases m1 with m1 | m1 <;> (rw [k8] at m1; cases m1)
      | calling a u m1 => rw [k8] at m1; cases m1
      | broken m1 => rcases m1 with ⟨m1, _⟩ | m1 <;> (rw [k8] at m1; cases m1)
      | asleep u m1 => rw [k8] at m1; cases m1
      | waiting m1 => rw [k8] at m1; cases m1
    · cases h2 with
      | ready a m1 m2 m3 =>
        rcases m1 with m1 | ⟨_, m1⟩
        · rw [k8] at m1; cases m1
        rw [m1] at k9
        have k9 : b.pc = .call := k9
        refine .calling a (s.now + L) k9 (by dsimp only; rw [k3]; exact m2.mono) ?_ (by dsimp only; omega) ?_
        · dsimp only
          rw [if_pos ⟨k9, by rw [k8]; exact nofun⟩]
        · rw [Int.sub_mul, Int.one_mul]; omega
      | broken m1 m2 =>
        rcases m1 with ⟨_, m1⟩ | m1
        · rw [m1] at k9
          exact .broken (.inr k9) m2
        · rw [k8] at m1; cases m1
      | dropping m1 => rcases m1 with m1 | m1 <;> (rw [k8] at m1; cases m1)
      | calling a u m1 => rw [k8] at m1; cases m1
      | asleep u m1 => rw [k8] at m1; cases m1
      | waiting m1 => rw [k8] at m1; cases m1
  | selConn i c x g1 g2 g3 g4 =>
    refine .inr ⟨hflow nofun, ?_⟩
    subst g4
    cases h2 with
    | dropping m1 m2 m3 =>
      refine .calling (2999 + D) (s.now + L) rfl (.inl rfl) (Int.le_refl _) (by dsimp only; omega) ?_
      dsimp only
      rw [Int.sub_mul, Int.one_mul]; omega
    | ready a m1 => rcases m1 with m1 | ⟨m1, _⟩ <;> (rw [g3] at m1; cases m1)
    | calling a u m1 => rw [g3] at m1; cases m1
    | broken m1 => rcases m1 with ⟨m1, _⟩ | m1 <;> (rw [g3] at m1; cases m1)
    | asleep u m1 => rw [g3] at m1; cases m1
    | waiting m1 => rw [g3] at m1; cases m1
  | selDrop g1 g2 =>
    exfalso
    cases h2 with
    | dropping m1 m2 m3 =>
      obtain ⟨c, n1, x, n2⟩ := m2
      have := (drop_offers hs).2 c n1
      rw [Connector.offer, n2] at this; cases this
    | ready a m1 => rcases m1 with m1 | ⟨m1, _⟩ <;> (rw [g1] at m1; cases m1)
    | calling a u m1 => rw [g1] at m1; cases m1
    | broken m1 => rcases m1 with ⟨m1, _⟩ | m1 <;> (rw [g1] at m1; cases m1)
    | asleep u m1 => rw [g1] at m1; cases m1
    | waiting m1 => rw [g1] at m1; cases m1
  | call ok c m g1 g2 g3 g4 =>
    refine .inr ⟨hflow nofun, ?_⟩
    subst g4
    have hk' : (tgt : Int) - ((s.base.calls ++ [(c, m, ok)]).length : Nat) = (tgt : Int) - s.base.calls.length - 1 := by
      rw [List.length_append]; show (tgt : Int) - ((s.base.calls.length + 1 : Nat) : Int) = _; omega
    dsimp only
    rw [hk']
    cases h2 with
    | calling a u m1 m2 m3 m4 m5 =>
      cases ok with
      | true => exact .ready a (.inr ⟨rfl, rfl⟩) m2.mono (by dsimp only; omega)
      | false =>
        rcases m2 with rfl | ⟨_, n, n1, n2⟩
        · exact .broken (.inl ⟨rfl, rfl⟩) (by dsimp only; omega)
        · have := hc false n rfl n1 n2; cases this
    | ready a m1 => rcases m1 with m1 | ⟨m1, _⟩ <;> (rw [g1] at m1; cases m1)
    | dropping m1 => rcases m1 with m1 | m1 <;> (rw [g1] at m1; cases m1)
    | broken m1 => rcases m1 with ⟨m1, _⟩ | m1 <;> (rw [g1] at m1; cases m1)
    | asleep u m1 => rw [g1] at m1; cases m1
    | waiting m1 => rw [g1] at m1; cases m1
  | closing retry g1 g2 g3 =>
    refine .inr ⟨hflow nofun, ?_⟩
    subst g3
    have := r3 _ rfl
    cases h2 with
    | broken m1 m2 => exact .asleep (s.now + 999) rfl (by dsimp only; omega) (by dsimp only; omega) (by dsimp only; omega)
    | ready a m1 => rcases m1 with m1 | ⟨m1, _⟩ <;> (rw [g2] at m1; cases m1)
    | dropping m1 => rcases m1 with m1 | m1 <;> (rw [g2] at m1; cases m1)
    | calling a u m1 => rw [g2] at m1; cases m1
    | asleep u m1 => rw [g2] at m1; cases m1
    | waiting m1 => rw [g2] at m1; cases m1

/-- Where the consumer is, a little more than five minutes after the peer has come back. -/
theorem phase_start (hD : 0 ≤ D) (hL : 0 ≤ L) (hi : RI T D s) (ht : T + 302000 + D < s.now) (k : Int) : Phase (s.now + (2999 + D) + k * L) D L k g s := by
  have hti := hi.ti
  cases hp : s.base.pc with
  | spawn =>
    have := hti.wake hp
    exact .asleep (s.now + 999) hp this (by omega) (by omega)
  | wait =>
    refine .waiting hp (fun i c y hc hy => ?_)
    have hl := hti.each i c y hc hy
    have hdue := hi.each i c y hc hy
    refine ⟨fun a => ?_, fun a till b => ?_, fun a since b => ?_, fun x hx => ⟨2999 + D, .inl rfl, Int.le_refl _⟩⟩
    · have := hdue.told a; omega
    · rcases hl.trying a with ⟨u, e, h1⟩ | ⟨u, e, h1⟩
      · rw [b] at e; cases e; exact ⟨s.now + 2000, h1, by omega, by omega⟩
      · rw [b] at e; cases e
    · rcases hl.trying a with ⟨u, e, h1⟩ | ⟨u, e, h1⟩
      · rw [b] at e; cases e
      · rw [b] at e; cases e; exact ⟨s.now + D, by omega, by omega, by omega⟩
  | top => exact .dropping (.inl hp) (ri_conn hD hi ht (.inl hp)) (Int.le_refl _)
  | select => exact .dropping (.inr hp) (ri_conn hD hi ht (.inr hp)) (Int.le_refl _)
  | first => exact .ready (2999 + D) (.inl hp) (.inl rfl) (Int.le_refl _)
  | call =>
    have := hti.since hp
    refine .calling (2999 + D) (s.now + L) hp (.inl rfl) (by omega) (by omega) ?_
    rw [Int.sub_mul, Int.one_mul]; omega
  | post =>
    cases hf : s.base.failed with
    | false => exact .ready (2999 + D) (.inr ⟨hp, hf⟩) (.inl rfl) (Int.le_refl _)
    | true => exact .broken (.inl ⟨hp, hf⟩) (Int.le_refl _)
  | fail => exact .broken (.inr hp) (Int.le_refl _)

theorem phase_end (hD : 0 ≤ D) (hL : 0 ≤ L) (hk : 0 < k) (hp : Phase dl D L k g s) (hi : TI s) : s.now ≤ dl := by
  have h0 : 0 ≤ k * L := Int.mul_nonneg (by omega) hL
  have h1 : 0 ≤ (k - 1) * L := Int.mul_nonneg (by omega) hL
  have may : ∀ {x : Option Nat} {a : Int}, May D g x a → 0 ≤ a := by
    rintro x a (h | ⟨h, _⟩) <;> omega
  cases hp with
  | ready a k1 k2 k3 => have := may k2; omega
  | dropping k1 k2 k3 => omega
  | calling a u k1 k2 k3 k4 k5 => have := may k2; omega
  | broken k1 k2 => omega
  | asleep u k1 k2 k3 k4 => omega
  | waiting k1 k2 =>
    have hconn := hi.inv.conn
    rw [k1] at hconn
    obtain ⟨l, c, h2, h3, h4⟩ := hconn
    have mc : c ∈ s.base.connectors := by rw [h2]; exact List.mem_append_right _ (List.mem_singleton_self _)
    obtain ⟨i, hc⟩ := List.mem_iff_getElem?.1 mc
    obtain ⟨y, hy⟩ : ∃ y, s.tries[i]? = some y := ⟨_, List.getElem?_eq_getElem (by rw [hi.len]; exact (List.getElem?_eq_some_iff.1 hc).1)⟩
    obtain ⟨m1, m2, m3, m4⟩ := k2 i c y hc hy
    rcases h4 with ⟨_, h4 | ⟨x, h4⟩⟩ | ⟨_, h4⟩
    · rcases (hi.each i c y hc hy).trying h4 with ⟨till, e, _⟩ | ⟨since, e, _⟩
      · obtain ⟨u, n1, n2, n3⟩ := m2 h4 till e; omega
      · obtain ⟨u, n1, n2, n3⟩ := m3 h4 since e; omega
    · obtain ⟨a, n1, n2⟩ := m4 x h4
      have := may n1; omega
    · exact absurd h4 m1

/-- C110 (recovery). Let the peer be there during `h2`, with dialling taking at most `D` and a call at most `L`, whatever has happened before, and let no thread
be late. Then at most one call fails during `h2`, namely one with an old connection; a message is dropped for want of a connection only in the
first five minutes, two seconds and `D`; and of the messages that are accepted and not dropped until some time after that, all are called in order within three
seconds, `D`, and the time for the calls. -/
theorem C110_recovers (t0 D L : Int) (hD : 0 ≤ D) (hL : 0 ≤ L) (h1 h2 : List (Ev M)) (s1 s2 : St M) (hr1 : run (init t0) h1 = .ok s1)
    (hp : Prompt D L s1 h2) (hb : Back s1 h2) (hr2 : run s1 h2 = .ok s2) :
    failures s2 ≤ failures s1 + 1 ∧
    (∀ g1 g2 s, h2 = g1 ++ .selDrop :: g2 → run s1 g1 = .ok s → s.now ≤ s1.now + 302000 + D) ∧
    ∀ g1 g2 s, h2 = g1 ++ g2 → run s1 g1 = .ok s → s1.now + 302000 + D < s.now →
      s.now + 2999 + D + ((s.base.queue.length : Int) + 1) * L < s2.now → ∃ p : List M, p.length ≤ 1 ∧ called s ++ p ++ s.base.queue <+: called s2 := by
  have base : ∀ {g1 g2 : List (Ev M)} {s : St M}, h2 = g1 ++ g2 → run s1 g1 = .ok s → RI s1.now D s ∧ NI (failures s1) g1 s := by
    intro g1 g2 s hh hr
    subst hh
    exact run_back (P := fun g s => RI s1.now D s ∧ NI (failures s1) g s) (g1 := []) (g2 := g1) ⟨ri_start (ti_run hr1), .inl rfl⟩ rfl
      (fun a t b hh => hp a t (b ++ g2) (by rw [show g1 = _ from hh, List.append_assoc]; rfl))
      ⟨fun i r hm => hb.1 i r (List.mem_append_left _ hm), fun a ok b hh => hb.2 a ok (b ++ g2) (by rw [show g1 = _ from hh, List.append_assoc]; rfl)⟩
      (fun g s s' e ht hd hc hi hs => ⟨ri_step hD hi.1 ht hd hs, ni_step hi.1.ti.inv hi.2 hd hc hs⟩) hr
  refine ⟨?_, fun g1 g2 s hh hr => ?_, fun g1 g2 s hh hr hlt hend => ?_⟩
  · rcases (base (g1 := h2) (g2 := []) (List.append_nil _).symm hr2).2 with h | ⟨h, _⟩ <;> omega
  · obtain ⟨hi, _⟩ := base hh hr
    rw [hh, run_append, hr] at hr2
    have hr2 : (step s .selDrop >>= fun s' => run s' g2) = .ok s2 := hr2
    rw [Outcome.bind_eq_ok] at hr2
    obtain ⟨s', h3, _⟩ := hr2
    obtain ⟨k1, k2⟩ := drop_offers h3
    by_contra hn
    obtain ⟨c, m1, x, m2⟩ := ri_conn hD hi (by omega) (.inr k1)
    have := k2 c m1
    rw [Connector.offer, m2] at this; cases this
  · obtain ⟨hi, _⟩ := base hh hr
    subst hh
    rw [run_append, hr] at hr2
    have hr2 : run s g2 = .ok s2 := hr2
    have hlen : (flow s.base).length = s.base.calls.length + ((pending s.base).length + s.base.queue.length) := by
      rw [flow, List.length_append, List.length_append, Spec.NetCaller.called, List.length_map]
    have hone : (pending s.base).length ≤ 1 := by
      have hm : s.base.msg.toList.length ≤ 1 := by cases s.base.msg <;> simp
      rw [pending]
      split
      · exact hm
      · split <;> first | exact hm | exact Nat.zero_le 1
    have key : RI s1.now D s2 ∧ s.now ≤ s2.now ∧ flow s.base <+: flow s2.base ∧
        PI (s.now + (2999 + D) + (((flow s.base).length : Int) - s.base.calls.length) * L) D L (flow s.base).length (g1 ++ g2) s2 := by
      refine run_back (P := fun g x => RI s1.now D x ∧ s.now ≤ x.now ∧ flow s.base <+: flow x.base ∧
        PI (s.now + (2999 + D) + (((flow s.base).length : Int) - s.base.calls.length) * L) D L (flow s.base).length g x)
        ⟨hi, Int.le_refl _, List.prefix_refl _, .inr ⟨Nat.le_refl _, phase_start hD hL hi hlt _⟩⟩ hr hp hb (fun g x x' e ht hd hc ⟨j1, j2, j3, j4⟩ hs => ?_) hr2
      refine ⟨ri_step hD j1 ht hd hs, j2.trans (now_mono hs), j3.trans (flow_mono j1.ti.inv hs ?_), phase_step hD hL j1 ht hd hc hs j4⟩
      rintro rfl
      obtain ⟨k1, k2⟩ := drop_offers hs
      obtain ⟨c, m1, y, m2⟩ := ri_conn hD j1 (by omega) (.inr k1)
      have := k2 c m1
      rw [Connector.offer, m2] at this; cases this
    obtain ⟨j1, _, j3, j4⟩ := key
    refine ⟨pending s.base, hone, ?_⟩
    have hcalls : (flow s.base).length ≤ s2.base.calls.length := by
      rcases j4 with j4 | ⟨_, j4⟩
      · exact j4
      · by_contra hn
        have := phase_end hD hL (by omega) j4 j1.ti
        have hmul : (((flow s.base).length : Int) - s.base.calls.length) * L ≤ ((s.base.queue.length : Int) + 1) * L :=
          Int.mul_le_mul_of_nonneg_right (by omega) hL
        omega
    have h3 : called s ++ pending s.base ++ s.base.queue = flow s.base := by rw [flow, List.append_assoc]; rfl
    rw [h3]
    refine List.prefix_of_prefix_length_le j3 ?_ ?_
    · rw [flow]; exact List.prefix_append _ _
    · rw [called_length]; exact hcalls

end Verif.Props.NetTime
