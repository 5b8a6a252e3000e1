import Verif.Spec.Node
import Verif.Proofs.Firewall
import Verif.Proofs.Observers

/-! The invariant of a node. -/
namespace Verif.Firewall
variable {D : Type}

/-- How many values were read from the observer channel of a call. -/
def reads (c : Call) : Nat := c.sections - 1 - c.obs.length

/-- How an event changes the calls, seen by their readers. -/
theorem step_reads {f f' : Fw D} (h : Inv f) {e : Ev D} (hs : step f e = .ok f') :
    (∀ (i : Nat) (c : Call), f.calls[i]? = some c → ∃ c', f'.calls[i]? = some c' ∧ c'.key = c.key ∧
      (e ≠ .read i → reads c' = reads c) ∧ (e = .read i → reads c' = reads c + 1)) ∧
    ((∀ k a, e ≠ .allow k a) → f'.calls.length = f.calls.length) ∧
    (∀ k a, e = .allow k a → ∃ c, f'.calls = f.calls ++ [c] ∧ c.key = k ∧ reads c = 0) := by
  have same : ∀ g : Fw D, g.calls = f.calls → (∀ i, e ≠ .read i) → ∀ (i : Nat) (c : Call), f.calls[i]? = some c →
      ∃ c', g.calls[i]? = some c' ∧ c'.key = c.key ∧
      (e ≠ .read i → reads c' = reads c) ∧ (e = .read i → reads c' = reads c + 1) := by
    intro g hg hr i c hc
    exact ⟨c, by rw [hg]; exact hc, rfl, fun _ => rfl, fun x => absurd x (hr i)⟩
  have upd : ∀ (g : Fw D) (j : Nat) (c c' : Call), f.calls[j]? = some c → g.calls = f.calls.set j c' → c'.key = c.key →
      reads c' = reads c → (∀ i, e ≠ .read i) → ∀ (i : Nat) (c : Call), f.calls[i]? = some c →
      ∃ c', g.calls[i]? = some c' ∧ c'.key = c.key ∧
      (e ≠ .read i → reads c' = reads c) ∧ (e = .read i → reads c' = reads c + 1) := by
    intro g j c c' hc hg hk hrd hr i d hd
    by_cases e : i = j
    · subst e
      have := Option.some.inj (hd.symm.trans hc)
      subst this
      exact ⟨c', by rw [hg, getElem?_set_self _ hc], hk, fun _ => hrd, fun x => absurd x (hr i)⟩
    · exact ⟨d, by rw [hg, getElem?_set_other _ e]; exact hd, rfl, fun _ => rfl, fun x => absurd x (hr i)⟩
  cases e with
  | tick t =>
    obtain ⟨_, rfl⟩ := step_tick_cases hs
    exact ⟨same _ rfl nofun, fun _ => rfl, nofun⟩
  | latch =>
    obtain ⟨_, _, rfl⟩ := step_latch_cases hs
    exact ⟨same _ rfl nofun, fun _ => rfl, nofun⟩
  | msg m =>
    rw [step] at hs
    have := Outcome.ok.inj hs
    subst this
    have hc : (process f m).calls = f.calls := by
      rcases process_cases f m with e | ⟨_, _, _, _, e⟩ | ⟨_, _, _, e⟩ <;> rw [e]
    exact ⟨same _ hc nofun, fun _ => by rw [hc], nofun⟩
  | allow k a =>
    rw [step] at hs
    refine ⟨?_, fun hn => absurd rfl (hn k a), ?_⟩
    · intro i c hc
      obtain ⟨_, ⟨b, _, rfl⟩ | ⟨_, rfl⟩⟩ := setAllowance_cases hs
      · exact ⟨c, getElem?_concat_old _ hc, rfl, fun _ => rfl, nofun⟩
      · exact ⟨c, getElem?_concat_old _ hc, rfl, fun _ => rfl, nofun⟩
    · intro k' a' e
      injection e with e1 e2
      subst e1
      obtain ⟨_, ⟨b, _, rfl⟩ | ⟨_, rfl⟩⟩ := setAllowance_cases hs
      · exact ⟨_, rfl, rfl, rfl⟩
      · exact ⟨_, rfl, rfl, rfl⟩
  | step i =>
    rw [step] at hs
    obtain ⟨c, hc, hl, ⟨h0, rfl⟩ | ⟨h0, _, _, rfl⟩ | ⟨h0, _, _, rfl⟩ | ⟨h0, _, _, rfl⟩⟩ := stateStep_cases hs
    · have := (h.obs i c hc).1
      exact ⟨upd _ i c _ hc rfl rfl (by simp [reads]; omega) nofun, fun _ => by simp, nofun⟩
    · have := (h.obs i c hc).1
      exact ⟨upd _ i c _ hc rfl rfl (by simp [reads]; omega) nofun, fun _ => by simp, nofun⟩
    · have := (h.obs i c hc).1
      exact ⟨upd _ i c _ hc rfl rfl (by simp [reads]; omega) nofun, fun _ => by simp, nofun⟩
    · have := (h.obs i c hc).1
      exact ⟨upd _ i c _ hc rfl rfl (by simp [reads]; omega) nofun, fun _ => by simp, nofun⟩
  | read j =>
    obtain ⟨c, hc, ho, rfl⟩ := step_read_cases hs
    refine ⟨?_, fun _ => by simp, nofun⟩
    intro i d hd
    by_cases e : i = j
    · subst e
      have := Option.some.inj (hd.symm.trans hc)
      subst this
      refine ⟨_, getElem?_set_self _ hc, rfl, fun x => absurd rfl x, fun _ => ?_⟩
      have h1 := (h.obs i d hc).1
      have h2 := List.length_pos_of_ne_nil ho
      simp only [reads, List.length_tail]
      omega
    · refine ⟨d, by dsimp only; rw [getElem?_set_other _ e]; exact hd, rfl, fun _ => rfl, fun x => ?_⟩
      injection x with x
      exact absurd x.symm e

/-- What an event outputs, and that an event cannot open the firewall for a run unless it sets an allowance for it. -/
theorem step_out {f f' : Fw D} (h : Inv f) {e : Ev D} (hs : step f e = .ok f') :
    ∃ new, f'.out = f.out ++ new ∧ (∀ m ∈ new, keyValid f m.key = true) ∧
      ∀ k, f.state.get? k = none → (∀ a, e ≠ .allow k a) → f'.state.get? k = none ∧ ∀ m ∈ new, m.key ≠ k := by
  cases e with
  | tick t =>
    obtain ⟨_, rfl⟩ := step_tick_cases hs
    exact ⟨[], by simp, by simp, fun k hk _ => ⟨hk, by simp⟩⟩
  | latch =>
    obtain ⟨_, _, rfl⟩ := step_latch_cases hs
    exact ⟨[], by simp, by simp, fun k hk _ => ⟨hk, by simp⟩⟩
  | msg m =>
    rw [step] at hs
    have := Outcome.ok.inj hs
    subst this
    rcases process_cases f m with e | ⟨_, _, _, _, e⟩ | ⟨_, hv, hst, e⟩
    · rw [e]; exact ⟨[], by simp, by simp, fun k hk _ => ⟨hk, by simp⟩⟩
    · rw [e]; exact ⟨[], by simp, by simp, fun k hk _ => ⟨hk, by simp⟩⟩
    · rw [e]
      refine ⟨[m], rfl, ?_, ?_⟩
      · intro m' hm'
        rw [List.mem_singleton] at hm'
        subst hm'
        rw [← messageValid_eq]; exact hv
      · intro k hk _
        refine ⟨hk, ?_⟩
        intro m' hm' ek
        rw [List.mem_singleton] at hm'
        subst hm'
        rw [ek, hk] at hst; cases hst
  | allow k a =>
    rw [step] at hs
    obtain ⟨_, ⟨b, _, rfl⟩ | ⟨_, rfl⟩⟩ := setAllowance_cases hs
    · exact ⟨[], by simp, by simp, fun k hk _ => ⟨hk, by simp⟩⟩
    · refine ⟨[], by simp, by simp, fun k' hk hn => ⟨?_, by simp⟩⟩
      dsimp only
      rw [GoMap.get?_set, if_neg]
      · exact hk
      · rintro rfl; exact hn a rfl
  | step i =>
    rw [step] at hs
    obtain ⟨c, hc, hl, hcase⟩ := stateStep_cases hs
    have hact : c.sections < 4 → Act f i c := fun x => ⟨hc, hl, x⟩
    have hkey : ∀ k, c.sections < 4 → f.state.get? k = none → c.key ≠ k := by
      rintro k hx hk rfl
      rw [(h.act i c (hact hx)).2] at hk; cases hk
    rcases hcase with ⟨h0, rfl⟩ | ⟨h0, _, _, rfl⟩ | ⟨h0, _, _, rfl⟩ | ⟨h0, _, _, rfl⟩
    · exact ⟨[], by simp, by simp, fun k hk _ => ⟨hk, by simp⟩⟩
    · refine ⟨[], by simp, by simp, fun k hk _ => ⟨?_, by simp⟩⟩
      dsimp only
      rw [GoMap.get?_set, if_neg (hkey k (by omega) hk)]; exact hk
    · refine ⟨_, rfl, ?_, ?_⟩
      · intro m hm
        cases hb : f.buffer.get? c.key with
        | none => rw [hb] at hm; simp at hm
        | some b =>
          rw [hb, Option.getD_some] at hm
          rw [← messageValid_eq]
          exact ((h.buffered c.key b hb).2.2 m hm).2
      · intro k hk _
        refine ⟨?_, ?_⟩
        · dsimp only
          rw [GoMap.get?_set, if_neg (hkey k (by omega) hk)]; exact hk
        · intro m hm
          cases hb : f.buffer.get? c.key with
          | none => rw [hb] at hm; simp at hm
          | some b =>
            rw [hb, Option.getD_some] at hm
            rw [((h.buffered c.key b hb).2.2 m hm).1]
            exact hkey k (by omega) hk
    · refine ⟨[], by simp, by simp, fun k hk _ => ⟨?_, by simp⟩⟩
      dsimp only
      rw [GoMap.get?_delete, GoMap.get?_set]
      by_cases e : c.key = k
      · rw [if_pos e]
      · rw [if_neg e, if_neg e]; exact hk
  | read j =>
    obtain ⟨c, hc, ho, rfl⟩ := step_read_cases hs
    exact ⟨[], by simp, by simp, fun k hk _ => ⟨hk, by simp⟩⟩

theorem step_conf {f f' : Fw D} {e : Ev D} (hs : step f e = .ok f') : f'.nprots = f.nprots ∧ f'.guests = f.guests := by
  cases e with
  | tick t => obtain ⟨_, rfl⟩ := step_tick_cases hs; exact ⟨rfl, rfl⟩
  | latch => obtain ⟨_, _, rfl⟩ := step_latch_cases hs; exact ⟨rfl, rfl⟩
  | msg m =>
    rw [step] at hs
    have := Outcome.ok.inj hs
    subst this
    rcases process_cases f m with e | ⟨_, _, _, _, e⟩ | ⟨_, _, _, e⟩ <;> rw [e] <;> exact ⟨rfl, rfl⟩
  | allow k a =>
    rw [step] at hs
    obtain ⟨_, ⟨b, _, rfl⟩ | ⟨_, rfl⟩⟩ := setAllowance_cases hs <;> exact ⟨rfl, rfl⟩
  | step i =>
    rw [step] at hs
    obtain ⟨c, _, _, ⟨_, rfl⟩ | ⟨_, _, _, rfl⟩ | ⟨_, _, _, rfl⟩ | ⟨_, _, _, rfl⟩⟩ := stateStep_cases hs <;> exact ⟨rfl, rfl⟩
  | read j => obtain ⟨c, _, _, rfl⟩ := step_read_cases hs; exact ⟨rfl, rfl⟩

end Verif.Firewall

namespace Verif.Node
open Verif.Registry (getElem?_set_cases lt_of_some)
variable {D : Type}

/-- The values that a runner has read from the firewall when it has finished `pos` sections. -/
def readsAt (pos : Nat) : Nat := if pos ≤ 2 then 0 else if pos ≤ 6 then 1 else if pos = 7 then 2 else 3

/-- Runners stay, with their keys, and go on. -/
def RunnersLe (l l' : List Runner) : Prop :=
  ∀ (j : Nat) (u : Runner), l[j]? = some u → ∃ u', l'[j]? = some u' ∧ u'.key = u.key ∧ u.pos ≤ u'.pos

theorem RunnersLe.refl (l : List Runner) : RunnersLe l l := fun _ u h => ⟨u, h, rfl, Nat.le_refl _⟩

theorem runnersLe_set {l : List Runner} {j : Nat} {u u' : Runner} (h : l[j]? = some u) (hk : u'.key = u.key) (hp : u.pos ≤ u'.pos) :
    RunnersLe l (l.set j u') := by
  intro i v hv
  by_cases e : i = j
  · subst e
    have := Option.some.inj (h.symm.trans hv)
    subst this
    exact ⟨u', List.getElem?_set_self (lt_of_some h), hk, hp⟩
  · exact ⟨v, by rw [List.getElem?_set_ne (Ne.symm e)]; exact hv, rfl, Nat.le_refl _⟩

theorem runnersLe_append (l m : List Runner) : RunnersLe l (l ++ m) := by
  intro j u h
  exact ⟨u, by rw [List.getElem?_append_left (lt_of_some h)]; exact h, rfl, Nat.le_refl _⟩

/-- The firewall and the runners. -/
structure RInv (f : Firewall.Fw D) (rs : List Runner) : Prop where
  fw : Firewall.Inv f
  valid : ∀ (j : Nat) (u : Runner), rs[j]? = some u → 1 ≤ u.pos → Firewall.keyValid f u.key = true
  called : ∀ (j : Nat) (u : Runner), rs[j]? = some u → 2 ≤ u.pos → ∃ c, f.calls[u.call]? = some c ∧ c.key = u.key ∧
    Firewall.reads c = readsAt u.pos
  owner : ∀ (i : Nat) (c : Firewall.Call), f.calls[i]? = some c → ∃ (j : Nat) (u : Runner), rs[j]? = some u ∧ 2 ≤ u.pos ∧ u.call = i ∧ u.key = c.key
  distinct : ∀ (j : Nat) (u : Runner) (j' : Nat) (u' : Runner), rs[j]? = some u → rs[j']? = some u' → 2 ≤ u.pos → 2 ≤ u'.pos →
    u.call = u'.call → j = j'

theorem keyValid_step {f f' : Firewall.Fw D} {e : Firewall.Ev D} (hs : Firewall.step f e = .ok f') (k : RunKey) :
    Firewall.keyValid f' k = Firewall.keyValid f k :=
  Firewall.keyValid_congr (Firewall.step_conf hs).1 (Firewall.step_conf hs).2 k

/-- A firewall event that no runner takes part in. -/
theorem RInv.fwStep {f f' : Firewall.Fw D} {rs : List Runner} (h : RInv f rs) {e : Firewall.Ev D} (hs : Firewall.step f e = .ok f')
    (ha : ∀ k a, e ≠ .allow k a) (hr : ∀ i, e ≠ .read i) : RInv f' rs := by
  obtain ⟨h1, h2, _⟩ := Firewall.step_reads h.fw hs
  have h2 := h2 ha
  refine ⟨Firewall.inv_step h.fw hs, ?_, ?_, ?_, h.distinct⟩
  · intro j u hu hp
    rw [keyValid_step hs]; exact h.valid j u hu hp
  · intro j u hu hp
    obtain ⟨c, hc, hk, hrd⟩ := h.called j u hu hp
    obtain ⟨c', hc', hk', hrd', _⟩ := h1 _ c hc
    exact ⟨c', hc', hk'.trans hk, (hrd' (hr _)).trans hrd⟩
  · intro i c' hc'
    have hlt : i < f.calls.length := by rw [← h2]; exact lt_of_some hc'
    obtain ⟨c2, hc2, hk2, _⟩ := h1 i _ (List.getElem?_eq_getElem hlt)
    have := Option.some.inj (hc2.symm.trans hc')
    subst this
    obtain ⟨j, u, hu, hp, he, hk⟩ := h.owner i _ (List.getElem?_eq_getElem hlt)
    exact ⟨j, u, hu, hp, he, hk.trans hk2.symm⟩

/-- A runner section that does not touch the firewall. -/
theorem RInv.advance {f : Firewall.Fw D} {rs : List Runner} (h : RInv f rs) {j : Nat} {u u' : Runner} (hu : rs[j]? = some u)
    (hk : u'.key = u.key) (hp : u'.pos = u.pos + 1) (hc : u'.call = u.call) (h1 : u.pos ≠ 1) (hrd : readsAt u'.pos = readsAt u.pos)
    (hv : Firewall.keyValid f u.key = true) : RInv f (rs.set j u') := by
  refine ⟨h.fw, ?_, ?_, ?_, ?_⟩
  · intro i v hv' hpos
    rcases getElem?_set_cases hu hv' with ⟨rfl, rfl⟩ | ⟨_, hv'⟩
    · rw [hk]; exact hv
    · exact h.valid i v hv' hpos
  · intro i v hv' hpos
    rcases getElem?_set_cases hu hv' with ⟨rfl, rfl⟩ | ⟨_, hv'⟩
    · rw [hc, hk, hrd]; exact h.called i u hu (by omega)
    · exact h.called i v hv' hpos
  · intro i c hci
    obtain ⟨j', v, hv', hpos, he, hk'⟩ := h.owner i c hci
    by_cases e : j' = j
    · subst e
      have := Option.some.inj (hv'.symm.trans hu)
      subst this
      exact ⟨j', u', List.getElem?_set_self (lt_of_some hu), by omega, hc.trans he, hk.trans hk'⟩
    · exact ⟨j', v, by rw [List.getElem?_set_ne (Ne.symm e)]; exact hv', hpos, he, hk'⟩
  · intro a v b w hv' hw hpv hpw he
    rcases getElem?_set_cases hu hv' with ⟨rfl, rfl⟩ | ⟨hne, hv2⟩
    · rcases getElem?_set_cases hu hw with ⟨rfl, rfl⟩ | ⟨hne, hw⟩
      · rfl
      · exact h.distinct a u b w hu hw (by omega) hpw (by rw [← hc]; exact he)
    · rcases getElem?_set_cases hu hw with ⟨rfl, rfl⟩ | ⟨_, hw⟩
      · exact h.distinct a v b u hv2 hu hpv (by omega) (by rw [← hc]; exact he)
      · exact h.distinct a v b w hv2 hw hpv hpw he

/-- A runner reads from the firewall. -/
theorem RInv.readObs {f f' : Firewall.Fw D} {rs : List Runner} (h : RInv f rs) {j : Nat} {u u' : Runner} (hu : rs[j]? = some u)
    (hs : Firewall.step f (.read u.call) = .ok f') (hk : u'.key = u.key) (hp : u'.pos = u.pos + 1) (hc : u'.call = u.call)
    (h2 : 2 ≤ u.pos) (hrd : readsAt u'.pos = readsAt u.pos + 1) : RInv f' (rs.set j u') := by
  obtain ⟨g1, g2, _⟩ := Firewall.step_reads h.fw hs
  have g2 := g2 nofun
  have hother : ∀ (i : Nat) (v : Runner), rs[i]? = some v → 2 ≤ v.pos → i ≠ j → Firewall.Ev.read (D := D) u.call ≠ .read v.call := by
    intro i v hv hpv hne e
    injection e with e
    exact hne (h.distinct i v j u hv hu hpv h2 e.symm)
  refine ⟨Firewall.inv_step h.fw hs, ?_, ?_, ?_, ?_⟩
  · intro i v hv' hpos
    rw [keyValid_step hs]
    rcases getElem?_set_cases hu hv' with ⟨rfl, rfl⟩ | ⟨_, hv'⟩
    · rw [hk]; exact h.valid i u hu (by omega)
    · exact h.valid i v hv' hpos
  · intro i v hv' hpos
    rcases getElem?_set_cases hu hv' with ⟨rfl, rfl⟩ | ⟨hne, hv'⟩
    · obtain ⟨c, hcc, hck, hcr⟩ := h.called i u hu h2
      obtain ⟨c', hc', hk', _, hr'⟩ := g1 _ c hcc
      exact ⟨c', by rw [hc]; exact hc', by rw [hk', hck, hk], by rw [hr' rfl, hcr, hrd]⟩
    · obtain ⟨c, hcc, hck, hcr⟩ := h.called i v hv' hpos
      obtain ⟨c', hc', hk', hr', _⟩ := g1 _ c hcc
      exact ⟨c', hc', hk'.trans hck, (hr' (hother i v hv' hpos hne)).trans hcr⟩
  · intro i c' hc'
    have hlt : i < f.calls.length := by rw [← g2]; exact lt_of_some hc'
    obtain ⟨c2, hc2, hk2, _⟩ := g1 i _ (List.getElem?_eq_getElem hlt)
    have := Option.some.inj (hc2.symm.trans hc')
    subst this
    obtain ⟨j', v, hv', hpos, he, hk'⟩ := h.owner i _ (List.getElem?_eq_getElem hlt)
    by_cases e : j' = j
    · subst e
      have := Option.some.inj (hv'.symm.trans hu)
      subst this
      exact ⟨j', u', List.getElem?_set_self (lt_of_some hu), by omega, hc.trans he, (hk.trans hk').trans hk2.symm⟩
    · exact ⟨j', v, by rw [List.getElem?_set_ne (Ne.symm e)]; exact hv', hpos, he, hk'.trans hk2.symm⟩
  · intro a v b w hv' hw hpv hpw he
    rcases getElem?_set_cases hu hv' with ⟨rfl, rfl⟩ | ⟨hne, hv2⟩
    · rcases getElem?_set_cases hu hw with ⟨rfl, rfl⟩ | ⟨hne, hw⟩
      · rfl
      · exact h.distinct a u b w hu hw h2 hpw (by rw [← hc]; exact he)
    · rcases getElem?_set_cases hu hw with ⟨rfl, rfl⟩ | ⟨_, hw⟩
      · exact h.distinct a v b u hv2 hu hpv h2 (by rw [← hc]; exact he)
      · exact h.distinct a v b w hv2 hw hpv hpw he

/-- A runner sets its allowance. -/
theorem RInv.setAllow {f f' : Firewall.Fw D} {rs : List Runner} (h : RInv f rs) {j : Nat} {u u' : Runner} (hu : rs[j]? = some u)
    (hs : Firewall.step f (.allow u.key u.allow) = .ok f') (hk : u'.key = u.key) (hpu : u.pos = 1) (hp : u'.pos = 2)
    (hc : u'.call = f.calls.length) : RInv f' (rs.set j u') := by
  obtain ⟨g1, _, g3⟩ := Firewall.step_reads h.fw hs
  obtain ⟨c0, hcalls, hck0, hcr0⟩ := g3 _ _ rfl
  have hcall : ∀ (i : Nat) (v : Runner), rs[i]? = some v → 2 ≤ v.pos → v.call < f.calls.length := by
    intro i v hv hpv
    obtain ⟨c, hcc, _⟩ := h.called i v hv hpv
    exact lt_of_some hcc
  refine ⟨Firewall.inv_step h.fw hs, ?_, ?_, ?_, ?_⟩
  · intro i v hv' hpos
    rw [keyValid_step hs]
    rcases getElem?_set_cases hu hv' with ⟨rfl, rfl⟩ | ⟨_, hv'⟩
    · rw [hk]; exact h.valid i u hu (by omega)
    · exact h.valid i v hv' hpos
  · intro i v hv' hpos
    rcases getElem?_set_cases hu hv' with ⟨rfl, rfl⟩ | ⟨hne, hv'⟩
    · refine ⟨c0, by rw [hcalls, hc]; simp, hck0.trans hk.symm, ?_⟩
      rw [hcr0, hp]; rfl
    · obtain ⟨c, hcc, hck, hcr⟩ := h.called i v hv' hpos
      obtain ⟨c', hc', hk', hr', _⟩ := g1 _ c hcc
      exact ⟨c', hc', hk'.trans hck, (hr' nofun).trans hcr⟩
  · intro i c' hc'
    rw [hcalls] at hc'
    rcases Firewall.getElem?_concat_some hc' with ⟨rfl, rfl⟩ | ⟨hlt, hci⟩
    · exact ⟨j, u', List.getElem?_set_self (lt_of_some hu), by omega, hc, by rw [hk, hck0]⟩
    · obtain ⟨j', v, hv', hpos, he, hk'⟩ := h.owner i _ hci
      have hne : j' ≠ j := by
        rintro rfl
        have := Option.some.inj (hv'.symm.trans hu)
        subst this
        omega
      exact ⟨j', v, by rw [List.getElem?_set_ne (Ne.symm hne)]; exact hv', hpos, he, hk'⟩
  · intro a v b w hv' hw hpv hpw he
    rcases getElem?_set_cases hu hv' with ⟨rfl, rfl⟩ | ⟨hne, hv2⟩
    · rcases getElem?_set_cases hu hw with ⟨rfl, rfl⟩ | ⟨hne, hw⟩
      · rfl
      · have := hcall b w hw hpw
        omega
    · rcases getElem?_set_cases hu hw with ⟨rfl, rfl⟩ | ⟨_, hw⟩
      · have := hcall a v hv2 hpv
        omega
      · exact h.distinct a v b w hv2 hw hpv hpw he

theorem RInv.launch {f : Firewall.Fw D} {rs : List Runner} (h : RInv f rs) (k : RunKey) (a : Firewall.Allowance) :
    RInv f (rs ++ [⟨k, a, 0, 0, 0⟩]) := by
  have old : ∀ (j : Nat) (u : Runner), (rs ++ [⟨k, a, 0, 0, 0⟩])[j]? = some u → 1 ≤ u.pos → rs[j]? = some u := by
    intro j u hu hp
    rcases Firewall.getElem?_concat_some hu with ⟨_, rfl⟩ | ⟨_, hu⟩
    · cases hp
    · exact hu
  refine ⟨h.fw, ?_, ?_, ?_, ?_⟩
  · intro j u hu hp; exact h.valid j u (old j u hu hp) hp
  · intro j u hu hp; exact h.called j u (old j u hu (by omega)) hp
  · intro i c hc
    obtain ⟨j, u, hu, hp, he, hk⟩ := h.owner i c hc
    exact ⟨j, u, Firewall.getElem?_concat_old _ hu, hp, he, hk⟩
  · intro j u j' u' hu hu' hp hp' he
    exact h.distinct j u j' u' (old j u hu (by omega)) (old j' u' hu' (by omega)) hp hp' he

/-- When a runner has read three values, and no other runner has the same key, the firewall is closed for its run. -/
theorem RInv.closed {f : Firewall.Fw D} {rs : List Runner} (h : RInv f rs) {j : Nat} {u : Runner} (hu : rs[j]? = some u)
    (hp : 8 ≤ u.pos) (huniq : ∀ (j' : Nat) (u' : Runner), rs[j']? = some u' → u'.key = u.key → j' = j) : f.state.get? u.key = none := by
  cases hst : f.state.get? u.key with
  | none => rfl
  | some v =>
    exfalso
    obtain ⟨i, c, hact, hck⟩ := h.fw.stated _ _ hst
    obtain ⟨j', u', hu', hp', he, hk'⟩ := h.owner i c hact.1
    have := huniq j' u' hu' (hk'.trans hck)
    subst this
    have := Option.some.inj (hu'.symm.trans hu)
    subst this
    obtain ⟨c2, hc2, _, hrd⟩ := h.called j' u' hu hp'
    rw [he] at hc2
    have := Option.some.inj (hc2.symm.trans hact.1)
    subst this
    have hlt := hact.2.2
    have : readsAt u'.pos = 3 := by
      rw [readsAt, if_neg (by omega), if_neg (by omega), if_neg (by omega)]
    rw [this, Firewall.reads] at hrd
    omega

end Verif.Node
