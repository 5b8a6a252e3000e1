import Verif.Proofs.Node

/-! Queues, signals and deletions in a node. -/
namespace Verif.Registry

/-- How an event changes the registry and the log. -/
theorem step_frame {s s' : Reg} {e : Ev} (hs : step s e = .ok s') :
    (∀ k, e ≠ .ensure k → e ≠ .delete k → s'.runs.get? k = s.runs.get? k) ∧
    (∀ k, e = .delete k → s'.runs.get? k = none) ∧
    (∃ add, s'.log = s.log ++ add ∧ (∀ k, Entry.deleted k ∈ add → e = .delete k) ∧
      (∀ k r, Entry.created k r ∈ add → e = .ensure k) ∧ add.length ≤ 1) := by
  have same : ∀ t : Reg, t.runs = s.runs → t.log = s.log → (∀ k, e ≠ .delete k) →
      (∀ k, e ≠ .ensure k → e ≠ .delete k → t.runs.get? k = s.runs.get? k) ∧
      (∀ k, e = .delete k → t.runs.get? k = none) ∧
      (∃ add, t.log = s.log ++ add ∧ (∀ k, Entry.deleted k ∈ add → e = .delete k) ∧
        (∀ k r, Entry.created k r ∈ add → e = .ensure k) ∧ add.length ≤ 1) := by
    intro t h1 h2 h3
    exact ⟨fun k _ _ => by rw [h1], fun k x => absurd x (h3 k), [], by rw [h2, List.append_nil], by simp, by simp, by simp⟩
  cases e with
  | obs k => have := Outcome.ok.inj hs; subst this; exact same _ rfl rfl nofun
  | recv c =>
    rw [step, recv] at hs
    cases hc : s.chans[c]? with
    | none => rw [hc] at hs; cases hs
    | some ch =>
      rw [hc] at hs
      dsimp only at hs
      by_cases h1 : 0 < ch.unread
      · rw [if_pos h1] at hs
        have := Outcome.ok.inj hs
        subst this; exact same _ rfl rfl nofun
      · rw [if_neg h1] at hs
        by_cases h2 : ch.closed = true
        · rw [if_pos h2] at hs
          have := Outcome.ok.inj hs
          subst this; exact same _ rfl rfl nofun
        · rw [if_neg h2] at hs; cases hs
  | ensure k =>
    have := Outcome.ok.inj hs
    subst this
    rw [ensure]
    cases hk : s.runs.get? k with
    | some r => exact same _ rfl rfl nofun
    | none =>
      refine ⟨?_, nofun, [.created k s.objs.length], rfl, by simp, ?_, by simp⟩
      · intro k' h1 _
        dsimp only
        rw [GoMap.get?_set, if_neg]
        rintro rfl; exact h1 rfl
      · intro k' r hm
        rw [List.mem_singleton] at hm
        injection hm with e1 e2
        rw [e1]
  | delete k =>
    have := Outcome.ok.inj hs
    subst this
    rw [delete]
    refine ⟨?_, ?_, [.deleted k], rfl, ?_, by simp, by simp⟩
    · intro k' _ h2
      dsimp only
      rw [GoMap.get?_delete, if_neg]
      rintro rfl; exact h2 rfl
    · intro k' e
      injection e with e
      subst e
      dsimp only
      rw [GoMap.get?_delete, if_pos rfl]
    · intro k' hm
      rw [List.mem_singleton] at hm
      injection hm with e1
      rw [e1]
  | finish r =>
    rw [step, finish] at hs
    cases ho : s.objs[r]? with
    | none => rw [ho] at hs; cases hs
    | some o =>
      rw [ho] at hs
      dsimp only at hs
      by_cases hlt : o.ended < o.started
      · rw [if_pos hlt] at hs
        have := Outcome.ok.inj hs
        subst this; exact same _ rfl rfl nofun
      · rw [if_neg hlt] at hs; cases hs
  | task i =>
    rw [step, taskStep] at hs
    cases hi : s.tasks[i]? with
    | none => rw [hi] at hs; cases hs
    | some t =>
      rw [hi] at hs
      cases t with
      | look k c =>
        dsimp only at hs
        cases hk : s.runs.get? k <;> (rw [hk] at hs; have := Outcome.ok.inj hs; subst this; exact same _ rfl rfl nofun)
      | read k c r =>
        dsimp only at hs
        cases ho : s.objs[r]? with
        | none => rw [ho] at hs; cases hs
        | some o =>
          rw [ho] at hs
          dsimp only at hs
          by_cases hterm : o.terminated = true
          · rw [if_pos hterm] at hs
            have := Outcome.ok.inj hs
            subst this; exact same _ rfl rfl nofun
          · rw [if_neg hterm] at hs
            have := Outcome.ok.inj hs
            subst this; exact same _ rfl rfl nofun
      | update k => have := Outcome.ok.inj hs; subst this; exact same _ rfl rfl nofun
      | notify cs =>
        cases cs with
        | nil => have := Outcome.ok.inj hs; subst this; exact same _ rfl rfl nofun
        | cons c cs =>
          dsimp only at hs
          cases hc : s.chans[c]? with
          | none => rw [hc] at hs; cases hs
          | some ch =>
            rw [hc] at hs
            dsimp only at hs
            by_cases hcl : ch.closed = true
            · rw [if_pos hcl] at hs; cases hs
            · rw [if_neg hcl] at hs
              by_cases hu : ch.unread < 1
              · rw [if_pos hu] at hs
                have := Outcome.ok.inj hs
                subst this; exact same _ rfl rfl nofun
              · rw [if_neg hu] at hs; cases hs
      | closing c cs =>
        dsimp only at hs
        cases hc : s.chans[c]? with
        | none => rw [hc] at hs; cases hs
        | some ch =>
          rw [hc] at hs
          dsimp only at hs
          by_cases hcl : ch.closed = true
          · rw [if_pos hcl] at hs; cases hs
          · rw [if_neg hcl] at hs
            have := Outcome.ok.inj hs
            subst this; exact same _ rfl rfl nofun
      | start r =>
        dsimp only at hs
        cases ho : s.objs[r]? with
        | none => rw [ho] at hs; cases hs
        | some o =>
          rw [ho] at hs
          have := Outcome.ok.inj hs
          subst this
          exact ⟨fun _ _ _ => rfl, nofun, [.started r], rfl, by simp, by simp, by simp⟩

end Verif.Registry

namespace Verif.Node
open Verif.Registry (getElem?_set_cases lt_of_some)
variable {D : Type}

/-- The run that a message is about: the signal to delete a run has the negated protocol code. -/
def target (m : Message D) : RunKey := ⟨if m.pc < 0 then -m.pc else m.pc, m.rcpt, m.runId⟩

theorem target_nonneg {m : Message D} (h : ¬ m.pc < 0) : target m = m.key := by rw [target, if_neg h]; rfl

theorem target_neg {m : Message D} (h : m.pc < 0) : target m = ⟨-m.pc, m.rcpt, m.runId⟩ := by rw [target, if_pos h]

/-- The message that a consumer has taken and not yet dealt with. -/
def held : Cons D → List (Message D)
  | .got m => [m]
  | _ => []

/-- The messages of a queue not yet dealt with. -/
def seq (s : Sys D) (q : Int × Int) : List (Message D) := held (s.cons q) ++ s.queues q

theorem receiveMsg_eq (s : Sys D) (m : Message D) :
    ∃ qs, receiveMsg s m = { s with queues := qs } ∧
      ∀ p, ∃ add, qs p = s.queues p ++ add ∧ ∀ x ∈ add, x = m ∧ p = (m.pc, m.rcpt) := by
  rw [receiveMsg]
  by_cases h1 : (!(decide (0 ≤ m.op) && decide (m.op < s.stages m.pc))) = true
  · rw [if_pos h1]; exact ⟨s.queues, rfl, fun p => ⟨[], by simp, by simp⟩⟩
  · rw [if_neg h1]
    by_cases h2 : (s.queues (m.pc, m.rcpt)).length < rcvBufMax
    · rw [if_pos h2]
      refine ⟨_, rfl, fun p => ?_⟩
      rw [update]
      by_cases e : p = (m.pc, m.rcpt)
      · rw [if_pos e]; exact ⟨[m], by rw [e], by simp [e]⟩
      · rw [if_neg e]; exact ⟨[], by simp, by simp⟩
    · rw [if_neg h2]; exact ⟨s.queues, rfl, fun p => ⟨[], by simp, by simp⟩⟩

theorem foldl_receiveMsg (s : Sys D) (ms : List (Message D)) :
    ∃ qs, ms.foldl receiveMsg s = { s with queues := qs } ∧
      ∀ p, ∃ add, qs p = s.queues p ++ add ∧ ∀ x ∈ add, x ∈ ms ∧ p = (x.pc, x.rcpt) := by
  induction ms generalizing s with
  | nil => exact ⟨s.queues, rfl, fun p => ⟨[], by simp, by simp⟩⟩
  | cons m ms ih =>
    rw [List.foldl_cons]
    obtain ⟨qs, h1, h2⟩ := receiveMsg_eq s m
    obtain ⟨qs', h3, h4⟩ := ih (receiveMsg s m)
    refine ⟨qs', by rw [h3, h1], fun p => ?_⟩
    obtain ⟨a, ha, hx⟩ := h2 p
    obtain ⟨b, hb, hy⟩ := h4 p
    rw [h1] at hb
    dsimp only at hb
    refine ⟨a ++ b, by rw [hb, ha, List.append_assoc], ?_⟩
    intro x hxm
    rw [List.mem_append] at hxm
    rcases hxm with hxm | hxm
    · obtain ⟨e1, e2⟩ := hx x hxm
      subst e1
      exact ⟨by simp, e2⟩
    · obtain ⟨e1, e2⟩ := hy x hxm
      exact ⟨by simp [e1], e2⟩

/-- What a firewall event does to a node. -/
theorem fwEvent_eq {s s' : Sys D} (hf : Firewall.Inv s.fw) {e : Firewall.Ev D} (hs : fwEvent s e = .ok s') :
    ∃ f' qs, Firewall.step s.fw e = .ok f' ∧ s' = { s with fw := f', queues := qs } ∧
      (∀ p, ∃ add, qs p = s.queues p ++ add ∧ ∀ x ∈ add, p = (x.pc, x.rcpt) ∧ Firewall.keyValid s.fw x.key = true ∧
        ∀ k, s.fw.state.get? k = none → (∀ a, e ≠ .allow k a) → x.key ≠ k) ∧
      ∀ k, s.fw.state.get? k = none → (∀ a, e ≠ .allow k a) → f'.state.get? k = none := by
  rw [fwEvent, Outcome.bind_eq_ok] at hs
  obtain ⟨f', hstep, hs⟩ := hs
  have hs := (Outcome.ok.inj hs).symm
  obtain ⟨new, ho, hv, hcl⟩ := Firewall.step_out hf hstep
  have hd : f'.out.drop s.fw.out.length = new := by rw [ho]; simp
  rw [hd] at hs
  obtain ⟨qs, h1, h2⟩ := foldl_receiveMsg { s with fw := f' } new
  refine ⟨f', qs, hstep, by rw [hs, h1], fun p => ?_, fun k hk hn => (hcl k hk hn).1⟩
  obtain ⟨add, ha, hx⟩ := h2 p
  refine ⟨add, ha, fun x hxm => ?_⟩
  obtain ⟨hm, hp⟩ := hx x hxm
  exact ⟨hp, hv x hm, fun k hk hn => (hcl k hk hn).2 x hm⟩

theorem keyValid_nonneg {f : Firewall.Fw D} {k : RunKey} (h : Firewall.keyValid f k = true) : 0 ≤ k.pc := by
  rw [Firewall.keyValid, Bool.and_eq_true, Bool.and_eq_true, decide_eq_true_eq] at h
  exact h.1.1

structure QInv (s : Sys D) : Prop where
  at_ : ∀ q, ∀ m ∈ seq s q, Firewall.keyValid s.fw (target m) = true ∧ q = ((target m).pc, (target m).gidx)
  sig : ∀ q, ∀ m ∈ seq s q, m.pc < 0 → ∃ u ∈ s.runners, 9 ≤ u.pos ∧ u.key = target m
  del : ∀ k, Registry.Entry.deleted k ∈ s.reg.log → 0 < k.pc ∧ ∃ u ∈ s.runners, 9 ≤ u.pos ∧ u.key = k

/-- Some runner for `k` has sent the signal. -/
def Sent (s : Sys D) (k : RunKey) : Prop := ∃ u ∈ s.runners, 9 ≤ u.pos ∧ u.key = k

theorem Sent.mono {s s' : Sys D} (h : RunnersLe s.runners s'.runners) {k : RunKey} (hs : Sent s k) : Sent s' k := by
  obtain ⟨u, hu, hp, hk⟩ := hs
  obtain ⟨j, hj⟩ := List.mem_iff_getElem?.1 hu
  obtain ⟨u', hu', hk', hp'⟩ := h j u hj
  exact ⟨u', List.mem_iff_getElem?.2 ⟨j, hu'⟩, by omega, hk'.trans hk⟩

theorem QInv.step {s s' : Sys D} (h : QInv s) (hv : ∀ k, Firewall.keyValid s'.fw k = Firewall.keyValid s.fw k)
    (hr : RunnersLe s.runners s'.runners)
    (hseq : ∀ q, ∀ m ∈ seq s' q, m ∈ seq s q ∨ (Firewall.keyValid s.fw (target m) = true ∧ q = ((target m).pc, (target m).gidx) ∧
      (m.pc < 0 → Sent s' (target m))))
    (hlog : ∀ k, Registry.Entry.deleted k ∈ s'.reg.log → Registry.Entry.deleted k ∈ s.reg.log ∨ (0 < k.pc ∧ Sent s' k)) : QInv s' := by
  refine ⟨?_, ?_, ?_⟩
  · intro q m hm
    rw [hv]
    rcases hseq q m hm with hm | ⟨h1, h2, _⟩
    · exact h.at_ q m hm
    · exact ⟨h1, h2⟩
  · intro q m hm hn
    rcases hseq q m hm with hm | ⟨_, _, h3⟩
    · exact Sent.mono hr (h.sig q m hm hn)
    · exact h3 hn
  · intro k hk
    rcases hlog k hk with hk | hk
    · obtain ⟨h1, h2⟩ := h.del k hk
      exact ⟨h1, Sent.mono hr h2⟩
    · exact hk

/-- The signal for `k` is on its way, behind everything that was let through for the run. -/
def Pending (k : RunKey) (s : Sys D) : Prop :=
  Registry.Entry.deleted k ∉ s.reg.log ∧ ∃ pre m post, seq s (k.pc, k.gidx) = pre ++ m :: post ∧ m.pc < 0 ∧ target m = k ∧
    (∀ x ∈ pre, x.pc < 0 → target x ≠ k) ∧ ∀ x ∈ post, target x ≠ k

/-- The run is gone, and nothing is on its way. -/
def Gone (k : RunKey) (s : Sys D) : Prop := s.reg.runs.get? k = none ∧ ∀ x ∈ seq s (k.pc, k.gidx), target x ≠ k

/-- What is true once the signal for `k` has been sent. -/
def KInv (k : RunKey) (s : Sys D) : Prop := Sent s k → s.fw.state.get? k = none ∧ (Pending k s ∨ Gone k s)

/-- Changes that do not matter for `k`. -/
theorem KInv.frame {k : RunKey} {s s' : Sys D} (h : KInv k s) (hs : Sent s' k → Sent s k)
    (hst : Sent s k → s.fw.state.get? k = none → s'.fw.state.get? k = none)
    (hlog : Registry.Entry.deleted k ∈ s'.reg.log → Registry.Entry.deleted k ∈ s.reg.log)
    (hrun : Sent s k → s'.reg.runs.get? k = s.reg.runs.get? k)
    (hseq : Sent s k → s.fw.state.get? k = none →
      ∃ add, seq s' (k.pc, k.gidx) = seq s (k.pc, k.gidx) ++ add ∧ ∀ x ∈ add, target x ≠ k) : KInv k s' := by
  intro hsent
  have h0 := hs hsent
  obtain ⟨h1, h2⟩ := h h0
  obtain ⟨add, ha, hx⟩ := hseq h0 h1
  refine ⟨hst h0 h1, ?_⟩
  rcases h2 with ⟨hd, pre, m, post, e, hm, ht, hpre, hpost⟩ | ⟨hr, hall⟩
  · left
    refine ⟨fun x => hd (hlog x), pre, m, post ++ add, by rw [ha, e]; simp, hm, ht, hpre, ?_⟩
    intro x hxm
    rw [List.mem_append] at hxm
    exact hxm.elim (hpost x) (hx x)
  · right
    refine ⟨by rw [hrun h0]; exact hr, ?_⟩
    intro x hxm
    rw [ha, List.mem_append] at hxm
    exact hxm.elim (hall x) (hx x)

/-- Nothing recreates run `k` after its deletion. -/
def Dead (k : RunKey) (l : List Registry.Entry) : Prop :=
  ∀ l1 l2 r, l = l1 ++ .deleted k :: l2 → Registry.Entry.created k r ∉ l2

theorem Dead.append {k : RunKey} {l add : List Registry.Entry} (h : Dead k l) (hlen : add.length ≤ 1)
    (hc : ∀ r, Registry.Entry.created k r ∈ add → Registry.Entry.deleted k ∉ l) : Dead k (l ++ add) := by
  cases add with
  | nil => rw [List.append_nil]; exact h
  | cons x add =>
    have : add = [] := by
      rw [List.length_cons] at hlen
      exact List.length_eq_zero_iff.1 (by omega)
    subst this
    intro l1 l2 r e hm
    rcases Registry.snoc_split e with ⟨_, _, rfl⟩ | ⟨l2', rfl, e'⟩
    · cases hm
    · rw [List.mem_append, List.mem_singleton] at hm
      rcases hm with hm | hm
      · exact h l1 l2' r e' hm
      · refine hc r (by rw [hm]; simp) ?_
        rw [e']; simp

/-- At most one runner is for `k`. -/
def Uniq (k : RunKey) (rs : List Runner) : Prop :=
  ∀ (j : Nat) (u : Runner) (j' : Nat) (u' : Runner), rs[j]? = some u → rs[j']? = some u' → u.key = k → u'.key = k → j = j'

theorem Uniq.mono {k : RunKey} {rs rs' : List Runner} (hle : RunnersLe rs rs') (h : Uniq k rs') : Uniq k rs := by
  intro j u j' u' hu hu' hk hk'
  obtain ⟨v, hv, hvk, _⟩ := hle j u hu
  obtain ⟨v', hv', hvk', _⟩ := hle j' u' hu'
  exact h j v j' v' hv hv' (hvk.trans hk) (hvk'.trans hk')

theorem Uniq.not_sent {s : Sys D} {j : Nat} {u : Runner} (h : Uniq u.key s.runners) (hu : s.runners[j]? = some u) (hp : u.pos < 9) :
    ¬ Sent s u.key := by
  rintro ⟨v, hv, hp', hk⟩
  obtain ⟨j', hj'⟩ := List.mem_iff_getElem?.1 hv
  have := h j u j' v hu hj' rfl hk
  subst this
  have := Option.some.inj (hu.symm.trans hj')
  subst this
  omega

/-- A node as seen from run `k`. -/
structure Good (k : RunKey) (s : Sys D) : Prop where
  r : RInv s.fw s.runners
  q : QInv s
  k : 0 < k.pc → Uniq k s.runners → KInv k s ∧ Dead k s.reg.log

theorem good_make (k : RunKey) (stages : Int → Nat) (nil : D) (nprots : Nat) (guests : Int → Bool) (du now : Int) :
    Good k (make stages nil nprots guests du now) := by
  refine ⟨⟨Firewall.inv_make nprots guests du now, ?_, ?_, ?_, ?_⟩, ⟨?_, ?_, ?_⟩, ?_⟩
  · intro j u hu; cases hu
  · intro j u hu; cases hu
  · intro i c hc; cases hc
  · intro j u j' u' hu; cases hu
  · intro q m hm; cases hm
  · intro q m hm; cases hm
  · intro k hk; cases hk
  · intro _ _
    refine ⟨?_, ?_⟩
    · rintro ⟨u, hu, _⟩; cases hu
    · intro l1 l2 r e
      exact absurd (congrArg List.length e) (by simp [make, Registry.init])

theorem good_fw {k : RunKey} {s s' : Sys D} {rs : List Runner} {e : Firewall.Ev D} (h : Good k s) (hle : RunnersLe s.runners rs)
    (hsent : ∀ u ∈ rs, 9 ≤ u.pos → u.key = k → Sent s k) (hR : ∀ f', Firewall.step s.fw e = .ok f' → RInv f' rs)
    (hs : fwEvent { s with runners := rs } e = .ok s') (hallow : ∀ a, e = .allow k a → Uniq k rs → ¬ Sent s k) : Good k s' := by
  obtain ⟨f', qs, hstep, rfl, hqs, hcl⟩ := fwEvent_eq (s := { s with runners := rs }) h.r.fw hs
  dsimp only at hstep hqs hcl
  refine ⟨hR f' hstep, ?_, ?_⟩
  · refine h.q.step (fun k => keyValid_step hstep k) hle ?_ (fun k hk => .inl hk)
    intro q m hm
    rw [seq] at hm
    dsimp only at hm
    obtain ⟨add, ha, hx⟩ := hqs q
    rw [ha, ← List.append_assoc, List.mem_append] at hm
    rcases hm with hm | hm
    · exact .inl hm
    · obtain ⟨h1, h2, _⟩ := hx m hm
      have hn : ¬ m.pc < 0 := by have := keyValid_nonneg h2; exact Int.not_lt.2 this
      right
      rw [target_nonneg hn]
      exact ⟨h2, h1, fun x => absurd x hn⟩
  · intro hpc hu
    have hu0 := hu.mono hle
    obtain ⟨hK, hD⟩ := h.k hpc hu0
    refine ⟨?_, hD⟩
    refine hK.frame ?_ ?_ id (fun _ => rfl) ?_
    · rintro ⟨u, hm, hp, hk⟩; exact hsent u hm hp hk
    · intro hS hn; exact hcl k hn (fun a e => hallow a e hu hS)
    · intro hS hn
      obtain ⟨add, ha, hx⟩ := hqs (k.pc, k.gidx)
      refine ⟨add, by rw [seq]; dsimp only; rw [ha, ← List.append_assoc]; rfl, fun x hxm => ?_⟩
      obtain ⟨_, h2, h3⟩ := hx x hxm
      have hn' : ¬ x.pc < 0 := by have := keyValid_nonneg h2; exact Int.not_lt.2 this
      rw [target_nonneg hn']
      exact h3 k hn (fun a e => hallow a e hu hS)

theorem good_reg {k : RunKey} {s : Sys D} {rs : List Runner} {e : Registry.Ev} {r : Registry.Reg} (h : Good k s)
    (hle : RunnersLe s.runners rs) (hsent : ∀ u ∈ rs, 9 ≤ u.pos → u.key = k → Sent s k) (hR : RInv s.fw rs)
    (hs : Registry.step s.reg e = .ok r) (hd : ∀ k', e ≠ .delete k') (hens : e = .ensure k → Uniq k rs → ¬ Sent s k) :
    Good k { s with runners := rs, reg := r } := by
  obtain ⟨h1, _, add, ha, hdel, hcr, hlen⟩ := Registry.step_frame hs
  have hlog : ∀ k', Registry.Entry.deleted k' ∈ r.log → Registry.Entry.deleted k' ∈ s.reg.log := by
    intro k' hm
    rw [ha, List.mem_append] at hm
    exact hm.elim id fun x => absurd (hdel k' x) (hd k')
  refine ⟨hR, ?_, ?_⟩
  · exact h.q.step (fun _ => rfl) hle (fun q m hm => .inl hm) (fun k' hk' => .inl (hlog k' hk'))
  · intro hpc hu
    obtain ⟨hK, hD⟩ := h.k hpc (hu.mono hle)
    refine ⟨?_, ?_⟩
    · refine hK.frame ?_ (fun _ x => x) (hlog k) ?_ (fun _ _ => ⟨[], by rw [List.append_nil]; rfl, by simp⟩)
      · rintro ⟨u, hm, hp, hk⟩; exact hsent u hm hp hk
      · intro hS
        exact h1 k (fun e => hens e hu hS) (hd k)
    · dsimp only
      rw [ha]
      refine hD.append hlen fun r' hm hdl => ?_
      exact hens (hcr k r' hm) hu (h.q.del k hdl).2

theorem sent_set {k : RunKey} {s : Sys D} {j : Nat} {u u' : Runner} (hu : s.runners[j]? = some u) (hp : u'.pos ≤ 8) :
    ∀ v ∈ s.runners.set j u', 9 ≤ v.pos → v.key = k → Sent s k := by
  intro v hv h9 hk
  obtain ⟨i, hi⟩ := List.mem_iff_getElem?.1 hv
  rcases getElem?_set_cases hu hi with ⟨rfl, rfl⟩ | ⟨_, hi⟩
  · omega
  · exact ⟨v, List.mem_iff_getElem?.2 ⟨i, hi⟩, h9, hk⟩

theorem seq_update_ne {s : Sys D} {q p : Int × Int} {c : Cons D} {ms : List (Message D)} (h : p ≠ q) :
    seq { s with queues := update s.queues q ms, cons := update s.cons q c } p = seq s p := by
  simp only [seq, update, if_neg h]

theorem good_same {k : RunKey} {s : Sys D} (h : Good k s) {qs : Int × Int → List (Message D)} {cs : Int × Int → Cons D}
    (hseq : ∀ q, seq { s with queues := qs, cons := cs } q = seq s q) : Good k { s with queues := qs, cons := cs } := by
  refine ⟨h.r, ?_, ?_⟩
  · exact h.q.step (fun _ => rfl) (.refl _) (fun q m hm => .inl (by rw [hseq] at hm; exact hm)) (fun _ hk => .inl hk)
  · intro hpc hu
    obtain ⟨hK, hD⟩ := h.k hpc hu
    exact ⟨hK.frame id (fun _ x => x) id (fun _ => rfl) (fun _ _ => ⟨[], by rw [List.append_nil]; exact hseq _, by simp⟩), hD⟩

theorem good_consume {k : RunKey} {s s' : Sys D} (h : Good k s) {q : Int × Int} (hs : consume s q = .ok s') : Good k s' := by
  rw [consume] at hs
  cases hc : s.cons q with
  | idle =>
    rw [hc] at hs
    dsimp only at hs
    cases hq : s.queues q with
    | nil => rw [hq] at hs; cases hs
    | cons m ms =>
      rw [hq] at hs
      have := Outcome.ok.inj hs
      subst this
      refine good_same h fun p => ?_
      by_cases e : p = q
      · subst e
        simp only [seq, update, if_pos, hc, hq, held]
        rfl
      · exact seq_update_ne e
  | found m =>
    rw [hc] at hs
    have := Outcome.ok.inj hs
    subst this
    refine good_same (qs := s.queues) h fun p => ?_
    by_cases e : p = q
    · subst e
      simp only [seq, update, if_pos, hc, held]
    · simp only [seq, update, if_neg e]
  | got m =>
    rw [hc] at hs
    dsimp only at hs
    have hseq : seq s q = m :: s.queues q := by rw [seq, hc]; rfl
    have hmem : m ∈ seq s q := by rw [hseq]; simp
    obtain ⟨hvalid, hqm⟩ := h.q.at_ q m hmem
    by_cases hn : m.pc < 0
    · rw [if_pos hn, ← target_neg hn, regEventAt] at hs
      dsimp only at hs
      rw [if_pos hvalid, regEvent, Outcome.bind_eq_ok] at hs
      obtain ⟨r, hr, hs⟩ := hs
      have := Outcome.ok.inj hs
      subst this
      obtain ⟨h1, h2, add, ha, hdel, hcr, hlen⟩ := Registry.step_frame hr
      dsimp only at h1 h2 ha
      have hsentm := h.q.sig q m hmem hn
      have hsq : ∀ p, p ≠ q → held ((update s.cons q Cons.idle) p) ++ s.queues p = seq s p := by
        intro p e; simp only [seq, update, if_neg e]
      have hsq' : held ((update s.cons q Cons.idle) q) ++ s.queues q = s.queues q := by
        simp only [update, if_pos, held]; rfl
      refine ⟨h.r, ?_, ?_⟩
      · refine h.q.step (fun _ => rfl) (.refl _) ?_ ?_
        · intro p x hx
          left
          rw [seq] at hx
          dsimp only at hx
          by_cases e : p = q
          · subst e; rw [hsq'] at hx; rw [hseq]; exact List.mem_cons_of_mem _ hx
          · rw [hsq p e] at hx; exact hx
        · intro k' hk'
          dsimp only at hk'
          rw [ha, List.mem_append] at hk'
          rcases hk' with hk' | hk'
          · exact .inl hk'
          · have := hdel k' hk'
            injection this with this
            right
            refine ⟨?_, ?_⟩
            · rw [← this, target_neg hn]; dsimp only; omega
            · rw [← this]; exact hsentm
      · intro hpc hu
        obtain ⟨hK, hD⟩ := h.k hpc hu
        refine ⟨?_, ?_⟩
        · intro hS
          obtain ⟨hst, hPG⟩ := hK hS
          refine ⟨hst, ?_⟩
          by_cases hkm : target m = k
          · right
            have hq : q = (k.pc, k.gidx) := by rw [hqm, hkm]
            refine ⟨h2 k (by rw [hkm]), ?_⟩
            rw [seq]
            dsimp only
            rw [← hq, hsq']
            rcases hPG with ⟨_, pre, m', post, e, _, _, hpre, hpost⟩ | ⟨_, hall⟩
            · rw [← hq, hseq] at e
              cases pre with
              | nil =>
                rw [List.nil_append] at e
                injection e with e1 e2
                rw [e2]; exact hpost
              | cons x pre =>
                rw [List.cons_append] at e
                injection e with e1 e2
                subst e1
                exact absurd hkm (hpre m (by simp) hn)
            · rw [← hq] at hall
              exact absurd hkm (hall m hmem)
          · have hne : Registry.Ev.delete (target m) ≠ .delete k := fun e => hkm (by injection e)
            rcases hPG with ⟨hd, pre, m', post, e, hm', ht', hpre, hpost⟩ | ⟨hrun, hall⟩
            · left
              refine ⟨?_, ?_⟩
              · dsimp only
                rw [ha, List.mem_append, not_or]
                exact ⟨hd, fun x => hne (hdel k x)⟩
              · rw [seq]
                dsimp only
                by_cases hq : (k.pc, k.gidx) = q
                · rw [hq, hseq] at e
                  rw [hq, hsq']
                  cases pre with
                  | nil =>
                    rw [List.nil_append] at e
                    injection e with e1 e2
                    subst e1
                    exact absurd ht' hkm
                  | cons x pre =>
                    rw [List.cons_append] at e
                    injection e with e1 e2
                    exact ⟨pre, m', post, e2, hm', ht', fun y hy => hpre y (List.mem_cons_of_mem _ hy), hpost⟩
                · rw [hsq _ hq]
                  exact ⟨pre, m', post, e, hm', ht', hpre, hpost⟩
            · right
              refine ⟨by dsimp only; rw [h1 k nofun hne]; exact hrun, ?_⟩
              rw [seq]
              dsimp only
              by_cases hq : (k.pc, k.gidx) = q
              · rw [hq, hsq']
                intro x hx
                refine hall x ?_
                rw [hq, hseq]; exact List.mem_cons_of_mem _ hx
              · rw [hsq _ hq]; exact hall
        · dsimp only
          rw [ha]
          refine hD.append hlen fun r' hm _ => ?_
          cases hcr k r' hm
    · rw [if_neg hn, ← target_nonneg hn, regEventAt] at hs
      dsimp only at hs
      rw [if_pos hvalid, regEvent, Outcome.bind_eq_ok] at hs
      obtain ⟨r, hr, hs⟩ := hs
      have := Outcome.ok.inj hs
      subst this
      obtain ⟨h1, _, add, ha, hdel, hcr, hlen⟩ := Registry.step_frame hr
      dsimp only at h1 ha
      have hsq : ∀ p, p ≠ q → held ((update s.cons q (Cons.found m)) p) ++ s.queues p = seq s p := by
        intro p e; simp only [seq, update, if_neg e]
      have hsq' : held ((update s.cons q (Cons.found m)) q) ++ s.queues q = s.queues q := by
        simp only [update, if_pos, held]; rfl
      have hlog : ∀ k', Registry.Entry.deleted k' ∈ r.log → Registry.Entry.deleted k' ∈ s.reg.log := by
        intro k' hm
        rw [ha, List.mem_append] at hm
        exact hm.elim id fun x => nomatch hdel k' x
      refine ⟨h.r, ?_, ?_⟩
      · refine h.q.step (fun _ => rfl) (.refl _) ?_ (fun k' hk' => .inl (hlog k' hk'))
        intro p x hx
        left
        rw [seq] at hx
        dsimp only at hx
        by_cases e : p = q
        · subst e; rw [hsq'] at hx; rw [hseq]; exact List.mem_cons_of_mem _ hx
        · rw [hsq p e] at hx; exact hx
      · intro hpc hu
        obtain ⟨hK, hD⟩ := h.k hpc hu
        refine ⟨?_, ?_⟩
        · intro hS
          obtain ⟨hst, hPG⟩ := hK hS
          refine ⟨hst, ?_⟩
          rcases hPG with ⟨hd, pre, m', post, e, hm', ht', hpre, hpost⟩ | ⟨hrun, hall⟩
          · left
            refine ⟨fun x => hd (hlog k x), ?_⟩
            rw [seq]
            dsimp only
            by_cases hq : (k.pc, k.gidx) = q
            · rw [hq, hseq] at e
              rw [hq, hsq']
              cases pre with
              | nil =>
                rw [List.nil_append] at e
                injection e with e1 e2
                subst e1
                exact absurd hm' hn
              | cons x pre =>
                rw [List.cons_append] at e
                injection e with e1 e2
                exact ⟨pre, m', post, e2, hm', ht', fun y hy => hpre y (List.mem_cons_of_mem _ hy), hpost⟩
            · rw [hsq _ hq]
              exact ⟨pre, m', post, e, hm', ht', hpre, hpost⟩
          · right
            have hkm : target m ≠ k := by
              intro hkm
              have hq : q = (k.pc, k.gidx) := by rw [hqm, hkm]
              exact hall m (by rw [← hq]; exact hmem) hkm
            refine ⟨?_, ?_⟩
            · dsimp only
              rw [h1 k (fun e => hkm (by injection e)) nofun]; exact hrun
            · rw [seq]
              dsimp only
              by_cases hq : (k.pc, k.gidx) = q
              · rw [hq, hsq']
                intro x hx
                refine hall x ?_
                rw [hq, hseq]; exact List.mem_cons_of_mem _ hx
              · rw [hsq _ hq]; exact hall
        · dsimp only
          rw [ha]
          refine hD.append hlen fun r' hm hdl => ?_
          have hkm : target m = k := by have := hcr k r' hm; injection this
          have hq : q = (k.pc, k.gidx) := by rw [hqm, hkm]
          obtain ⟨_, hPG⟩ := hK (h.q.del k hdl).2
          rcases hPG with ⟨hd, _⟩ | ⟨_, hall⟩
          · exact hd hdl
          · exact hall m (by rw [← hq]; exact hmem) hkm

theorem good_signal {k : RunKey} {s s' : Sys D} (h : Good k s) {j : Nat} {u : Runner} (hu : s.runners[j]? = some u) (hp : u.pos = 8)
    (hs : sendSignal { s with runners := s.runners.set j { u with pos := u.pos + 1 } } u.key = .ok s') : Good k s' := by
  have hvalid := h.r.valid j u hu (by omega)
  have hle : RunnersLe s.runners (s.runners.set j { u with pos := u.pos + 1 }) := runnersLe_set hu rfl (Nat.le_succ _)
  have hR : RInv s.fw (s.runners.set j { u with pos := u.pos + 1 }) :=
    h.r.advance hu rfl rfl rfl (by omega) (by simp [readsAt, hp]) hvalid
  have hmem : ({ u with pos := u.pos + 1 } : Runner) ∈ s.runners.set j { u with pos := u.pos + 1 } :=
    Registry.mem_set_new _ hu
  have hother : ∀ v ∈ s.runners.set j { u with pos := u.pos + 1 }, 9 ≤ v.pos → v.key = k → u.key ≠ k → Sent s k := by
    intro v hv h9 hk hne
    obtain ⟨i, hi⟩ := List.mem_iff_getElem?.1 hv
    rcases getElem?_set_cases hu hi with ⟨rfl, rfl⟩ | ⟨_, hi⟩
    · exact absurd hk hne
    · exact ⟨v, List.mem_iff_getElem?.2 ⟨i, hi⟩, h9, hk⟩
  rw [sendSignal] at hs
  dsimp only at hs
  have hnn := keyValid_nonneg hvalid
  by_cases hn : -u.key.pc < 0
  · rw [if_pos hn] at hs
    by_cases hlen : (s.queues (- -u.key.pc, u.key.gidx)).length < rcvBufMax
    · rw [if_pos hlen] at hs
      have := Outcome.ok.inj hs
      subst this
      rw [Int.neg_neg]
      have ht : target (⟨0, -u.key.pc, u.key.gidx, u.key.runId, 0, s.nil⟩ : Message D) = u.key := by
        rw [target_neg hn]; simp
      have hsq : ∀ p, p ≠ (u.key.pc, u.key.gidx) → ∀ ms, held (s.cons p) ++ update s.queues (u.key.pc, u.key.gidx) ms p = seq s p := by
        intro p e ms; simp only [seq, update, if_neg e]
      have hsq' : ∀ ms, held (s.cons (u.key.pc, u.key.gidx)) ++
          update s.queues (u.key.pc, u.key.gidx) (s.queues (u.key.pc, u.key.gidx) ++ ms) (u.key.pc, u.key.gidx)
            = seq s (u.key.pc, u.key.gidx) ++ ms := by
        intro ms; simp only [seq, update, if_pos, List.append_assoc]
      refine ⟨hR, ?_, ?_⟩
      · refine h.q.step (fun _ => rfl) hle ?_ (fun _ hk => .inl hk)
        intro p x hx
        rw [seq] at hx
        dsimp only at hx
        by_cases e : p = (u.key.pc, u.key.gidx)
        · subst e
          rw [hsq', List.mem_append, List.mem_singleton] at hx
          rcases hx with hx | rfl
          · exact .inl hx
          · right
            rw [ht]
            exact ⟨hvalid, rfl, fun _ => ⟨_, hmem, by dsimp only; omega, rfl⟩⟩
        · rw [hsq p e] at hx; exact .inl hx
      · intro hpc huq
        have huq0 := huq.mono hle
        obtain ⟨hK, hD⟩ := h.k hpc huq0
        refine ⟨?_, hD⟩
        by_cases hk : u.key = k
        · subst hk
          have hns := huq0.not_sent hu (by omega)
          intro _
          refine ⟨h.r.closed hu (by omega) (fun j' u' hu' hk' => huq0 j' u' j u hu' hu hk' rfl), .inl ⟨?_, ?_⟩⟩
          · intro hd; exact hns (h.q.del _ hd).2
          · refine ⟨seq s (u.key.pc, u.key.gidx), _, [], ?_, hn, ht, ?_, by simp⟩
            · rw [seq]; exact hsq' _
            · intro x hx hxn hxk
              obtain ⟨v, hv, h9, hvk⟩ := h.q.sig _ x hx hxn
              exact hns ⟨v, hv, h9, hvk.trans hxk⟩
        · refine hK.frame ?_ (fun _ x => x) id (fun _ => rfl) ?_
          · rintro ⟨v, hv, h9, hvk⟩; exact hother v hv h9 hvk hk
          · intro _ _
            rw [seq]
            dsimp only
            by_cases e : (k.pc, k.gidx) = (u.key.pc, u.key.gidx)
            · rw [e, hsq']
              refine ⟨_, rfl, ?_⟩
              intro x hx
              rw [List.mem_singleton] at hx
              subst hx
              rw [ht]; exact hk
            · rw [hsq _ e]
              exact ⟨[], by rw [List.append_nil], by simp⟩
    · rw [if_neg hlen] at hs; cases hs
  · rw [if_neg hn] at hs
    have h0 : u.key.pc = 0 := by omega
    have hs := (Outcome.ok.inj hs).symm
    obtain ⟨qs, e1, e2⟩ := receiveMsg_eq { s with runners := s.runners.set j { u with pos := u.pos + 1 } }
      (⟨0, -u.key.pc, u.key.gidx, u.key.runId, 0, s.nil⟩ : Message D)
    rw [e1] at hs
    subst hs
    dsimp only at e2
    have ht : target (⟨0, -u.key.pc, u.key.gidx, u.key.runId, 0, s.nil⟩ : Message D) = u.key := by
      rw [target_nonneg hn, Message.key, h0]
      cases hku : u.key
      rw [hku] at h0
      dsimp only at h0 ⊢
      subst h0
      rfl
    refine ⟨hR, ?_, ?_⟩
    · refine h.q.step (fun _ => rfl) hle ?_ (fun _ hk => .inl hk)
      intro p x hx
      rw [seq] at hx
      dsimp only at hx
      obtain ⟨add, ha, hadd⟩ := e2 p
      rw [ha, ← List.append_assoc, List.mem_append] at hx
      rcases hx with hx | hx
      · exact .inl hx
      · obtain ⟨rfl, hp'⟩ := hadd x hx
        right
        rw [ht]
        refine ⟨hvalid, ?_, fun y => absurd y hn⟩
        rw [hp', h0]; rfl
    · intro hpc huq
      obtain ⟨hK, hD⟩ := h.k hpc (huq.mono hle)
      refine ⟨?_, hD⟩
      have hk : u.key ≠ k := by rintro rfl; omega
      refine hK.frame ?_ (fun _ x => x) id (fun _ => rfl) ?_
      · rintro ⟨v, hv, h9, hvk⟩; exact hother v hv h9 hvk hk
      · intro _ _
        obtain ⟨add, ha, hadd⟩ := e2 (k.pc, k.gidx)
        refine ⟨add, by rw [seq]; dsimp only; rw [ha, ← List.append_assoc]; rfl, fun x hx => ?_⟩
        obtain ⟨rfl, _⟩ := hadd x hx
        rw [ht]; exact hk

theorem good_runner {k : RunKey} {s s' : Sys D} (h : Good k s) {j : Nat} (hs : runnerStep s j = .ok s') : Good k s' := by
  rw [runnerStep] at hs
  cases hu : s.runners[j]? with
  | none => rw [hu] at hs; cases hs
  | some u =>
    rw [hu] at hs
    dsimp only at hs
    have hle : ∀ u' : Runner, u'.key = u.key → u'.pos = u.pos + 1 → RunnersLe s.runners (s.runners.set j u') :=
      fun u' e1 e2 => runnersLe_set hu e1 (by omega)
    have huq : ∀ u' : Runner, u'.key = u.key → u'.pos = u.pos + 1 → u.pos < 9 → u.key = k → Uniq k (s.runners.set j u') → ¬ Sent s k := by
      intro u' e1 e2 h9 e hq
      subst e
      exact (hq.mono (hle u' e1 e2)).not_sent hu h9
    by_cases h0 : u.pos = 0
    · rw [if_pos h0, regEventAt] at hs
      dsimp only at hs
      by_cases hv : Firewall.keyValid s.fw u.key = true
      · rw [if_pos hv, regEvent, Outcome.bind_eq_ok] at hs
        obtain ⟨r, hr, hs⟩ := hs
        have := Outcome.ok.inj hs
        subst this
        exact good_reg (s := s) h (hle { u with pos := u.pos + 1, chan := s.reg.chans.length } rfl rfl) (sent_set hu (by dsimp only; omega))
          (h.r.advance hu rfl rfl rfl (by omega) (by simp [readsAt, h0]) hv) hr nofun nofun
      · rw [if_neg hv] at hs; cases hs
    rw [if_neg h0] at hs
    by_cases h1 : u.pos = 1
    · rw [if_pos h1] at hs
      refine good_fw h (hle { u with pos := u.pos + 1, call := s.fw.calls.length } rfl rfl) (sent_set hu (by dsimp only; omega)) ?_ hs ?_
      · intro f' hf'
        exact h.r.setAllow hu hf' rfl h1 (by dsimp only; omega) rfl
      · intro a e hq
        injection e with e _
        exact huq { u with pos := u.pos + 1, call := s.fw.calls.length } rfl rfl (by omega) e hq
    rw [if_neg h1] at hs
    by_cases h3 : u.pos = 3
    · rw [if_pos h3] at hs
      by_cases ht : u.allow.start ≤ s.fw.now
      · rw [if_pos ht] at hs
        have := Outcome.ok.inj hs
        subst this
        have hR := h.r.advance hu (u' := { u with pos := u.pos + 1 }) rfl rfl rfl h1 (by simp [readsAt, h3]) (h.r.valid j u hu (by omega))
        refine ⟨hR, ?_, ?_⟩
        · exact h.q.step (fun _ => rfl) (hle { u with pos := u.pos + 1 } rfl rfl) (fun q m hm => .inl hm) (fun k' hk' => .inl hk')
        · intro hpc hq
          obtain ⟨hK, hD⟩ := h.k hpc (hq.mono (hle { u with pos := u.pos + 1 } rfl rfl))
          refine ⟨hK.frame ?_ (fun _ x => x) id (fun _ => rfl) (fun _ _ => ⟨[], by rw [List.append_nil]; rfl, by simp⟩), hD⟩
          rintro ⟨v, hv, h9, hvk⟩
          exact sent_set hu (by dsimp only; omega) v hv h9 hvk
      · rw [if_neg ht] at hs; cases hs
    rw [if_neg h3] at hs
    by_cases h4 : u.pos = 4
    · rw [if_pos h4, regEventAt] at hs
      dsimp only at hs
      by_cases hv : Firewall.keyValid s.fw u.key = true
      · rw [if_pos hv, regEvent, Outcome.bind_eq_ok] at hs
        obtain ⟨r, hr, hs⟩ := hs
        have := Outcome.ok.inj hs
        subst this
        refine good_reg (s := s) h (hle { u with pos := u.pos + 1 } rfl rfl) (sent_set hu (by dsimp only; omega))
          (h.r.advance hu rfl rfl rfl (by omega) (by simp [readsAt, h4]) hv) hr nofun ?_
        intro e hq
        injection e with e
        exact huq { u with pos := u.pos + 1 } rfl rfl (by omega) e hq
      · rw [if_neg hv] at hs; cases hs
    rw [if_neg h4] at hs
    by_cases h5 : u.pos = 5
    · rw [if_pos h5, regEvent, Outcome.bind_eq_ok] at hs
      obtain ⟨r, hr, hs⟩ := hs
      have := Outcome.ok.inj hs
      subst this
      exact good_reg (s := s) h (hle { u with pos := u.pos + 1 } rfl rfl) (sent_set hu (by dsimp only; omega))
        (h.r.advance hu rfl rfl rfl (by omega) (by simp [readsAt, h5]) (h.r.valid j u hu (by omega))) hr nofun nofun
    rw [if_neg h5] at hs
    by_cases h2 : u.pos = 2 ∨ u.pos = 6 ∨ u.pos = 7
    · rw [if_pos h2] at hs
      refine good_fw h (hle { u with pos := u.pos + 1 } rfl rfl) (sent_set hu (by dsimp only; omega)) ?_ hs nofun
      intro f' hf'
      refine h.r.readObs hu hf' rfl rfl rfl (by omega) ?_
      rcases h2 with e | e | e <;> simp [readsAt, e]
    rw [if_neg h2] at hs
    by_cases h8 : u.pos = 8
    · rw [if_pos h8] at hs
      exact good_signal h hu h8 hs
    · rw [if_neg h8] at hs; cases hs

theorem good_step {k : RunKey} {s s' : Sys D} (h : Good k s) {e : Ev D} (hs : step s e = .ok s') : Good k s' := by
  have hfw : ∀ e : Firewall.Ev D, (∀ k a, e ≠ .allow k a) → (∀ i, e ≠ .read i) → fwEvent s e = .ok s' → Good k s' := by
    intro e h1 h2 hs
    exact good_fw (rs := s.runners) h (.refl _) (fun u hu h9 hk => ⟨u, hu, h9, hk⟩) (fun f' hf' => h.r.fwStep hf' h1 h2) hs
      (fun a e => absurd e (h1 _ _))
  have hreg : ∀ e : Registry.Ev, (∀ k, e ≠ .delete k) → (∀ k, e ≠ .ensure k) → regEvent s e = .ok s' → Good k s' := by
    intro e h1 h2 hs
    rw [regEvent, Outcome.bind_eq_ok] at hs
    obtain ⟨r, hr, hs⟩ := hs
    have := Outcome.ok.inj hs
    subst this
    exact good_reg (rs := s.runners) h (.refl _) (fun u hu h9 hk => ⟨u, hu, h9, hk⟩) h.r hr h1 (fun e => absurd e (h2 _))
  cases e with
  | tick t => exact hfw (.tick t) nofun nofun hs
  | latch => exact hfw (.latch) nofun nofun hs
  | net m => exact hfw (.msg m) nofun nofun hs
  | fwStep i => exact hfw (.step i) nofun nofun hs
  | cons q => exact good_consume h hs
  | finish r => exact hreg (.finish r) nofun nofun hs
  | task i => exact hreg (.task i) nofun nofun hs
  | runner j => exact good_runner h hs
  | launch k' a =>
    have := Outcome.ok.inj hs
    subst this
    have hle := runnersLe_append s.runners [⟨k', a, 0, 0, 0⟩]
    refine ⟨h.r.launch k' a, ?_, ?_⟩
    · exact h.q.step (fun _ => rfl) hle (fun q m hm => .inl hm) (fun k' hk' => .inl hk')
    · intro hpc hq
      obtain ⟨hK, hD⟩ := h.k hpc (hq.mono hle)
      refine ⟨hK.frame ?_ (fun _ x => x) id (fun _ => rfl) (fun _ _ => ⟨[], by rw [List.append_nil]; rfl, by simp⟩), hD⟩
      rintro ⟨v, hv, h9, hvk⟩
      rw [List.mem_append, List.mem_singleton] at hv
      rcases hv with hv | rfl
      · exact ⟨v, hv, h9, hvk⟩
      · cases h9

theorem good_run {k : RunKey} {s s' : Sys D} (h : Good k s) {es : List (Ev D)} (hs : run s es = .ok s') : Good k s' := by
  induction es generalizing s with
  | nil => have := Outcome.ok.inj hs; subst this; exact h
  | cons e es ih =>
    rw [run, Outcome.bind_eq_ok] at hs
    obtain ⟨s1, h1, h2⟩ := hs
    exact ih (good_step h h1) h2

end Verif.Node
