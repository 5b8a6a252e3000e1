import Verif.Proofs.NodeOrigin
import Verif.Proofs.FirewallHistory
import Mathlib.Data.List.Nodup

/-! A node does not act for a run before the start of an allowance for it. -/
namespace Verif.Firewall
variable {D : Type}

/-- Calls keep their run, allowance and thread, and a new one has a thread if there is no allowance for the run. -/
theorem calls_stay {f f' : Fw D} {e : Ev D} (hs : step f e = .ok f') :
    (∀ (i : Nat) (c : Call), f.calls[i]? = some c → ∃ c', f'.calls[i]? = some c' ∧ c'.key = c.key ∧ c'.allow = c.allow ∧ c'.live = c.live) ∧
    ∀ k a, e = .allow k a → f.allowances.get? k = none →
      ∃ c, f'.calls[f.calls.length]? = some c ∧ c.key = k ∧ c.allow = a ∧ c.live = true := by
  have upd : ∀ {j : Nat} {c c1 : Call}, f.calls[j]? = some c → c1.key = c.key → c1.allow = c.allow → c1.live = c.live →
      ∀ (i : Nat) (d : Call), f.calls[i]? = some d → ∃ c', (f.calls.set j c1)[i]? = some c' ∧ c'.key = d.key ∧ c'.allow = d.allow ∧ c'.live = d.live := by
    intro j c c1 hc h1 h2 h3 i d hd
    by_cases e : i = j
    · subst e
      have := Option.some.inj (hd.symm.trans hc)
      subst this
      exact ⟨c1, getElem?_set_self _ hc, h1, h2, h3⟩
    · exact ⟨d, by rw [getElem?_set_other _ e]; exact hd, rfl, rfl, rfl⟩
  have same : ∀ {l : List Call}, l = f.calls → ∀ (i : Nat) (d : Call), f.calls[i]? = some d →
      ∃ c', l[i]? = some c' ∧ c'.key = d.key ∧ c'.allow = d.allow ∧ c'.live = d.live :=
    fun hl i d hd => ⟨d, by rw [hl]; exact hd, rfl, rfl, rfl⟩
  cases e with
  | tick t =>
    obtain ⟨_, rfl⟩ := step_tick_cases hs
    exact ⟨same rfl, nofun⟩
  | latch =>
    obtain ⟨_, _, rfl⟩ := step_latch_cases hs
    exact ⟨same rfl, nofun⟩
  | msg m =>
    rw [step] at hs
    have := Outcome.ok.inj hs
    subst this
    rcases process_cases f m with e | ⟨_, _, _, _, e⟩ | ⟨_, _, hst, e⟩ <;> (rw [e]; exact ⟨same rfl, nofun⟩)
  | allow k a =>
    rw [step] at hs
    obtain ⟨_, ⟨b, hb, rfl⟩ | ⟨_, rfl⟩⟩ := setAllowance_cases hs
    · refine ⟨fun i d hd => ⟨d, getElem?_concat_old _ hd, rfl, rfl, rfl⟩, fun k' a' e hn => ?_⟩
      injection e with e1 e2
      rw [← e1, hb] at hn
      cases hn
    · refine ⟨fun i d hd => ⟨d, getElem?_concat_old _ hd, rfl, rfl, rfl⟩, fun k' a' e hn => ?_⟩
      injection e with e1 e2
      exact ⟨_, List.getElem?_concat_length, e1, e2, rfl⟩
  | step i =>
    rw [step] at hs
    obtain ⟨c, hc, hl, ⟨_, rfl⟩ | ⟨_, _, _, rfl⟩ | ⟨_, _, _, rfl⟩ | ⟨_, _, _, rfl⟩⟩ := stateStep_cases hs <;>
      exact ⟨upd hc rfl rfl rfl, nofun⟩
  | read j =>
    obtain ⟨c, hc, _, rfl⟩ := step_read_cases hs
    exact ⟨upd hc rfl rfl rfl, nofun⟩

/-- What an event does to the clock and the calls, and for which runs it outputs messages. -/
theorem step_timely {f f' : Fw D} (h : Inv f) {e : Ev D} (hs : step f e = .ok f') :
    f.now ≤ f'.now ∧
    (∀ c' ∈ f'.calls, (∃ c ∈ f.calls, c.key = c'.key ∧ c.allow = c'.allow) ∨ e = .allow c'.key c'.allow) ∧
    ∀ m ∈ f'.out.drop f.out.length, ∃ c ∈ f.calls, c.key = m.key ∧ c.allow.start ≤ f.now := by
  have keep : ∀ {l : List Call}, l = f.calls → ∀ c' ∈ l, (∃ c ∈ f.calls, c.key = c'.key ∧ c.allow = c'.allow) ∨ e = .allow c'.key c'.allow :=
    fun hl c' hc' => .inl ⟨c', by rw [← hl]; exact hc', rfl, rfl⟩
  have upd : ∀ {i : Nat} {c c1 : Call}, f.calls[i]? = some c → c1.key = c.key → c1.allow = c.allow →
      ∀ c' ∈ f.calls.set i c1, (∃ c ∈ f.calls, c.key = c'.key ∧ c.allow = c'.allow) ∨ e = .allow c'.key c'.allow := by
    intro i c c1 hc hk ha c' hc'
    rcases List.mem_or_eq_of_mem_set hc' with hm | rfl
    · exact .inl ⟨c', hm, rfl, rfl⟩
    · exact .inl ⟨c, List.mem_of_getElem? hc, hk.symm, ha.symm⟩
  cases e with
  | tick t =>
    obtain ⟨ht, rfl⟩ := step_tick_cases hs
    exact ⟨ht, keep rfl, by simp⟩
  | latch =>
    obtain ⟨_, _, rfl⟩ := step_latch_cases hs
    exact ⟨Int.le_refl _, keep rfl, by simp⟩
  | msg m =>
    rw [step] at hs
    have := Outcome.ok.inj hs
    subst this
    rcases process_cases f m with e | ⟨_, _, _, _, e⟩ | ⟨_, _, hst, e⟩
    · rw [e]; exact ⟨Int.le_refl _, keep rfl, by simp⟩
    · rw [e]; exact ⟨Int.le_refl _, keep rfl, by simp⟩
    · rw [e]
      refine ⟨Int.le_refl _, keep rfl, fun x hx => ?_⟩
      dsimp only at hx
      rw [List.drop_left, List.mem_singleton] at hx
      subst hx
      obtain ⟨i, c, ha, hk⟩ := h.stated _ _ hst
      have h1 := (h.act i c ha).2
      rw [hk, hst] at h1
      have h2 : 2 = c.sections - 1 := Option.some.inj h1
      exact ⟨c, List.mem_of_getElem? ha.1, hk, (h.loaded i c ha.1).2.2.1 (by omega)⟩
  | allow k a =>
    rw [step] at hs
    have new : ∀ (b : Bool), ∀ c' ∈ f.calls ++ [⟨k, a, b, 0, ⟨0, 0, 0⟩, []⟩],
        (∃ c ∈ f.calls, c.key = c'.key ∧ c.allow = c'.allow) ∨ Ev.allow (D := D) k a = .allow c'.key c'.allow := by
      intro b c' hc'
      rcases List.mem_append.1 hc' with hm | hm
      · exact .inl ⟨c', hm, rfl, rfl⟩
      · rw [List.mem_singleton] at hm
        subst hm
        exact .inr rfl
    obtain ⟨_, ⟨b, _, rfl⟩ | ⟨_, rfl⟩⟩ := setAllowance_cases hs
    · exact ⟨Int.le_refl _, new false, by simp⟩
    · exact ⟨Int.le_refl _, new true, by simp⟩
  | step i =>
    rw [step] at hs
    obtain ⟨c, hc, hl, ⟨h0, rfl⟩ | ⟨h0, _, _, rfl⟩ | ⟨h0, ht, _, rfl⟩ | ⟨h0, _, _, rfl⟩⟩ := stateStep_cases hs
    · exact ⟨Int.le_refl _, upd hc rfl rfl, by simp⟩
    · exact ⟨Int.le_refl _, upd hc rfl rfl, by simp⟩
    · refine ⟨Int.le_refl _, upd hc rfl rfl, fun m hm => ?_⟩
      dsimp only at hm
      rw [List.drop_left] at hm
      cases hb : f.buffer.get? c.key with
      | none => rw [hb] at hm; cases hm
      | some b =>
        rw [hb, Option.getD_some] at hm
        refine ⟨c, List.mem_of_getElem? hc, ((h.buffered c.key b hb).2.2 m hm).1.symm, ?_⟩
        rw [← (h.loaded i c hc).1 (by omega)]
        exact ht
    · exact ⟨Int.le_refl _, upd hc rfl rfl, by simp⟩
  | read j =>
    obtain ⟨c, hc, _, rfl⟩ := step_read_cases hs
    exact ⟨Int.le_refl _, upd hc rfl rfl, by simp⟩

end Verif.Firewall

namespace Verif.Node
open Verif.Registry (getElem?_set_cases lt_of_some)
variable {D : Type}

/-- The start of the allowance of some runner for `k` has come. -/
def Due (s : Sys D) (k : RunKey) : Prop := ∃ u ∈ s.runners, u.key = k ∧ u.allow.start ≤ s.fw.now

/-- Runners stay, with their keys and allowances. -/
def Stay (l l' : List Runner) : Prop := ∀ u ∈ l, ∃ u' ∈ l', u'.key = u.key ∧ u'.allow = u.allow

theorem Stay.refl (l : List Runner) : Stay l l := fun u h => ⟨u, h, rfl, rfl⟩

theorem stay_set {l : List Runner} {j : Nat} {u u' : Runner} (h : l[j]? = some u) (hk : u'.key = u.key) (ha : u'.allow = u.allow) :
    Stay l (l.set j u') := by
  intro v hv
  obtain ⟨i, hi⟩ := List.mem_iff_getElem?.1 hv
  by_cases e : i = j
  · subst e
    have := Option.some.inj (h.symm.trans hi)
    subst this
    exact ⟨u', List.mem_iff_getElem?.2 ⟨i, List.getElem?_set_self (lt_of_some h)⟩, hk, ha⟩
  · exact ⟨v, List.mem_iff_getElem?.2 ⟨i, by rw [List.getElem?_set_ne (Ne.symm e)]; exact hi⟩, rfl, rfl⟩

theorem Due.mono {s s' : Sys D} (hl : Stay s.runners s'.runners) (ht : s.fw.now ≤ s'.fw.now) {k : RunKey} (h : Due s k) : Due s' k := by
  obtain ⟨u, hu, hk, hs⟩ := h
  obtain ⟨u', hu', hk', ha'⟩ := hl u hu
  exact ⟨u', hu', hk'.trans hk, by rw [ha']; exact Int.le_trans hs ht⟩

/-- Nothing is early. -/
structure Timely (s : Sys D) : Prop where
  fw : Firewall.Inv s.fw
  slept : ∀ u ∈ s.runners, 4 ≤ u.pos → u.allow.start ≤ s.fw.now
  calls : ∀ c ∈ s.fw.calls, ∃ u ∈ s.runners, u.key = c.key ∧ u.allow = c.allow
  way : ∀ q, ∀ m ∈ seq s q, ¬ m.pc < 0 → Due s m.key
  obj : ∀ o ∈ s.reg.objs, Due s o.key

theorem timely_make (stages : Int → Nat) (nil : D) (nprots : Nat) (guests : Int → Bool) (du now : Int) :
    Timely (make stages nil nprots guests du now) :=
  ⟨Firewall.inv_make .., nofun, nofun, fun _ _ hm => (by cases hm), nofun⟩

/-- An event that leaves the firewall alone. -/
theorem Timely.still {s s' : Sys D} (h : Timely s) (hfw : s'.fw = s.fw) (hl : Stay s.runners s'.runners)
    (hsl : ∀ u ∈ s'.runners, 4 ≤ u.pos → u.allow.start ≤ s.fw.now)
    (hseq : ∀ q, ∀ m ∈ seq s' q, ¬ m.pc < 0 → m ∈ seq s q ∨ Due s m.key)
    (hobj : ∀ o ∈ s'.reg.objs, (∃ o0 ∈ s.reg.objs, o0.key = o.key) ∨ Due s o.key) : Timely s' := by
  have ht : s.fw.now ≤ s'.fw.now := by rw [hfw]
  refine ⟨by rw [hfw]; exact h.fw, fun u hu hp => by rw [hfw]; exact hsl u hu hp, ?_, ?_, ?_⟩
  · intro c hc
    rw [hfw] at hc
    obtain ⟨u, hu, h1, h2⟩ := h.calls c hc
    obtain ⟨u', hu', h3, h4⟩ := hl u hu
    exact ⟨u', hu', h3.trans h1, h4.trans h2⟩
  · intro q m hm hn
    rcases hseq q m hm hn with hm | hd
    · exact (h.way q m hm hn).mono hl ht
    · exact hd.mono hl ht
  · intro o ho
    rcases hobj o ho with ⟨o0, h1, h2⟩ | hd
    · rw [← h2]; exact (h.obj o0 h1).mono hl ht
    · exact hd.mono hl ht

/-- A firewall event. -/
theorem Timely.fwEvent {s s' : Sys D} (h : Timely s) {fe : Firewall.Ev D} (hs : Firewall.step s.fw fe = .ok s'.fw)
    (hl : Stay s.runners s'.runners) (hsl : ∀ u ∈ s'.runners, 4 ≤ u.pos → u.allow.start ≤ s.fw.now)
    (hal : ∀ k a, fe = .allow k a → ∃ u ∈ s'.runners, u.key = k ∧ u.allow = a)
    (hseq : ∀ q, ∀ m ∈ seq s' q, m ∈ seq s q ∨ m ∈ s'.fw.out.drop s.fw.out.length) (hreg : s'.reg = s.reg) : Timely s' := by
  obtain ⟨ht, hc, ho⟩ := Firewall.step_timely h.fw hs
  refine ⟨Firewall.inv_step h.fw hs, fun u hu hp => Int.le_trans (hsl u hu hp) ht, ?_, ?_, ?_⟩
  · intro c' hc'
    rcases hc c' hc' with ⟨c, h1, h2, h3⟩ | h1
    · obtain ⟨u, hu, g1, g2⟩ := h.calls c h1
      obtain ⟨u', hu', g3, g4⟩ := hl u hu
      exact ⟨u', hu', by rw [g3, g1, h2], by rw [g4, g2, h3]⟩
    · exact hal _ _ h1
  · intro q m hm hn
    rcases hseq q m hm with hm | hm
    · exact (h.way q m hm hn).mono hl ht
    · obtain ⟨c, h1, h2, h3⟩ := ho m hm
      obtain ⟨u, hu, g1, g2⟩ := h.calls c h1
      exact Due.mono hl ht ⟨u, hu, g1.trans h2, by rw [g2]; exact h3⟩
  · intro o hob
    rw [hreg] at hob
    exact (h.obj o hob).mono hl ht

theorem timely_step {s s' : Sys D} (h : Timely s) (hv : ∀ u ∈ s.runners, 1 ≤ u.pos → 0 ≤ u.key.pc) {e : Ev D} (hs : step s e = .ok s') :
    Timely s' := by
  have hset : ∀ {j : Nat} {u u' : Runner}, s.runners[j]? = some u → (4 ≤ u'.pos → u'.allow.start ≤ s.fw.now) →
      ∀ v ∈ s.runners.set j u', 4 ≤ v.pos → v.allow.start ≤ s.fw.now := by
    intro j u u' hu hp v hv h4
    rcases List.mem_or_eq_of_mem_set hv with hm | rfl
    · exact h.slept v hm h4
    · exact hp h4
  have objs : ∀ {re : Registry.Ev} {r' : Registry.Reg}, Registry.step s.reg re = .ok r' → (∀ k, re = .ensure k → Due s k) →
      ∀ o ∈ r'.objs, (∃ o0 ∈ s.reg.objs, o0.key = o.key) ∨ Due s o.key := by
    intro re r' hr he o ho
    obtain ⟨i, hi⟩ := List.mem_iff_getElem?.1 ho
    rcases (Registry.frame_step hr).back i o hi with ⟨o0, h1, h2, _⟩ | ⟨_, h1, _⟩
    · exact .inl ⟨o0, List.mem_of_getElem? h1, h2.symm⟩
    · exact .inr (he _ h1)
  have same : ∀ o ∈ s.reg.objs, (∃ o0 ∈ s.reg.objs, o0.key = o.key) ∨ Due s o.key := fun o ho => .inl ⟨o, ho, rfl⟩
  cases step_shape hs with
  | @fw _ fe f' qs he hd =>
    refine h.fwEvent hd.1 (.refl _) h.slept ?_ (fun q m hm => (seq_fed hd.2 hm rfl rfl).imp (fun x => x) (fun x => x.1)) rfl
    intro k a e
    subst e
    cases e <;> simp [fwOf] at he
  | reg he hr =>
    refine h.still rfl (.refl _) h.slept (fun q m hm _ => .inl hm) (objs hr ?_)
    intro k e
    subst e
    cases e <;> simp [regOf] at he
  | launch =>
    refine h.still rfl (fun u hu => ⟨u, List.mem_append_left _ hu, rfl, rfl⟩) ?_ (fun q m hm _ => .inl hm) same
    intro u hu hp
    rcases List.mem_append.1 hu with hm | hm
    · exact h.slept u hm hp
    · rw [List.mem_singleton] at hm
      subst hm
      cases hp
  | @take q m ms hc hq =>
    refine h.still rfl (.refl _) h.slept (fun p x hx _ => .inl ?_) same
    rw [seq] at hx ⊢
    dsimp only at hx
    by_cases e : p = q
    · subst e
      rw [update, update, if_pos rfl, if_pos rfl] at hx
      rw [hc, hq]
      exact hx
    · rw [update, update, if_neg e, if_neg e] at hx; exact hx
  | give hc =>
    exact h.still rfl (.refl _) h.slept (fun p x hx _ => .inl (seq_cons hx rfl rfl (fun m hm => absurd hm List.not_mem_nil))) same
  | delete hc hn hv hr =>
    exact h.still rfl (.refl _) h.slept (fun p x hx _ => .inl (seq_cons hx rfl rfl (fun m hm => absurd hm List.not_mem_nil)))
      (objs hr nofun)
  | @find q m r' hc hn hv hr =>
    refine h.still rfl (.refl _) h.slept (fun p x hx _ => .inl (seq_cons hx rfl rfl (fun m hm => absurd hm List.not_mem_nil)))
      (objs hr ?_)
    intro k e
    injection e with e
    subst e
    exact h.way q m (by rw [seq, hc]; simp [held]) hn
  | @observe j u r' hu h0 hv hr =>
    exact h.still rfl (stay_set hu rfl rfl) (hset hu (by dsimp only; omega)) (fun q m hm _ => .inl hm) (objs hr nofun)
  | @allow j u f' qs hu h1 hd =>
    refine h.fwEvent hd.1 (stay_set hu rfl rfl) (hset hu (by dsimp only; omega)) ?_
      (fun q m hm => (seq_fed hd.2 hm rfl rfl).imp (fun x => x) (fun x => x.1)) rfl
    intro k a e
    injection e with e1 e2
    exact ⟨_, List.mem_iff_getElem?.2 ⟨j, List.getElem?_set_self (lt_of_some hu)⟩, e1, e2⟩
  | @sleep j u hu h3 ht =>
    exact h.still rfl (stay_set hu rfl rfl) (hset hu (fun _ => ht)) (fun q m hm _ => .inl hm) same
  | @ensure j u r' hu h4 hv hr =>
    have hst := h.slept u (List.mem_of_getElem? hu) (by omega)
    refine h.still rfl (stay_set hu rfl rfl) (hset hu (fun _ => hst)) (fun q m hm _ => .inl hm) (objs hr ?_)
    intro k e
    injection e with e
    exact ⟨u, List.mem_of_getElem? hu, e, hst⟩
  | @recv j u r' hu h5 hr =>
    exact h.still rfl (stay_set hu rfl rfl) (hset hu (fun _ => h.slept u (List.mem_of_getElem? hu) (by omega)))
      (fun q m hm _ => .inl hm) (objs hr nofun)
  | @read j u f' qs hu h2 hd =>
    refine h.fwEvent hd.1 (stay_set hu rfl rfl) (hset hu ?_) nofun
      (fun q m hm => (seq_fed hd.2 hm rfl rfl).imp (fun x => x) (fun x => x.1)) rfl
    dsimp only
    intro hp
    exact h.slept u (List.mem_of_getElem? hu) (by omega)
  | @signal j u qs hu h8 hq =>
    have hst := h.slept u (List.mem_of_getElem? hu) (by omega)
    refine h.still rfl (stay_set hu rfl rfl) (hset hu (fun _ => hst)) (fun q m hm hn => ?_) same
    rw [seq] at hm
    dsimp only at hm
    obtain ⟨add, g1, g2⟩ := hq q
    rw [g1, ← List.append_assoc, List.mem_append] at hm
    refine hm.imp (fun x => x) fun hm => ?_
    obtain ⟨rfl, _⟩ := g2 m hm
    refine ⟨u, List.mem_of_getElem? hu, ?_, hst⟩
    have hv := hv u (List.mem_of_getElem? hu) (by omega)
    have h0 : u.key.pc = 0 := by
      rw [signal] at hn
      dsimp only at hn
      omega
    rw [signal, Message.key]
    dsimp only
    cases hk : u.key
    rw [hk] at h0
    dsimp only at h0
    subst h0
    rfl

/-- In every history, nothing is early. -/
theorem timely_run {s s' : Sys D} {k : RunKey} (hg : Good k s) (h : Timely s) {es : List (Ev D)} (hs : run s es = .ok s') : Timely s' := by
  induction es generalizing s with
  | nil => have := Outcome.ok.inj hs; subst this; exact h
  | cons e es ih =>
    rw [run, Outcome.bind_eq_ok] at hs
    obtain ⟨s1, h1, h2⟩ := hs
    refine ih (good_step hg h1) (timely_step h (fun u hu hp => ?_) h1) h2
    obtain ⟨j, hj⟩ := List.mem_iff_getElem?.1 hu
    exact keyValid_nonneg (hg.r.valid j u hj hp)

/-- Runners come from launches. -/
theorem runners_step {s s' : Sys D} {e : Ev D} (hs : step s e = .ok s') :
    ∀ u' ∈ s'.runners, (∃ u ∈ s.runners, u.key = u'.key ∧ u.allow = u'.allow) ∨ e = .launch u'.key u'.allow := by
  have same : ∀ u' ∈ s.runners, (∃ u ∈ s.runners, u.key = u'.key ∧ u.allow = u'.allow) ∨ e = .launch u'.key u'.allow :=
    fun u hu => .inl ⟨u, hu, rfl, rfl⟩
  have hset : ∀ {j : Nat} {u u1 : Runner}, s.runners[j]? = some u → u1.key = u.key → u1.allow = u.allow →
      ∀ u' ∈ s.runners.set j u1, (∃ u ∈ s.runners, u.key = u'.key ∧ u.allow = u'.allow) ∨ e = .launch u'.key u'.allow := by
    intro j u u1 hu hk ha u' hu'
    rcases List.mem_or_eq_of_mem_set hu' with hm | rfl
    · exact same u' hm
    · exact .inl ⟨u, List.mem_of_getElem? hu, hk.symm, ha.symm⟩
  cases step_shape hs with
  | fw => exact same
  | reg => exact same
  | launch =>
    intro u hu
    rcases List.mem_append.1 hu with hm | hm
    · exact .inl ⟨u, hm, rfl, rfl⟩
    · rw [List.mem_singleton] at hm
      subst hm
      exact .inr rfl
  | take => exact same
  | give => exact same
  | delete => exact same
  | find => exact same
  | observe hu => exact hset hu rfl rfl
  | allow hu => exact hset hu rfl rfl
  | sleep hu => exact hset hu rfl rfl
  | ensure hu => exact hset hu rfl rfl
  | recv hu => exact hset hu rfl rfl
  | read hu => exact hset hu rfl rfl
  | signal hu => exact hset hu rfl rfl

theorem runners_run {s s' : Sys D} {es : List (Ev D)} (hs : run s es = .ok s') :
    ∀ u' ∈ s'.runners, (∃ u ∈ s.runners, u.key = u'.key ∧ u.allow = u'.allow) ∨ .launch u'.key u'.allow ∈ es := by
  induction es generalizing s with
  | nil => have := Outcome.ok.inj hs; subst this; exact fun u hu => .inl ⟨u, hu, rfl, rfl⟩
  | cons e es ih =>
    rw [run, Outcome.bind_eq_ok] at hs
    obtain ⟨s1, h1, h2⟩ := hs
    intro u' hu'
    rcases ih h2 u' hu' with ⟨u, hu, hk, ha⟩ | hm
    · rcases runners_step h1 u hu with ⟨v, hv, hk', ha'⟩ | he
      · exact .inl ⟨v, hv, hk'.trans hk, ha'.trans ha⟩
      · exact .inr (by rw [he, hk, ha]; exact List.mem_cons_self ..)
    · exact .inr (List.mem_cons_of_mem _ hm)

/-- Every runner that has asked for an allowance has got it. -/
def Held (s : Sys D) : Prop :=
  ∀ u ∈ s.runners, 2 ≤ u.pos → ∃ c, s.fw.calls[u.call]? = some c ∧ c.key = u.key ∧ c.allow = u.allow ∧ c.live = true

theorem held_step {s s' : Sys D} (hR : RInv s.fw s.runners) (hn : (s.runners.map Runner.key).Nodup) (h : Held s) {e : Ev D}
    (hs : step s e = .ok s') : Held s' := by
  have hfw : ∀ {f' : Firewall.Fw D} {fe : Firewall.Ev D}, Firewall.step s.fw fe = .ok f' → ∀ u ∈ s.runners, 2 ≤ u.pos →
      ∃ c, f'.calls[u.call]? = some c ∧ c.key = u.key ∧ c.allow = u.allow ∧ c.live = true := by
    intro f' fe hf u hu hp
    obtain ⟨c, h1, h2, h3, h4⟩ := h u hu hp
    obtain ⟨c', g1, g2, g3, g4⟩ := (Firewall.calls_stay hf).1 _ c h1
    exact ⟨c', g1, g2.trans h2, g3.trans h3, g4.trans h4⟩
  have hset : ∀ {f' : Firewall.Fw D} {j : Nat} {u u1 : Runner}, s.runners[j]? = some u → u1.key = u.key → u1.allow = u.allow →
      u1.call = u.call → (2 ≤ u1.pos → 2 ≤ u.pos) →
      (∀ u ∈ s.runners, 2 ≤ u.pos → ∃ c, f'.calls[u.call]? = some c ∧ c.key = u.key ∧ c.allow = u.allow ∧ c.live = true) →
      ∀ v ∈ s.runners.set j u1, 2 ≤ v.pos → ∃ c, f'.calls[v.call]? = some c ∧ c.key = v.key ∧ c.allow = v.allow ∧ c.live = true := by
    intro f' j u u1 hu hk ha hc hp hf v hv h2
    rcases List.mem_or_eq_of_mem_set hv with hm | rfl
    · exact hf v hm h2
    · rw [hk, ha, hc]
      exact hf u (List.mem_of_getElem? hu) (hp h2)
  cases step_shape hs with
  | fw he hd => exact hfw hd.1
  | reg => exact h
  | launch =>
    intro u hu hp
    rcases List.mem_append.1 hu with hm | hm
    · exact h u hm hp
    · rw [List.mem_singleton] at hm
      subst hm
      cases hp
  | take => exact h
  | give => exact h
  | delete => exact h
  | find => exact h
  | observe hu h0 => exact hset hu rfl rfl rfl (by dsimp only; omega) h
  | @allow j u f' qs hu h1 hd =>
    intro v hv h2
    rcases List.mem_or_eq_of_mem_set hv with hm | rfl
    · exact hfw hd.1 v hm h2
    · refine (Firewall.calls_stay hd.1).2 _ _ rfl ?_
      cases ha : s.fw.allowances.get? u.key with
      | none => rfl
      | some a =>
        obtain ⟨i, c, hact, hck⟩ := hR.fw.allowed _ _ ha
        obtain ⟨j', u', hu', hp', _, hk'⟩ := hR.owner i c hact.1
        exfalso
        have e : j' = j := uniq_of_count (List.nodup_iff_count_le_one.1 hn u.key) j' u' j u hu' hu (hk'.trans hck) rfl
        subst e
        have := Option.some.inj (hu'.symm.trans hu)
        subst this
        omega
  | sleep hu h3 => exact hset hu rfl rfl rfl (by dsimp only; omega) h
  | ensure hu h4 => exact hset hu rfl rfl rfl (by dsimp only; omega) h
  | recv hu h5 => exact hset hu rfl rfl rfl (by dsimp only; omega) h
  | read hu h2 hd => exact hset hu rfl rfl rfl (by dsimp only; omega) (hfw hd.1)
  | signal hu h8 => exact hset hu rfl rfl rfl (by dsimp only; omega) h

theorem held_run {s s' : Sys D} {k : RunKey} (hg : Good k s) (h : Held s) {es : List (Ev D)} (hs : run s es = .ok s')
    (hn : (s'.runners.map Runner.key).Nodup) : Held s' := by
  induction es generalizing s with
  | nil => have := Outcome.ok.inj hs; subst this; exact h
  | cons e es ih =>
    have h0 := keys_run hs
    rw [run, Outcome.bind_eq_ok] at hs
    obtain ⟨s1, h1, h2⟩ := hs
    have hn0 := hn
    rw [h0, List.nodup_append] at hn0
    exact ih (good_step hg h1) (held_step hg.r hn0.1 h h1) h2

/-- What never changes in a node. -/
theorem const_step {s s' : Sys D} {e : Ev D} (hs : step s e = .ok s') : s'.stages = s.stages ∧ s'.fw.dropUntil = s.fw.dropUntil := by
  cases step_shape hs with
  | fw _ h => exact ⟨rfl, (Firewall.step_const h.1).2.2⟩
  | allow _ _ h => exact ⟨rfl, (Firewall.step_const h.1).2.2⟩
  | read _ _ h => exact ⟨rfl, (Firewall.step_const h.1).2.2⟩
  | _ => exact ⟨rfl, rfl⟩

theorem const_run {s s' : Sys D} {es : List (Ev D)} (hs : run s es = .ok s') : s'.stages = s.stages ∧ s'.fw.dropUntil = s.fw.dropUntil := by
  induction es generalizing s with
  | nil => have := Outcome.ok.inj hs; subst this; exact ⟨rfl, rfl⟩
  | cons e es ih =>
    rw [run, Outcome.bind_eq_ok] at hs
    obtain ⟨s1, h1, h2⟩ := hs
    obtain ⟨a, b⟩ := const_step h1
    obtain ⟨a', b'⟩ := ih h2
    exact ⟨a'.trans a, b'.trans b⟩

end Verif.Node
