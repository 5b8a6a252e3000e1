import Verif.Proofs.NodeShape

/-! Where the runs of a node come from: every run object, and every message on its way to one, belongs to a runner. -/
namespace Verif.Registry

/-- What an event does to the objects and the channels. -/
structure Frame (s : Reg) (e : Ev) (s' : Reg) : Prop where
  back : ∀ (r : Nat) (o' : Obj), s'.objs[r]? = some o' →
    (∃ o, s.objs[r]? = some o ∧ o'.key = o.key ∧ (o'.terminated = true → o.terminated = true ∨ e = .finish r)) ∨
    (r = s.objs.length ∧ e = .ensure o'.key ∧ o'.terminated = false)
  fwd : ∀ (r : Nat) (o : Obj), s.objs[r]? = some o → ∃ o', s'.objs[r]? = some o' ∧ o'.key = o.key ∧
    (o.terminated = true → o'.terminated = true) ∧ o.started ≤ o'.started
  chan : ∀ (c : Nat) (ch : Chan), s.chans[c]? = some ch → ∃ ch', s'.chans[c]? = some ch' ∧ ch'.key = ch.key ∧ ch.sent ≤ ch'.sent
  obs : ∀ k, e = .obs k → ∃ ch, s'.chans[s.chans.length]? = some ch ∧ ch.key = k
  recv : ∀ c, e = .recv c → ∃ ch, s.chans[c]? = some ch ∧ (0 < ch.unread ∨ ch.closed = true)
  fin : ∀ r, e = .finish r → ∃ o', s'.objs[r]? = some o' ∧ o'.terminated = true
  len : s.objs.length ≤ s'.objs.length ∧ s'.objs.length ≤ s.objs.length + 1

theorem frame_same {s s' : Reg} {e : Ev} (ho : s'.objs = s.objs) (hc : s'.chans = s.chans) (h1 : ∀ k, e ≠ .obs k)
    (h2 : ∀ c, e = .recv c → ∃ ch, s.chans[c]? = some ch ∧ (0 < ch.unread ∨ ch.closed = true)) (h3 : ∀ r, e ≠ .finish r) : Frame s e s' := by
  refine ⟨?_, ?_, ?_, fun k e => absurd e (h1 k), h2, fun r e => absurd e (h3 r), by rw [ho]; omega⟩
  · intro r o' h; rw [ho] at h; exact .inl ⟨o', h, rfl, .inl⟩
  · intro r o h; exact ⟨o, by rw [ho]; exact h, rfl, id, Nat.le_refl _⟩
  · intro c ch h; exact ⟨ch, by rw [hc]; exact h, rfl, Nat.le_refl _⟩

theorem frame_chan {s s' : Reg} {e : Ev} {c : Nat} {ch ch' : Chan} (hch : s.chans[c]? = some ch) (ho : s'.objs = s.objs)
    (hc : s'.chans = s.chans.set c ch') (hk : ch'.key = ch.key) (hs : ch.sent ≤ ch'.sent) (h1 : ∀ k, e ≠ .obs k)
    (h2 : ∀ c, e = .recv c → ∃ ch, s.chans[c]? = some ch ∧ (0 < ch.unread ∨ ch.closed = true)) (h3 : ∀ r, e ≠ .finish r) : Frame s e s' := by
  refine ⟨?_, ?_, ?_, fun k e => absurd e (h1 k), h2, fun r e => absurd e (h3 r), by rw [ho]; omega⟩
  · intro r o' h; rw [ho] at h; exact .inl ⟨o', h, rfl, .inl⟩
  · intro r o h; exact ⟨o, by rw [ho]; exact h, rfl, id, Nat.le_refl _⟩
  · intro d dh h
    rw [hc]
    by_cases e : d = c
    · subst e
      have := Option.some.inj (h.symm.trans hch)
      subst this
      exact ⟨ch', List.getElem?_set_self (lt_of_some h), hk, hs⟩
    · exact ⟨dh, by rw [List.getElem?_set_ne (Ne.symm e)]; exact h, rfl, Nat.le_refl _⟩

theorem frame_obj {s s' : Reg} {e : Ev} {r : Nat} {o o' : Obj} (hro : s.objs[r]? = some o) (ho : s'.objs = s.objs.set r o')
    (hc : s'.chans = s.chans) (hk : o'.key = o.key) (ht : o'.terminated = true → o.terminated = true ∨ e = .finish r)
    (ht' : o.terminated = true → o'.terminated = true) (hst : o.started ≤ o'.started)
    (h1 : ∀ k, e ≠ .obs k) (h2 : ∀ c, e ≠ .recv c) (h3 : ∀ r', e = .finish r' → r' = r ∧ o'.terminated = true) : Frame s e s' := by
  refine ⟨?_, ?_, ?_, fun k e => absurd e (h1 k), fun c e => absurd e (h2 c), ?_, by rw [ho, List.length_set]; omega⟩
  · intro i x h
    rw [ho] at h
    rcases getElem?_set_cases hro h with ⟨rfl, rfl⟩ | ⟨_, h⟩
    · exact .inl ⟨o, hro, hk, ht⟩
    · exact .inl ⟨x, h, rfl, .inl⟩
  · intro i x h
    rw [ho]
    by_cases e : i = r
    · subst e
      have := Option.some.inj (h.symm.trans hro)
      subst this
      exact ⟨o', List.getElem?_set_self (lt_of_some h), hk, ht', hst⟩
    · exact ⟨x, by rw [List.getElem?_set_ne (Ne.symm e)]; exact h, rfl, id, Nat.le_refl _⟩
  · intro c ch h; exact ⟨ch, by rw [hc]; exact h, rfl, Nat.le_refl _⟩
  · intro r' e
    obtain ⟨rfl, h⟩ := h3 r' e
    exact ⟨o', by rw [ho]; exact List.getElem?_set_self (lt_of_some hro), h⟩

theorem frame_step {s s' : Reg} {e : Ev} (hs : step s e = .ok s') : Frame s e s' := by
  cases e with
  | obs k =>
    have := Outcome.ok.inj hs
    subst this
    refine ⟨fun r o' h => .inl ⟨o', h, rfl, .inl⟩, fun r o h => ⟨o, h, rfl, id, Nat.le_refl _⟩, ?_, ?_, nofun, nofun,
      ⟨Nat.le_refl _, Nat.le_succ _⟩⟩
    · intro c ch h
      exact ⟨ch, by rw [obsTerm]; dsimp only; rw [List.getElem?_append_left (lt_of_some h)]; exact h, rfl, Nat.le_refl _⟩
    · intro k' e
      injection e with e
      subst e
      exact ⟨_, by rw [obsTerm]; dsimp only; rw [List.getElem?_append_right (Nat.le_refl _), Nat.sub_self]; rfl, rfl⟩
  | recv c =>
    rw [step, recv] at hs
    cases hc : s.chans[c]? with
    | none => rw [hc] at hs; cases hs
    | some ch =>
      rw [hc] at hs
      dsimp only at hs
      by_cases h1 : 0 < ch.unread
      · rw [if_pos h1] at hs
        have := Outcome.ok.inj hs
        subst this
        refine frame_chan hc rfl rfl rfl (Nat.le_refl _) nofun ?_ nofun
        intro c' e
        injection e with e
        subst e
        exact ⟨ch, hc, .inl h1⟩
      · rw [if_neg h1] at hs
        by_cases h2 : ch.closed = true
        · rw [if_pos h2] at hs
          have := Outcome.ok.inj hs
          subst this
          refine frame_same rfl rfl nofun ?_ nofun
          intro c' e
          injection e with e
          subst e
          exact ⟨ch, hc, .inr h2⟩
        · rw [if_neg h2] at hs; cases hs
  | ensure k =>
    have := Outcome.ok.inj hs
    subst this
    rw [ensure]
    cases hk : s.runs.get? k with
    | some r => exact frame_same rfl rfl nofun nofun nofun
    | none =>
      refine ⟨?_, ?_, fun c ch h => ⟨ch, h, rfl, Nat.le_refl _⟩, nofun, nofun, nofun, by dsimp only; rw [List.length_append]; simp⟩
      · intro r o' h
        dsimp only at h
        rcases Firewall.getElem?_concat_some h with ⟨rfl, rfl⟩ | ⟨_, h⟩
        · exact .inr ⟨rfl, rfl, rfl⟩
        · exact .inl ⟨o', h, rfl, .inl⟩
      · intro r o h
        exact ⟨o, Firewall.getElem?_concat_old _ h, rfl, id, Nat.le_refl _⟩
  | delete k => have := Outcome.ok.inj hs; subst this; exact frame_same rfl rfl nofun nofun nofun
  | finish r =>
    rw [step, finish] at hs
    cases ho : s.objs[r]? with
    | none => rw [ho] at hs; cases hs
    | some o =>
      rw [ho] at hs
      dsimp only at hs
      by_cases hlt : o.ended < o.started
      · rw [if_pos hlt] at hs
        have := Outcome.ok.inj hs
        subst this
        exact frame_obj ho rfl rfl rfl (fun _ => .inr rfl) (fun _ => rfl) (Nat.le_refl _) nofun nofun
          (fun r' e => ⟨by injection e with e; exact e.symm, rfl⟩)
      · rw [if_neg hlt] at hs; cases hs
  | task i =>
    rw [step, taskStep] at hs
    cases hi : s.tasks[i]? with
    | none => rw [hi] at hs; cases hs
    | some t =>
      rw [hi] at hs
      cases t with
      | look k c =>
        dsimp only at hs
        cases hk : s.runs.get? k <;> (rw [hk] at hs; have := Outcome.ok.inj hs; subst this; exact frame_same rfl rfl nofun nofun nofun)
      | read k c r =>
        dsimp only at hs
        cases ho : s.objs[r]? with
        | none => rw [ho] at hs; cases hs
        | some o =>
          rw [ho] at hs
          dsimp only at hs
          by_cases hterm : o.terminated = true
          · rw [if_pos hterm] at hs
            have := Outcome.ok.inj hs
            subst this; exact frame_same rfl rfl nofun nofun nofun
          · rw [if_neg hterm] at hs
            have := Outcome.ok.inj hs
            subst this; exact frame_same rfl rfl nofun nofun nofun
      | update k => have := Outcome.ok.inj hs; subst this; exact frame_same rfl rfl nofun nofun nofun
      | notify cs =>
        cases cs with
        | nil => have := Outcome.ok.inj hs; subst this; exact frame_same rfl rfl nofun nofun nofun
        | cons c cs =>
          dsimp only at hs
          cases hc : s.chans[c]? with
          | none => rw [hc] at hs; cases hs
          | some ch =>
            rw [hc] at hs
            dsimp only at hs
            by_cases hcl : ch.closed = true
            · rw [if_pos hcl] at hs; cases hs
            · rw [if_neg hcl] at hs
              by_cases hu : ch.unread < 1
              · rw [if_pos hu] at hs
                have := Outcome.ok.inj hs
                subst this; exact frame_chan hc rfl rfl rfl (Nat.le_succ _) nofun nofun nofun
              · rw [if_neg hu] at hs; cases hs
      | closing c cs =>
        dsimp only at hs
        cases hc : s.chans[c]? with
        | none => rw [hc] at hs; cases hs
        | some ch =>
          rw [hc] at hs
          dsimp only at hs
          by_cases hcl : ch.closed = true
          · rw [if_pos hcl] at hs; cases hs
          · rw [if_neg hcl] at hs
            have := Outcome.ok.inj hs
            subst this; exact frame_chan hc rfl rfl rfl (Nat.le_refl _) nofun nofun nofun
      | start r =>
        dsimp only at hs
        cases ho : s.objs[r]? with
        | none => rw [ho] at hs; cases hs
        | some o =>
          rw [ho] at hs
          have := Outcome.ok.inj hs
          subst this
          exact frame_obj ho rfl rfl rfl .inl id (Nat.le_succ _) nofun nofun nofun

end Verif.Registry

namespace Verif.Node
open Verif.Registry (getElem?_set_cases lt_of_some)
variable {D : Type}

/-- Some runner for `k` has asked the firewall for an allowance. -/
def Own (s : Sys D) (k : RunKey) : Prop := ∃ u ∈ s.runners, 2 ≤ u.pos ∧ u.key = k

theorem Own.mono {s s' : Sys D} (h : RunnersLe s.runners s'.runners) {k : RunKey} (hs : Own s k) : Own s' k := by
  obtain ⟨u, hu, hp, hk⟩ := hs
  obtain ⟨j, hj⟩ := List.mem_iff_getElem?.1 hu
  obtain ⟨u', hu', hk', hp'⟩ := h j u hj
  exact ⟨u', List.mem_iff_getElem?.2 ⟨j, hu'⟩, by omega, hk'.trans hk⟩

/-- What is known of where things come from. -/
structure Orig (s : Sys D) : Prop where
  runs : Registry.RunsInv s.reg
  obs : Registry.ObsInv s.reg
  way : ∀ q, ∀ m ∈ seq s q, ¬ m.pc < 0 → Own s m.key
  obj : ∀ (r : Nat) (o : Registry.Obj), s.reg.objs[r]? = some o → Own s o.key
  chan : ∀ (j : Nat) (u : Runner), s.runners[j]? = some u → 1 ≤ u.pos →
    ∃ ch, s.reg.chans[u.chan]? = some ch ∧ ch.key = u.key ∧ (6 ≤ u.pos → 0 < ch.sent)

theorem orig_make (stages : Int → Nat) (nil : D) (nprots : Nat) (guests : Int → Bool) (du now : Int) :
    Orig (make stages nil nprots guests du now) := by
  refine ⟨Registry.runsInv_init, Registry.obsInv_init, ?_, ?_, ?_⟩
  · intro q m hm; cases hm
  · intro r o ho; cases ho
  · intro j u hu; cases hu

/-- A runner that did not touch its channel. -/
def Kept (l l' : List Runner) : Prop :=
  ∀ (j : Nat) (u' : Runner), l'[j]? = some u' → 1 ≤ u'.pos →
    ∃ u, l[j]? = some u ∧ 1 ≤ u.pos ∧ u.chan = u'.chan ∧ u.key = u'.key ∧ (6 ≤ u'.pos → 6 ≤ u.pos)

theorem Kept.refl (l : List Runner) : Kept l l := fun _ u h hp => ⟨u, h, hp, rfl, rfl, id⟩

theorem kept_set {l : List Runner} {j : Nat} {u u' : Runner} (h : l[j]? = some u) (hk : u'.key = u.key) (hp : u'.pos = u.pos + 1)
    (hc : u'.chan = u.chan) (h0 : u.pos ≠ 0) (h5 : u.pos ≠ 5) : Kept l (l.set j u') := by
  intro i v hv hpos
  rcases getElem?_set_cases h hv with ⟨rfl, rfl⟩ | ⟨_, hv⟩
  · exact ⟨u, h, by omega, hc.symm, hk.symm, by omega⟩
  · exact ⟨v, hv, hpos, rfl, rfl, id⟩

/-- An event that leaves the registry alone. -/
theorem Orig.still {s s' : Sys D} (h : Orig s) (hreg : s'.reg = s.reg) (hle : RunnersLe s.runners s'.runners) (hk : Kept s.runners s'.runners)
    (hseq : ∀ q, ∀ m ∈ seq s' q, m ∈ seq s q ∨ (¬ m.pc < 0 → Own s' m.key)) : Orig s' := by
  refine ⟨by rw [hreg]; exact h.runs, by rw [hreg]; exact h.obs, ?_, ?_, ?_⟩
  · intro q m hm hn
    rcases hseq q m hm with hm | hm
    · exact (h.way q m hm hn).mono hle
    · exact hm hn
  · intro r o ho
    rw [hreg] at ho
    exact (h.obj r o ho).mono hle
  · intro j u' hu' hp'
    obtain ⟨u, hu, hp, e1, e2, e3⟩ := hk j u' hu' hp'
    obtain ⟨ch, h1, h2, h3⟩ := h.chan j u hu hp
    rw [hreg, ← e1, ← e2]
    exact ⟨ch, h1, h2, fun x => h3 (e3 x)⟩

/-- A registry event. -/
theorem Orig.event {s s' : Sys D} (h : Orig s) {re : Registry.Ev} (hs : Registry.step s.reg re = .ok s'.reg)
    (hle : RunnersLe s.runners s'.runners)
    (hens : ∀ k, re = .ensure k → Own s' k)
    (hk : ∀ (j : Nat) (u' : Runner), s'.runners[j]? = some u' → 1 ≤ u'.pos →
      (∃ u, s.runners[j]? = some u ∧ 1 ≤ u.pos ∧ u.chan = u'.chan ∧ u.key = u'.key ∧ (6 ≤ u'.pos → 6 ≤ u.pos ∨ re = .recv u.chan)) ∨
      (u'.pos = 1 ∧ re = .obs u'.key ∧ u'.chan = s.reg.chans.length))
    (hseq : ∀ q, ∀ m ∈ seq s' q, m ∈ seq s q) : Orig s' := by
  have hf := Registry.frame_step hs
  have hobs := Registry.obsInv_step h.obs h.runs hs
  refine ⟨Registry.runsInv_step h.runs hs, hobs, fun q m hm hn => (h.way q m (hseq q m hm) hn).mono hle, ?_, ?_⟩
  · intro r o ho
    rcases hf.back r o ho with ⟨o0, h1, h2, _⟩ | ⟨_, h1, _⟩
    · rw [h2]; exact (h.obj r o0 h1).mono hle
    · exact hens _ h1
  · intro j u' hu' hp'
    rcases hk j u' hu' hp' with ⟨u, hu, hp, e1, e2, e3⟩ | ⟨e1, e2, e3⟩
    · obtain ⟨ch, h1, h2, h3⟩ := h.chan j u hu hp
      obtain ⟨ch', g1, g2, g3⟩ := hf.chan _ ch h1
      refine ⟨ch', by rw [← e1]; exact g1, by rw [← e2, g2, h2], fun x => ?_⟩
      rcases e3 x with x | x
      · have := h3 x; omega
      · obtain ⟨ch2, f1, f2⟩ := hf.recv _ x
        have := Option.some.inj (f1.symm.trans h1)
        subst this
        obtain ⟨_, i2, i3⟩ := h.obs.once _ ch2 h1
        rcases f2 with f2 | f2
        · omega
        · rw [f2] at i2
          simp only [if_true] at i2
          omega
    · obtain ⟨ch, g1, g2⟩ := hf.obs _ e2
      exact ⟨ch, by rw [e3]; exact g1, g2, by omega⟩

theorem own_of_state {s : Sys D} (hR : RInv s.fw s.runners) {k : RunKey} (h : s.fw.state.get? k ≠ none) : Own s k := by
  cases hst : s.fw.state.get? k with
  | none => exact absurd hst h
  | some v =>
    obtain ⟨i, c, hact, hck⟩ := hR.fw.stated _ _ hst
    obtain ⟨j, u, hu, hp, _, hk⟩ := hR.owner i c hact.1
    exact ⟨u, List.mem_iff_getElem?.2 ⟨j, hu⟩, hp, hk.trans hck⟩

theorem seq_fed {s : Sys D} {new : List (Message D)} {qs : Int × Int → List (Message D)} (h : Fed s new qs) {s' : Sys D}
    {q : Int × Int} {m : Message D} (hm : m ∈ seq s' q) (hc : s'.cons = s.cons) (hq : s'.queues = qs) :
    m ∈ seq s q ∨ (m ∈ new ∧ q = (m.pc, m.rcpt) ∧ inRange s.stages m) := by
  rw [seq, hc, hq] at hm
  obtain ⟨add, h1, h2⟩ := h q
  rw [h1, ← List.append_assoc, List.mem_append] at hm
  exact hm.imp (fun x => x) (fun x => h2 m x)

theorem new_out {s : Sys D} (hR : RInv s.fw s.runners) {fe : Firewall.Ev D} {f' : Firewall.Fw D}
    (hs : Firewall.step s.fw fe = .ok f') {m : Message D} (hm : m ∈ f'.out.drop s.fw.out.length) :
    Firewall.keyValid s.fw m.key = true ∧ (Own s m.key ∨ ∃ a, fe = .allow m.key a) := by
  obtain ⟨new, h1, h2, h3⟩ := Firewall.step_out hR.fw hs
  have hd : f'.out.drop s.fw.out.length = new := by rw [h1]; simp
  rw [hd] at hm
  refine ⟨h2 m hm, ?_⟩
  by_cases ha : ∃ a, fe = .allow m.key a
  · exact .inr ha
  · left
    refine own_of_state hR fun hn => ?_
    exact (h3 m.key hn (fun a e => ha ⟨a, e⟩)).2 m hm rfl

theorem seq_cons {s s' : Sys D} {q p : Int × Int} {c : Cons D} {m : Message D} (hm : m ∈ seq s' p) (hq : s'.queues = s.queues)
    (hc : s'.cons = update s.cons q c) (hh : ∀ m, m ∈ held c → m ∈ held (s.cons q)) : m ∈ seq s p := by
  rw [seq, hc, hq] at hm
  rw [seq]
  by_cases e : p = q
  · subst e
    rw [update, if_pos rfl, List.mem_append] at hm
    rw [List.mem_append]
    exact hm.imp (hh m) id
  · rw [update, if_neg e] at hm; exact hm

theorem orig_step {s s' : Sys D} (hR : RInv s.fw s.runners) (h : Orig s) {e : Ev D} (hs : step s e = .ok s') : Orig s' := by
  cases step_shape hs with
  | @fw _ fe f' qs he hd =>
    refine h.still rfl (.refl _) (.refl _) fun q m hm => ?_
    refine (seq_fed hd.2 hm rfl rfl).imp id fun ⟨h1, _⟩ _ => ?_
    rcases (new_out hR hd.1 h1).2 with h2 | ⟨a, h2⟩
    · exact h2
    · subst h2
      cases e <;> simp [fwOf] at he
  | reg he hr =>
    refine h.event hr (.refl _) ?_ (fun j u hu hp => .inl ⟨u, hu, hp, rfl, rfl, .inl⟩) (fun q m hm => hm)
    intro k e
    subst e
    cases e <;> simp [regOf] at he
  | launch =>
    refine h.still rfl (runnersLe_append _ _) ?_ (fun q m hm => .inl hm)
    intro j u hu hp
    rcases Firewall.getElem?_concat_some hu with ⟨_, rfl⟩ | ⟨_, hu⟩
    · cases hp
    · exact ⟨u, hu, hp, rfl, rfl, id⟩
  | @take q m ms hc hq =>
    refine h.still rfl (.refl _) (.refl _) fun p x hx => .inl ?_
    rw [seq] at hx ⊢
    dsimp only at hx
    by_cases e : p = q
    · subst e
      rw [update, update, if_pos rfl, if_pos rfl] at hx
      rw [hc, hq]
      exact hx
    · rw [update, update, if_neg e, if_neg e] at hx; exact hx
  | give hc => exact h.still rfl (.refl _) (.refl _) fun p x hx => .inl (seq_cons hx rfl rfl (fun m hm => absurd hm List.not_mem_nil))
  | delete hc hn hv hr =>
    exact h.event hr (.refl _) nofun (fun j u hu hp => .inl ⟨u, hu, hp, rfl, rfl, .inl⟩)
      (fun p x hx => seq_cons hx rfl rfl (fun m hm => absurd hm List.not_mem_nil))
  | @find q m r' hc hn hv hr =>
    refine h.event hr (.refl _) ?_ (fun j u hu hp => .inl ⟨u, hu, hp, rfl, rfl, .inl⟩)
      (fun p x hx => seq_cons hx rfl rfl (fun m hm => absurd hm List.not_mem_nil))
    intro k e
    injection e with e
    subst e
    exact h.way q m (by rw [seq, hc]; simp [held]) hn
  | @observe j u r' hu h0 hv hr =>
    refine h.event hr (runnersLe_set hu rfl (Nat.le_succ _)) nofun ?_ (fun q m hm => hm)
    intro i v hv hp
    rcases getElem?_set_cases hu hv with ⟨rfl, rfl⟩ | ⟨_, hv⟩
    · exact .inr ⟨by dsimp only; omega, rfl, rfl⟩
    · exact .inl ⟨v, hv, hp, rfl, rfl, .inl⟩
  | @allow j u f' qs hu h1 hd =>
    refine h.still rfl (runnersLe_set hu rfl (Nat.le_succ _)) (kept_set hu rfl rfl rfl (by omega) (by omega)) fun q m hm => ?_
    refine (seq_fed hd.2 hm rfl rfl).imp id fun ⟨g1, _⟩ _ => ?_
    rcases (new_out hR hd.1 g1).2 with h2 | ⟨a, h2⟩
    · exact h2.mono (runnersLe_set hu (u' := { u with pos := u.pos + 1, call := s.fw.calls.length }) rfl (Nat.le_succ _))
    · injection h2 with h2
      exact ⟨_, List.mem_iff_getElem?.2 ⟨j, List.getElem?_set_self (lt_of_some hu)⟩, by dsimp only; omega, h2⟩
  | @sleep j u hu h3 ht =>
    exact h.still rfl (runnersLe_set hu rfl (Nat.le_succ _)) (kept_set hu rfl rfl rfl (by omega) (by omega)) fun q m hm => .inl hm
  | @ensure j u r' hu h4 hv hr =>
    refine h.event hr (runnersLe_set hu rfl (Nat.le_succ _)) ?_ ?_ (fun q m hm => hm)
    · intro k e
      injection e with e
      subst e
      exact ⟨_, List.mem_iff_getElem?.2 ⟨j, List.getElem?_set_self (lt_of_some hu)⟩, by dsimp only; omega, rfl⟩
    · intro i v hv hp
      obtain ⟨u0, e1, e2, e3, e4, e5⟩ := kept_set hu (u' := { u with pos := u.pos + 1 }) rfl rfl rfl (by omega) (by omega) i v hv hp
      exact .inl ⟨u0, e1, e2, e3, e4, fun x => .inl (e5 x)⟩
  | @recv j u r' hu h5 hr =>
    refine h.event hr (runnersLe_set hu rfl (Nat.le_succ _)) nofun ?_ (fun q m hm => hm)
    intro i v hv hp
    rcases getElem?_set_cases hu hv with ⟨rfl, rfl⟩ | ⟨_, hv⟩
    · exact .inl ⟨u, hu, by omega, rfl, rfl, fun _ => .inr rfl⟩
    · exact .inl ⟨v, hv, hp, rfl, rfl, .inl⟩
  | @read j u f' qs hu h2 hd =>
    refine h.still rfl (runnersLe_set hu rfl (Nat.le_succ _)) (kept_set hu rfl rfl rfl (by omega) (by omega)) fun q m hm => ?_
    refine (seq_fed hd.2 hm rfl rfl).imp id fun ⟨g1, _⟩ _ => ?_
    rcases (new_out hR hd.1 g1).2 with h3 | ⟨a, h3⟩
    · exact h3.mono (runnersLe_set hu (u' := { u with pos := u.pos + 1 }) rfl (Nat.le_succ _))
    · cases h3
  | @signal j u qs hu h8 hq =>
    refine h.still rfl (runnersLe_set hu rfl (Nat.le_succ _)) (kept_set hu rfl rfl rfl (by omega) (by omega)) fun q m hm => ?_
    rw [seq] at hm
    dsimp only at hm
    obtain ⟨add, g1, g2⟩ := hq q
    rw [g1, ← List.append_assoc, List.mem_append] at hm
    refine hm.imp id fun hm hn => ?_
    obtain ⟨rfl, _⟩ := g2 m hm
    refine ⟨_, List.mem_iff_getElem?.2 ⟨j, List.getElem?_set_self (lt_of_some hu)⟩, by dsimp only; omega, ?_⟩
    have hv := keyValid_nonneg (hR.valid j u hu (by omega))
    have h0 : u.key.pc = 0 := by
      rw [signal] at hn
      dsimp only at hn
      omega
    rw [signal, Message.key]
    dsimp only
    cases hk : u.key
    rw [hk] at h0
    dsimp only at h0
    subst h0
    rfl

theorem orig_run {s s' : Sys D} {k : RunKey} (hg : Good k s) (h : Orig s) {es : List (Ev D)} (hs : run s es = .ok s') : Orig s' := by
  induction es generalizing s with
  | nil => have := Outcome.ok.inj hs; subst this; exact h
  | cons e es ih =>
    rw [run, Outcome.bind_eq_ok] at hs
    obtain ⟨s1, h1, h2⟩ := hs
    exact ih (good_step hg h1) (orig_step hg.r h h1) h2

/-- When a runner for `k` has passed its termination channel, a run with these indices has terminated. -/
theorem Orig.term {s : Sys D} (h : Orig s) {j : Nat} {u : Runner} (hu : s.runners[j]? = some u) (hp : 6 ≤ u.pos) :
    ∃ (r : Nat) (o : Registry.Obj), s.reg.objs[r]? = some o ∧ o.key = u.key ∧ o.terminated = true := by
  obtain ⟨ch, h1, h2, h3⟩ := h.chan j u hu (by omega)
  have := h.obs.after _ ch h1 (.inr (h3 hp))
  rw [h2] at this
  exact this

/-- Two creations, in the order of the log. -/
theorem creations_split {l : List Registry.Entry} {i j : Nat} {a b : RunKey × Nat} (hij : i < j)
    (hi : (Spec.Registry.creations l)[i]? = some a) (hj : (Spec.Registry.creations l)[j]? = some b) :
    ∃ l1 l2 l3, l = l1 ++ .created a.1 a.2 :: (l2 ++ .created b.1 b.2 :: l3) := by
  have mem : ∀ (l : List Registry.Entry) (x : RunKey × Nat), x ∈ Spec.Registry.creations l → Registry.Entry.created x.1 x.2 ∈ l := by
    intro l x hx
    rw [Spec.Registry.creations, List.mem_filterMap] at hx
    obtain ⟨e, he, h⟩ := hx
    cases e with
    | created k r => have := Option.some.inj h; subst this; exact he
    | deleted k => cases h
    | started r => cases h
  induction l generalizing i j with
  | nil => rw [Spec.Registry.creations, List.filterMap_nil, List.getElem?_nil] at hi; cases hi
  | cons e l ih =>
    have skip : Spec.Registry.creations (e :: l) = Spec.Registry.creations l →
        ∃ l1 l2 l3, e :: l = l1 ++ .created a.1 a.2 :: (l2 ++ .created b.1 b.2 :: l3) := by
      intro h
      rw [h] at hi hj
      obtain ⟨l1, l2, l3, rfl⟩ := ih hij hi hj
      exact ⟨e :: l1, l2, l3, rfl⟩
    cases e with
    | deleted k => exact skip rfl
    | started r => exact skip rfl
    | created k r =>
      have e : Spec.Registry.creations (.created k r :: l) = (k, r) :: Spec.Registry.creations l := rfl
      rw [e] at hi hj
      obtain ⟨j, rfl⟩ : ∃ j', j = j' + 1 := ⟨j - 1, by omega⟩
      rw [List.getElem?_cons_succ] at hj
      cases i with
      | zero =>
        rw [List.getElem?_cons_zero] at hi
        have := Option.some.inj hi
        subst this
        obtain ⟨l2, l3, rfl⟩ := List.append_of_mem (mem l b (List.mem_of_getElem? hj))
        exact ⟨[], l2, l3, rfl⟩
      | succ i =>
        rw [List.getElem?_cons_succ] at hi
        obtain ⟨l1, l2, l3, rfl⟩ := ih (by omega) hi hj
        exact ⟨.created k r :: l1, l2, l3, rfl⟩

/-- There is at most one run with given indices, unless a deleted one was created anew. -/
theorem one_obj {s : Registry.Reg} (h : Registry.RunsInv s) {k : RunKey} (hd : Dead k s.log) {r r' : Nat} {o o' : Registry.Obj}
    (ho : s.objs[r]? = some o) (ho' : s.objs[r']? = some o') (hk : o.key = k) (hk' : o'.key = k) : r = r' := by
  have key : ∀ (r r' : Nat) (o o' : Registry.Obj), s.objs[r]? = some o → s.objs[r']? = some o' → o.key = k → o'.key = k → ¬ r < r' := by
    intro r r' o o' ho ho' hk hk' hlt
    have at_ : ∀ (r : Nat) (o : Registry.Obj), s.objs[r]? = some o → o.key = k → (Spec.Registry.creations s.log)[r]? = some (k, r) := by
      intro r o ho hk
      rw [h.made, List.getElem?_zipIdx, List.getElem?_map, ho]
      simp [hk]
    obtain ⟨l1, l2, l3, e⟩ := creations_split hlt (at_ r o ho hk) (at_ r' o' ho' hk')
    dsimp only at e
    have hf := h.fresh (l1 ++ .created k r :: l2) k r' l3 (by rw [e]; simp)
    by_cases hm : Registry.Entry.deleted k ∈ l2
    · obtain ⟨a, b, rfl⟩ := List.append_of_mem hm
      refine hd (l1 ++ .created k r :: a) (b ++ .created k r' :: l3) r' (by rw [e]; simp) (by simp)
    · exact Spec.Registry.live_of_created k r l1 l2 hm hf
  have h1 := key r r' o o' ho ho' hk hk'
  have h2 := key r' r o' o ho' ho hk' hk
  omega

/-- Events of the registry: at most one for each of the node, and the end of a stepping thread only when it is one. -/
theorem reg_event {s s' : Sys D} {e : Ev D} (hs : step s e = .ok s') :
    s'.reg = s.reg ∨ ∃ re, Registry.step s.reg re = .ok s'.reg ∧ ∀ r, re = .finish r → e = .finish r := by
  cases step_shape hs with
  | fw => exact .inl rfl
  | reg he hr =>
    refine .inr ⟨_, hr, fun r h => ?_⟩
    subst h
    cases e <;> simp [regOf] at he
    exact congrArg _ he
  | launch => exact .inl rfl
  | take => exact .inl rfl
  | give => exact .inl rfl
  | delete _ _ _ hr => exact .inr ⟨_, hr, nofun⟩
  | find _ _ _ hr => exact .inr ⟨_, hr, nofun⟩
  | observe _ _ _ hr => exact .inr ⟨_, hr, nofun⟩
  | allow => exact .inl rfl
  | sleep => exact .inl rfl
  | ensure _ _ _ hr => exact .inr ⟨_, hr, nofun⟩
  | recv _ _ hr => exact .inr ⟨_, hr, nofun⟩
  | read => exact .inl rfl
  | signal => exact .inl rfl

/-- Runners only advance, and consumers do nothing but at their own events. -/
theorem aside_step {s s' : Sys D} {e : Ev D} (hs : step s e = .ok s') :
    RunnersLe s.runners s'.runners ∧ ∀ q, e ≠ .cons q → s'.cons q = s.cons q := by
  have other : ∀ {q : Int × Int} {c : Cons D} (p : Int × Int), Ev.cons (D := D) q ≠ .cons p → update s.cons q c p = s.cons p := by
    intro q c p hp
    rw [update, if_neg fun h => hp (by rw [h])]
  cases step_shape hs with
  | fw => exact ⟨.refl _, fun _ _ => rfl⟩
  | reg he hr => exact ⟨.refl _, fun _ _ => rfl⟩
  | launch => exact ⟨runnersLe_append _ _, fun _ _ => rfl⟩
  | take => exact ⟨.refl _, fun p => other p⟩
  | give => exact ⟨.refl _, fun p => other p⟩
  | delete => exact ⟨.refl _, fun p => other p⟩
  | find => exact ⟨.refl _, fun p => other p⟩
  | observe hu => exact ⟨runnersLe_set hu rfl (Nat.le_succ _), fun _ _ => rfl⟩
  | allow hu => exact ⟨runnersLe_set hu rfl (Nat.le_succ _), fun _ _ => rfl⟩
  | sleep hu => exact ⟨runnersLe_set hu rfl (Nat.le_succ _), fun _ _ => rfl⟩
  | ensure hu => exact ⟨runnersLe_set hu rfl (Nat.le_succ _), fun _ _ => rfl⟩
  | recv hu => exact ⟨runnersLe_set hu rfl (Nat.le_succ _), fun _ _ => rfl⟩
  | read hu => exact ⟨runnersLe_set hu rfl (Nat.le_succ _), fun _ _ => rfl⟩
  | signal hu => exact ⟨runnersLe_set hu rfl (Nat.le_succ _), fun _ _ => rfl⟩

theorem RunnersLe.trans {a b c : List Runner} (h : RunnersLe a b) (h' : RunnersLe b c) : RunnersLe a c := by
  intro j u hu
  obtain ⟨v, hv, hk, hp⟩ := h j u hu
  obtain ⟨w, hw, hk', hp'⟩ := h' j v hv
  exact ⟨w, hw, hk'.trans hk, by omega⟩

end Verif.Node
