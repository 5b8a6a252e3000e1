import Verif.Proofs.NodeOrigin

/-! What holds of every message from the network holds of every message in a node. -/
namespace Verif.Firewall
variable {D : Type}

/-- The buffered messages satisfy `W`. -/
def Bufs (W : Message D → Prop) (f : Fw D) : Prop := ∀ k b, f.buffer.get? k = some b → ∀ m ∈ b, W m

theorem bufs_step {W : Message D → Prop} {f f' : Fw D} (h : Bufs W f) {e : Ev D} (hw : ∀ m, e = .msg m → W m)
    (hs : step f e = .ok f') : Bufs W f' ∧ ∀ m ∈ f'.out.drop f.out.length, W m := by
  cases e with
  | tick t =>
    obtain ⟨_, rfl⟩ := step_tick_cases hs
    exact ⟨h, by simp⟩
  | latch =>
    obtain ⟨_, _, rfl⟩ := step_latch_cases hs
    exact ⟨h, by simp⟩
  | msg m =>
    have hm := hw m rfl
    rw [step] at hs
    have := Outcome.ok.inj hs
    subst this
    rcases process_cases f m with e | ⟨_, _, _, _, e⟩ | ⟨_, _, _, e⟩
    · rw [e]; exact ⟨h, by simp⟩
    · rw [e]
      refine ⟨fun k b hb x hx => ?_, by simp⟩
      dsimp only at hb
      rw [GoMap.get?_set] at hb
      by_cases hk : m.key = k
      · rw [if_pos hk] at hb
        have := Option.some.inj hb
        subst this
        rcases List.mem_append.1 hx with hx | hx
        · cases hg : f.buffer.get? m.key with
          | none => rw [hg] at hx; cases hx
          | some b => rw [hg] at hx; exact h _ b hg x hx
        · rw [List.mem_singleton] at hx; subst hx; exact hm
      · rw [if_neg hk] at hb; exact h k b hb x hx
    · rw [e]
      exact ⟨h, by simp [hm]⟩
  | allow k a =>
    rw [step] at hs
    obtain ⟨_, ⟨b, _, rfl⟩ | ⟨_, rfl⟩⟩ := setAllowance_cases hs
    · exact ⟨h, by simp⟩
    · exact ⟨h, by simp⟩
  | step i =>
    rw [step] at hs
    obtain ⟨c, _, _, ⟨_, rfl⟩ | ⟨_, _, _, rfl⟩ | ⟨_, _, _, rfl⟩ | ⟨_, _, _, rfl⟩⟩ := stateStep_cases hs
    · exact ⟨h, by simp⟩
    · exact ⟨h, by simp⟩
    · refine ⟨fun k b hb => ?_, fun m hm => ?_⟩
      · dsimp only at hb
        rw [GoMap.get?_delete] at hb
        by_cases hk : c.key = k
        · rw [if_pos hk] at hb; cases hb
        · rw [if_neg hk] at hb; exact h k b hb
      · dsimp only at hm
        rw [List.drop_left] at hm
        cases hg : f.buffer.get? c.key with
        | none => rw [hg] at hm; cases hm
        | some b => rw [hg] at hm; exact h _ b hg m hm
    · exact ⟨h, by simp⟩
  | read j =>
    obtain ⟨c, _, _, rfl⟩ := step_read_cases hs
    exact ⟨h, by simp⟩

end Verif.Firewall

namespace Verif.Node
variable {D : Type}

/-- The messages in the node satisfy `W`, and those past `_receive_msg` are for some stage of their protocol. -/
structure Carry (W : Message D → Prop) (s : Sys D) : Prop where
  buf : Firewall.Bufs W s.fw
  way : ∀ q, ∀ m ∈ seq s q, ¬ m.pc < 0 → W m ∧ inRange s.stages m
  hold : ∀ q m, s.cons q = .found m → W m ∧ inRange s.stages m

theorem carry_make (W : Message D → Prop) (stages : Int → Nat) (nil : D) (nprots : Nat) (guests : Int → Bool) (du now : Int) :
    Carry W (make stages nil nprots guests du now) := by
  refine ⟨?_, ?_, ?_⟩
  · intro k b hb; cases hb
  · intro q m hm; cases hm
  · intro q m hm; cases hm

theorem carry_step {W : Message D → Prop} {s s' : Sys D} (h : Carry W s)
    (hpc : ∀ u ∈ s.runners, 0 < u.key.pc ∨ (W (signal s u.key) ∧ inRange s.stages (signal s u.key))) {e : Ev D}
    (hw : ∀ m, e = .net m → W m) (hs : step s e = .ok s') : Carry W s' := by
  have fed : ∀ {t : Sys D} {fe : Firewall.Ev D} {f' : Firewall.Fw D} {qs : Int × Int → List (Message D)}, FwDone s fe f' qs →
      (∀ m, fe = .msg m → W m) → t.fw = f' → t.cons = s.cons → t.queues = qs → t.stages = s.stages → Carry W t := by
    intro t fe f' qs hd hm e1 e2 e3 e4
    obtain ⟨b1, b2⟩ := Firewall.bufs_step h.buf hm hd.1
    refine ⟨by rw [e1]; exact b1, fun q m hm hn => ?_, fun q m hq => by rw [e2] at hq; rw [e4]; exact h.hold q m hq⟩
    rw [e4]
    rcases seq_fed hd.2 hm e2 e3 with hm | ⟨g1, _, g3⟩
    · exact h.way q m hm hn
    · exact ⟨b2 m g1, g3⟩
  have still : ∀ {t : Sys D}, t.fw = s.fw → t.stages = s.stages → (∀ q, ∀ m ∈ seq t q, ¬ m.pc < 0 → m ∈ seq s q) →
      (∀ q m, t.cons q = .found m → W m ∧ inRange s.stages m) → Carry W t := by
    intro t e1 e2 h1 h2
    exact ⟨by rw [e1]; exact h.buf, fun q m hm hn => by rw [e2]; exact h.way q m (h1 q m hm hn) hn, fun q m hq => by rw [e2]; exact h2 q m hq⟩
  have upd : ∀ {q : Int × Int} {c : Cons D} (p : Int × Int) (m : Message D), (c = .found m → W m ∧ inRange s.stages m) →
      update s.cons q c p = .found m → W m ∧ inRange s.stages m := by
    intro q c p m hc hp
    rw [update] at hp
    by_cases e : p = q
    · rw [if_pos e] at hp; exact hc hp
    · rw [if_neg e] at hp; exact h.hold p m hp
  cases step_shape hs with
  | @fw _ fe f' qs he hd =>
    refine fed hd ?_ rfl rfl rfl rfl
    intro m hm
    subst hm
    cases e <;> simp [fwOf] at he
    exact hw m (by rw [he])
  | reg he hr => exact still rfl rfl (fun q m hm _ => hm) h.hold
  | launch => exact still rfl rfl (fun q m hm _ => hm) h.hold
  | @take q m ms hc hq =>
    refine still rfl rfl (fun p x hx _ => ?_) (fun p x => upd p x (fun e => by cases e))
    rw [seq] at hx ⊢
    dsimp only at hx
    by_cases e : p = q
    · subst e
      rw [update, update, if_pos rfl, if_pos rfl] at hx
      rw [hc, hq]
      exact hx
    · rw [update, update, if_neg e, if_neg e] at hx; exact hx
  | give hc =>
    exact still rfl rfl (fun p x hx _ => seq_cons hx rfl rfl (fun m hm => absurd hm List.not_mem_nil)) (fun p x => upd p x (fun e => by cases e))
  | delete hc hn hv hr =>
    exact still rfl rfl (fun p x hx _ => seq_cons hx rfl rfl (fun m hm => absurd hm List.not_mem_nil)) (fun p x => upd p x (fun e => by cases e))
  | @find q m r' hc hn hv hr =>
    refine still rfl rfl (fun p x hx _ => seq_cons hx rfl rfl (fun m hm => absurd hm List.not_mem_nil)) (fun p x => upd p x (fun e => ?_))
    injection e with e
    subst e
    exact h.way q m (by rw [seq, hc]; simp [held]) hn
  | observe hu h0 hv hr => exact still rfl rfl (fun q m hm _ => hm) h.hold
  | allow hu h1 hd => exact fed hd (fun m hm => by cases hm) rfl rfl rfl rfl
  | sleep => exact still rfl rfl (fun q m hm _ => hm) h.hold
  | ensure hu h0 hv hr => exact still rfl rfl (fun q m hm _ => hm) h.hold
  | recv hu h0 hr => exact still rfl rfl (fun q m hm _ => hm) h.hold
  | read hu h1 hd => exact fed hd (fun m hm => by cases hm) rfl rfl rfl rfl
  | @signal j u qs hu h8 hq =>
    refine ⟨h.buf, fun q m hm hn => ?_, h.hold⟩
    rw [seq] at hm
    dsimp only at hm ⊢
    obtain ⟨add, g1, g2⟩ := hq q
    rw [g1, ← List.append_assoc, List.mem_append] at hm
    rcases hm with hm | hm
    · exact h.way q m hm hn
    · obtain ⟨rfl, _⟩ := g2 m hm
      rcases hpc u (List.mem_of_getElem? hu) with hp | hp
      · rw [signal] at hn
        dsimp only at hn
        omega
      · exact hp

end Verif.Node
