import Verif.Proofs.NodeOrigin
import Verif.Props.Registry

/-! A node whose runs are for protocols and guests that it knows never panics. -/
namespace Verif.Node
open Verif.Registry (lt_of_some)
variable {D : Type}

/-- The runners are for known protocols and guests, and every signal comes from a runner. -/
structure Sound (s : Sys D) : Prop where
  valid : ∀ u ∈ s.runners, 0 ≤ u.key.pc ∧ Firewall.keyValid s.fw u.key = true
  sig : ∀ q, ∀ m ∈ seq s q, m.pc < 0 → ∃ u ∈ s.runners, u.key = target m

theorem sound_make (stages : Int → Nat) (nil : D) (nprots : Nat) (guests : Int → Bool) (du now : Int) :
    Sound (make stages nil nprots guests du now) :=
  ⟨fun u hu => absurd hu List.not_mem_nil, fun q m hm => by cases hm⟩

theorem key_set {l : List Runner} {j : Nat} {u v : Runner} (hu : l[j]? = some u) (hk : v.key = u.key) :
    (l.set j v).map Runner.key = l.map Runner.key := by
  rw [List.map_set]
  refine List.ext_getElem? fun i => ?_
  rw [List.getElem?_set]
  by_cases e : j = i
  · subst e
    rw [if_pos rfl, List.length_map, if_pos (lt_of_some hu), List.getElem?_map, hu, hk]
    rfl
  · rw [if_neg e]

theorem sound_step {s s' : Sys D} (hR : RInv s.fw s.runners) (h : Sound s) {e : Ev D}
    (hl : ∀ k a, e = .launch k a → 0 ≤ k.pc ∧ Firewall.keyValid s.fw k = true) (hs : step s e = .ok s') : Sound s' := by
  have mk : ∀ {t : Sys D}, t.runners.map Runner.key = s.runners.map Runner.key → (∀ k, Firewall.keyValid t.fw k = Firewall.keyValid s.fw k) →
      (∀ q, ∀ m ∈ seq t q, m.pc < 0 → m ∈ seq s q ∨ ∃ u ∈ s.runners, u.key = target m) → Sound t := by
    intro t h1 h2 h3
    refine ⟨fun u hu => ?_, fun q m hm hn => ?_⟩
    · have : u.key ∈ s.runners.map Runner.key := by rw [← h1]; exact List.mem_map_of_mem hu
      obtain ⟨v, hv, hk⟩ := List.mem_map.1 this
      rw [h2, ← hk]
      exact h.valid v hv
    · have : ∃ v ∈ s.runners, v.key = target m := (h3 q m hm hn).elim (fun x => h.sig q m x hn) id
      obtain ⟨v, hv, hk⟩ := this
      have : v.key ∈ t.runners.map Runner.key := by rw [h1]; exact List.mem_map_of_mem hv
      obtain ⟨w, hw, hk'⟩ := List.mem_map.1 this
      exact ⟨w, hw, hk'.trans hk⟩
  have conf : ∀ {fe : Firewall.Ev D} {f' : Firewall.Fw D} {qs : Int × Int → List (Message D)}, FwDone s fe f' qs →
      ∀ k, Firewall.keyValid f' k = Firewall.keyValid s.fw k := by
    intro fe f' qs hd k
    obtain ⟨e1, e2⟩ := Firewall.step_conf hd.1
    exact Firewall.keyValid_congr e1 e2 k
  have fed : ∀ {t : Sys D} {fe : Firewall.Ev D} {f' : Firewall.Fw D} {qs : Int × Int → List (Message D)}, FwDone s fe f' qs →
      t.cons = s.cons → t.queues = qs → ∀ q, ∀ m ∈ seq t q, m.pc < 0 → m ∈ seq s q ∨ ∃ u ∈ s.runners, u.key = target m := by
    intro t fe f' qs hd e2 e3 q m hm hn
    rcases seq_fed hd.2 hm e2 e3 with hm | ⟨g1, _, _⟩
    · exact .inl hm
    · have := (new_out hR hd.1 g1).1
      rw [Firewall.keyValid, Bool.and_eq_true, Bool.and_eq_true, decide_eq_true_eq] at this
      have := this.1.1
      rw [Message.key] at this
      dsimp only at this
      omega
  cases step_shape hs with
  | fw he hd => exact mk rfl (conf hd) (fed hd rfl rfl)
  | reg he hr => exact mk rfl (fun _ => rfl) (fun q m hm _ => .inl hm)
  | @launch k a =>
    refine ⟨fun u hu => ?_, fun q m hm hn => ?_⟩
    · rcases List.mem_append.1 hu with hu | hu
      · exact h.valid u hu
      · rw [List.mem_singleton] at hu
        subst hu
        exact hl k a rfl
    · obtain ⟨u, hu, hk⟩ := h.sig q m hm hn
      exact ⟨u, List.mem_append_left _ hu, hk⟩
  | @take q m ms hc hq =>
    refine mk rfl (fun _ => rfl) (fun p x hx _ => .inl ?_)
    rw [seq] at hx ⊢
    dsimp only at hx
    by_cases e : p = q
    · subst e
      rw [update, update, if_pos rfl, if_pos rfl] at hx
      rw [hc, hq]
      exact hx
    · rw [update, update, if_neg e, if_neg e] at hx; exact hx
  | give hc => exact mk rfl (fun _ => rfl) (fun p x hx _ => .inl (seq_cons hx rfl rfl (fun m hm => absurd hm List.not_mem_nil)))
  | delete hc hn hv hr => exact mk rfl (fun _ => rfl) (fun p x hx _ => .inl (seq_cons hx rfl rfl (fun m hm => absurd hm List.not_mem_nil)))
  | find hc hn hv hr => exact mk rfl (fun _ => rfl) (fun p x hx _ => .inl (seq_cons hx rfl rfl (fun m hm => absurd hm List.not_mem_nil)))
  | observe hu h0 hv hr => exact mk (key_set hu rfl) (fun _ => rfl) (fun q m hm _ => .inl hm)
  | allow hu h1 hd => exact mk (key_set hu rfl) (conf hd) (fed hd rfl rfl)
  | sleep hu _ _ => exact mk (key_set hu rfl) (fun _ => rfl) (fun q m hm _ => .inl hm)
  | ensure hu h0 hv hr => exact mk (key_set hu rfl) (fun _ => rfl) (fun q m hm _ => .inl hm)
  | recv hu h0 hr => exact mk (key_set hu rfl) (fun _ => rfl) (fun q m hm _ => .inl hm)
  | read hu h1 hd => exact mk (key_set hu rfl) (conf hd) (fed hd rfl rfl)
  | @signal j u qs hu h8 hq =>
    refine mk (key_set hu rfl) (fun _ => rfl) (fun q m hm hn => ?_)
    rw [seq] at hm
    dsimp only at hm
    obtain ⟨add, g1, g2⟩ := hq q
    rw [g1, ← List.append_assoc, List.mem_append] at hm
    refine hm.imp id fun hm => ?_
    obtain ⟨rfl, _⟩ := g2 m hm
    refine ⟨u, List.mem_of_getElem? hu, ?_⟩
    rw [target, if_pos hn, signal]
    dsimp only
    rw [Int.neg_neg]

theorem bind_ne_panic {α β : Type} {x : Outcome α} {f : α → Outcome β} (h1 : x ≠ .panic) (h2 : ∀ a, x = .ok a → f a ≠ .panic) :
    (x >>= f) ≠ .panic := by
  cases x with
  | ok a => exact h2 a rfl
  | err => intro h; cases h
  | panic => exact absurd rfl h1

theorem step_safe {s : Sys D} (h : Sound s) (ho : Orig s) (e : Ev D) : step s e ≠ .panic := by
  have fw : ∀ (t : Sys D) (fe : Firewall.Ev D), (∀ k a, fe = .allow k a → Firewall.keyValid t.fw k = true) → fwEvent t fe ≠ .panic := by
    intro t fe hk
    rw [fwEvent]
    refine bind_ne_panic ?_ fun f _ hc => by cases hc
    cases fe with
    | tick x => rw [Firewall.step]; split <;> intro hc <;> cases hc
    | latch => rw [Firewall.step]; split <;> intro hc <;> cases hc
    | msg m => rw [Firewall.step]; intro hc; cases hc
    | allow k a =>
      rw [Firewall.step, Firewall.setAllowance, if_neg (by rw [hk k a rfl]; decide)]
      split <;> intro hc <;> cases hc
    | step i =>
      rw [Firewall.step, Firewall.stateStep]
      cases t.fw.calls[i]? with
      | none => intro hc; cases hc
      | some c =>
        dsimp only
        repeat' split
        all_goals intro hc; cases hc
    | read i =>
      rw [Firewall.step]
      cases t.fw.calls[i]? with
      | none => intro hc; cases hc
      | some c => dsimp only; split <;> intro hc <;> cases hc
  have reg : ∀ (t : Sys D) (re : Registry.Ev), t.reg = s.reg → regEvent t re ≠ .panic := by
    intro t re ht
    rw [regEvent, ht]
    refine bind_ne_panic ?_ fun f _ hc => by cases hc
    cases re with
    | obs k => intro hc; cases hc
    | recv c =>
      rw [Registry.step, Registry.recv]
      cases s.reg.chans[c]? with
      | none => intro hc; cases hc
      | some ch => dsimp only; repeat' split
                   all_goals intro hc; cases hc
    | ensure k => intro hc; cases hc
    | delete k => intro hc; cases hc
    | finish r =>
      rw [Registry.step, Registry.finish]
      cases s.reg.objs[r]? with
      | none => intro hc; cases hc
      | some o => dsimp only; split <;> intro hc <;> cases hc
    | task i =>
      by_cases hi : i < s.reg.tasks.length
      · obtain ⟨s', hs'⟩ := Props.Registry.task_ok ho.runs ho.obs i hi
        rw [hs']; intro hc; cases hc
      · rw [Registry.step, Registry.taskStep, List.getElem?_eq_none (by omega)]
        intro hc; cases hc
  have regAt : ∀ (t : Sys D) (k : RunKey) (re : Registry.Ev), t.reg = s.reg → Firewall.keyValid t.fw k = true → regEventAt t k re ≠ .panic := by
    intro t k re ht hk
    rw [regEventAt, if_pos hk]
    exact reg t re ht
  cases e with
  | tick t => exact fw s _ fun k a he => by cases he
  | latch => exact fw s _ fun k a he => by cases he
  | net m => exact fw s _ fun k a he => by cases he
  | fwStep i => exact fw s _ fun k a he => by cases he
  | finish r => exact reg s _ rfl
  | task i => exact reg s _ rfl
  | launch k a => intro hc; cases hc
  | cons q =>
    rw [step, consume]
    cases hq : s.cons q with
    | idle =>
      dsimp only
      cases s.queues q <;> intro hc <;> cases hc
    | got m =>
      dsimp only
      have hm : m ∈ seq s q := by rw [seq, hq]; simp [held]
      by_cases hn : m.pc < 0
      · rw [if_pos hn]
        refine regAt _ _ _ rfl ?_
        obtain ⟨u, hu, hk⟩ := h.sig q m hm hn
        have := (h.valid u hu).2
        rw [hk, target, if_pos hn] at this
        exact this
      · rw [if_neg hn]
        refine regAt _ _ _ rfl ?_
        obtain ⟨u, hu, _, hk⟩ := ho.way q m hm hn
        rw [← hk]
        exact (h.valid u hu).2
    | found m => intro hc; cases hc
  | runner j =>
    rw [step, runnerStep]
    cases hj : s.runners[j]? with
    | none => intro hc; cases hc
    | some u =>
      have hv := (h.valid u (List.mem_of_getElem? hj)).2
      dsimp only
      split
      · exact regAt _ _ _ rfl hv
      · split
        · exact fw _ _ fun k a he => by cases he; exact hv
        · split
          · split <;> intro hc <;> cases hc
          · split
            · exact regAt _ _ _ rfl hv
            · split
              · exact reg _ _ rfl
              · split
                · exact fw _ _ fun k a he => by cases he
                · split
                  · rw [sendSignal]
                    dsimp only
                    repeat' split
                    all_goals intro hc; cases hc
                  · intro hc; cases hc

end Verif.Node
