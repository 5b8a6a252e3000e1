import Verif.Proofs.Registry

/-! The invariant of the observers of terminations. -/
namespace Verif.Registry
open Verif.Spec.Registry

/-- How often channel `c` has still to be notified by a task. -/
def taskWait (c : Nat) : Task → Nat
  | .notify cs => cs.count c
  | .closing _ cs => cs.count c
  | _ => 0

/-- How often channel `c` has still to be closed by a task that has notified it. -/
def taskClosing (c : Nat) : Task → Nat
  | .closing c' _ => if c' = c then 1 else 0
  | _ => 0

/-- How often channel `c` is in an entry of `_term_obs`. -/
def obsWait (c : Nat) (p : RunKey × List Nat) : Nat := p.2.count c

/-- How often channel `c` has still to be notified. -/
def wait (s : Reg) (c : Nat) : Nat := total (obsWait c) s.obs + total (taskWait c) s.tasks

theorem total_obs_delete (c : Nat) {m : GoMap RunKey (List Nat)} (h : (GoMap.keys m).Nodup) (k : RunKey) :
    total (obsWait c) m = ((m.get? k).getD []).count c + total (obsWait c) (m.delete k) := by
  induction m with
  | nil => simp [total, GoMap.delete]
  | cons p m ih =>
    rw [GoMap.keys, List.map_cons, List.nodup_cons] at h
    have ih := ih h.2
    rw [total, GoMap.get?_cons, GoMap.delete, List.filter_cons]
    by_cases e : p.1 = k
    · have hd : m.filter (fun p => decide (p.1 ≠ k)) = m := by
        rw [List.filter_eq_self]
        intro q hq
        rw [decide_eq_true_eq]
        intro hqk
        exact h.1 (List.mem_map.2 ⟨q, hq, hqk.trans e.symm⟩)
      rw [if_pos e]
      simp only [e, ne_eq, not_true, decide_false, Bool.false_eq_true, if_false]
      simp only [ne_eq] at hd
      rw [hd]; rfl
    · rw [if_neg e]
      simp only [e, ne_eq, not_false_eq_true, decide_true, if_true]
      rw [total]
      have : m.filter (fun p => decide (¬ p.1 = k)) = GoMap.delete m k := rfl
      rw [this]; omega

theorem total_obs_set (c : Nat) {m : GoMap RunKey (List Nat)} (h : (GoMap.keys m).Nodup) (k : RunKey) (d : Nat) :
    total (obsWait c) (m.set k ((m.get? k).getD [] ++ [d])) = total (obsWait c) m + if d = c then 1 else 0 := by
  rw [total_obs_delete c h k]
  change obsWait c (k, (m.get? k).getD [] ++ [d]) + total (obsWait c) (m.delete k) = _
  rw [obsWait, List.count_append, List.count_singleton]
  by_cases e : d = c
  · simp [e]; omega
  · simp [e]

/-- Some run with these indices has terminated. -/
def TermKey (s : Reg) (k : RunKey) : Prop := ∃ (r : Nat) (o : Obj), s.objs[r]? = some o ∧ o.key = k ∧ o.terminated = true

/-- Runs stay, and stay terminated. -/
def ObjsLe (l l' : List Obj) : Prop :=
  ∀ (r : Nat) (o : Obj), l[r]? = some o → ∃ o', l'[r]? = some o' ∧ o'.key = o.key ∧ (o.terminated = true → o'.terminated = true)

theorem TermKey.mono {s s' : Reg} (h : ObjsLe s.objs s'.objs) {k : RunKey} (ht : TermKey s k) : TermKey s' k := by
  obtain ⟨r, o, ho, hk, htm⟩ := ht
  obtain ⟨o', ho', hk', htm'⟩ := h r o ho
  exact ⟨r, o', ho', hk'.trans hk, htm' htm⟩

theorem ObjsLe.refl (l : List Obj) : ObjsLe l l := fun _ o ho => ⟨o, ho, rfl, id⟩

theorem objsLe_set {l : List Obj} {r : Nat} {o o' : Obj} (h : l[r]? = some o) (hk : o'.key = o.key)
    (ht : o.terminated = true → o'.terminated = true) : ObjsLe l (l.set r o') := by
  intro r' o1 h1
  by_cases e : r' = r
  · subst e
    have := Option.some.inj (h.symm.trans h1)
    subst this
    refine ⟨o', List.getElem?_set_self ?_, hk, ht⟩
    by_contra hc
    rw [List.getElem?_eq_none (by omega)] at h; cases h
  · exact ⟨o1, by rw [List.getElem?_set_ne (Ne.symm e)]; exact h1, rfl, id⟩

theorem objsLe_append (l m : List Obj) : ObjsLe l (l ++ m) := by
  intro r o h
  refine ⟨o, ?_, rfl, id⟩
  rw [List.getElem?_append_left, h]
  by_contra hc
  rw [List.getElem?_eq_none (by omega)] at h; cases h

structure ObsInv (s : Reg) : Prop where
  nodup : (GoMap.keys s.obs).Nodup
  once : ∀ (c : Nat) (ch : Chan), s.chans[c]? = some ch → wait s c + ch.sent = 1 ∧
    (total (taskClosing c) s.tasks + if ch.closed then 1 else 0) = ch.sent ∧ ch.unread ≤ ch.sent
  absent : ∀ c, s.chans.length ≤ c → wait s c = 0 ∧ total (taskClosing c) s.tasks = 0
  keyed : ∀ k c, c ∈ (s.obs.get? k).getD [] → ∃ ch, s.chans[c]? = some ch ∧ ch.key = k
  after : ∀ (c : Nat) (ch : Chan), s.chans[c]? = some ch → 0 < total (taskWait c) s.tasks ∨ 0 < ch.sent → TermKey s ch.key
  upd : ∀ k, Task.update k ∈ s.tasks → TermKey s k
  read : ∀ k c r, Task.read k c r ∈ s.tasks → ∃ o, s.objs[r]? = some o ∧ o.key = k
  promise : ∀ k c r o, c ∈ (s.obs.get? k).getD [] → s.runs.get? k = some r → s.objs[r]? = some o → o.terminated = true →
    Task.update k ∈ s.tasks ∨ Task.look k c ∈ s.tasks ∨ Task.read k c r ∈ s.tasks

theorem obsInv_init : ObsInv init := by
  refine ⟨List.nodup_nil, ?_, ?_, ?_, ?_, ?_, ?_, ?_⟩
  · intro c ch h; simp [init] at h
  · intro c _; exact ⟨rfl, rfl⟩
  · intro k c h; simp [init] at h
  · intro c ch h; simp [init] at h
  · intro k h; simp [init] at h
  · intro k c r h; simp [init] at h
  · intro k c r o h; simp [init] at h

theorem lt_of_some {α : Type} {l : List α} {i : Nat} {x : α} (h : l[i]? = some x) : i < l.length := by
  by_contra hc
  rw [List.getElem?_eq_none (by omega)] at h; cases h

theorem obsInv_obs {s : Reg} (h : ObsInv s) (k : RunKey) : ObsInv (obsTerm s k) := by
  rw [obsTerm]
  have hw : ∀ c, total (taskWait c) (s.tasks ++ [Task.look k s.chans.length]) = total (taskWait c) s.tasks := by
    intro c; rw [total_append]; simp [total, taskWait]
  have hcl : ∀ c, total (taskClosing c) (s.tasks ++ [Task.look k s.chans.length]) = total (taskClosing c) s.tasks := by
    intro c; rw [total_append]; simp [total, taskClosing]
  have hg : ∀ k' c, c ∈ ((s.obs.set k ((s.obs.get? k).getD [] ++ [s.chans.length])).get? k').getD [] →
      c ∈ (s.obs.get? k').getD [] ∨ (c = s.chans.length ∧ k' = k) := by
    intro k' c hc
    rw [GoMap.get?_set] at hc
    by_cases e : k = k'
    · subst e
      rw [if_pos rfl, Option.getD_some, List.mem_append, List.mem_singleton] at hc
      exact hc.imp id (fun x => ⟨x, rfl⟩)
    · rw [if_neg e] at hc; exact .inl hc
  refine ⟨GoMap.nodup_set h.nodup _ _, ?_, ?_, ?_, ?_, ?_, ?_, ?_⟩
  · intro c ch hc
    dsimp only [wait] at hc ⊢
    rw [hw, hcl, total_obs_set c h.nodup]
    rw [List.getElem?_append] at hc
    by_cases hlt : c < s.chans.length
    · rw [if_pos hlt] at hc
      have := h.once c ch hc
      rw [if_neg (by omega)]
      exact this
    · rw [if_neg hlt] at hc
      have e : c = s.chans.length := by
        have := lt_of_some hc
        simp at this; omega
      subst e
      have : ch = ⟨k, 0, 0, false⟩ := by simpa using hc.symm
      subst this
      obtain ⟨a1, a2⟩ := h.absent _ (Nat.le_refl _)
      rw [wait] at a1
      rw [if_pos rfl, a2]
      exact ⟨by dsimp only; omega, rfl, Nat.le_refl _⟩
  · intro c hc
    dsimp only [wait] at hc ⊢
    rw [List.length_append, List.length_singleton] at hc
    obtain ⟨a1, a2⟩ := h.absent c (by omega)
    rw [wait] at a1
    rw [hw, hcl, total_obs_set c h.nodup, if_neg (by omega)]
    exact ⟨by omega, a2⟩
  · intro k' c hc
    dsimp only at hc ⊢
    rcases hg k' c hc with hc | ⟨rfl, rfl⟩
    · obtain ⟨ch, h1, h2⟩ := h.keyed k' c hc
      exact ⟨ch, by rw [List.getElem?_append_left (lt_of_some h1)]; exact h1, h2⟩
    · exact ⟨⟨k', 0, 0, false⟩, by simp, rfl⟩
  · intro c ch hc
    dsimp only at hc ⊢
    rw [hw]
    intro hp
    rw [List.getElem?_append] at hc
    by_cases hlt : c < s.chans.length
    · rw [if_pos hlt] at hc; exact h.after c ch hc hp
    · rw [if_neg hlt] at hc
      have e : c = s.chans.length := by
        have := lt_of_some hc
        simp at this; omega
      subst e
      have : ch = ⟨k, 0, 0, false⟩ := by simpa using hc.symm
      subst this
      obtain ⟨a1, a2⟩ := h.absent _ (Nat.le_refl _)
      rw [wait] at a1
      rcases hp with hp | hp
      · omega
      · cases hp
  · intro k' hk'
    dsimp only at hk'
    exact h.upd k' (by simpa using hk')
  · intro k' c r hr
    dsimp only at hr
    exact h.read k' c r (by simpa using hr)
  · intro k' c r o hc hr ho ht
    dsimp only at hc hr ho ⊢
    rcases hg k' c hc with hc | ⟨rfl, rfl⟩
    · rcases h.promise k' c r o hc hr ho ht with hp | hp | hp
      · exact .inl (List.mem_append_left _ hp)
      · exact .inr (.inl (List.mem_append_left _ hp))
      · exact .inr (.inr (List.mem_append_left _ hp))
    · exact .inr (.inl (by simp))

/-- A channel changed without a send or a close. -/
theorem obsInv_recv {s : Reg} (h : ObsInv s) {c : Nat} {ch : Chan} (hc : s.chans[c]? = some ch) :
    ObsInv { s with chans := s.chans.set c { ch with unread := ch.unread - 1 } } := by
  refine ⟨h.nodup, ?_, ?_, ?_, ?_, h.upd, h.read, h.promise⟩
  · intro c' ch' hc'
    dsimp only at hc' ⊢
    rcases getElem?_set_cases hc hc' with ⟨rfl, rfl⟩ | ⟨_, hc'⟩
    · obtain ⟨a, b, d⟩ := h.once _ _ hc
      exact ⟨a, b, by dsimp only; omega⟩
    · exact h.once _ _ hc'
  · intro c' hc'
    dsimp only at hc'
    rw [List.length_set] at hc'
    exact h.absent c' hc'
  · intro k c' hc'
    obtain ⟨ch', h1, h2⟩ := h.keyed k c' hc'
    dsimp only
    by_cases e : c' = c
    · subst e
      have := Option.some.inj (h1.symm.trans hc)
      subst this
      exact ⟨_, List.getElem?_set_self (lt_of_some hc), h2⟩
    · exact ⟨ch', by rw [List.getElem?_set_ne (Ne.symm e)]; exact h1, h2⟩
  · intro c' ch' hc' hp
    dsimp only at hc'
    rcases getElem?_set_cases hc hc' with ⟨rfl, rfl⟩ | ⟨_, hc'⟩
    · exact h.after c' ch hc hp
    · exact h.after _ _ hc' hp

theorem obsInv_ensure {s : Reg} (h : ObsInv s) (hr : RunsInv s) (k : RunKey) : ObsInv (ensure s k) := by
  rw [ensure]
  cases hk : s.runs.get? k with
  | some r => exact h
  | none =>
    dsimp only
    have hw : ∀ c, total (taskWait c) (s.tasks ++ [Task.start s.objs.length]) = total (taskWait c) s.tasks := by
      intro c; rw [total_append]; simp [total, taskWait]
    have hcl : ∀ c, total (taskClosing c) (s.tasks ++ [Task.start s.objs.length]) = total (taskClosing c) s.tasks := by
      intro c; rw [total_append]; simp [total, taskClosing]
    have hle := objsLe_append s.objs [⟨k, 0, 0, false⟩]
    refine ⟨h.nodup, ?_, ?_, h.keyed, ?_, ?_, ?_, ?_⟩
    · intro c ch hc
      dsimp only [wait] at hc ⊢
      rw [hw, hcl]; exact h.once c ch hc
    · intro c hc
      dsimp only [wait] at hc ⊢
      rw [hw, hcl]; exact h.absent c hc
    · intro c ch hc
      dsimp only at hc ⊢
      rw [hw]
      exact fun hp => (h.after c ch hc hp).mono hle
    · intro k' hk'
      dsimp only at hk'
      exact (h.upd k' (by simpa using hk')).mono hle
    · intro k' c r hm
      dsimp only at hm ⊢
      obtain ⟨o, ho, hok⟩ := h.read k' c r (by simpa using hm)
      exact ⟨o, by rw [List.getElem?_append_left (lt_of_some ho)]; exact ho, hok⟩
    · intro k' c r o hc hrun ho ht
      dsimp only at hc hrun ho ⊢
      rw [GoMap.get?_set] at hrun
      by_cases e : k = k'
      · rw [if_pos e] at hrun
        have := Option.some.inj hrun
        subst this
        have : o = ⟨k, 0, 0, false⟩ := by simpa using ho.symm
        subst this
        cases ht
      · rw [if_neg e] at hrun
        obtain ⟨o', ho', _⟩ := hr.reg k' r hrun
        rw [List.getElem?_append_left (lt_of_some ho')] at ho
        rcases h.promise k' c r o hc hrun ho ht with hp | hp | hp
        · exact .inl (List.mem_append_left _ hp)
        · exact .inr (.inl (List.mem_append_left _ hp))
        · exact .inr (.inr (List.mem_append_left _ hp))

theorem obsInv_delete {s : Reg} (h : ObsInv s) (k : RunKey) : ObsInv (delete s k) := by
  rw [delete]
  refine ⟨h.nodup, h.once, h.absent, h.keyed, h.after, h.upd, h.read, ?_⟩
  intro k' c r o hc hrun ho ht
  dsimp only at hc hrun ho ⊢
  rw [GoMap.get?_delete] at hrun
  by_cases e : k = k'
  · rw [if_pos e] at hrun; cases hrun
  · rw [if_neg e] at hrun; exact h.promise k' c r o hc hrun ho ht

theorem obsInv_finish {s s' : Reg} (h : ObsInv s) (hr : RunsInv s) {r : Nat} (hs : finish s r = .ok s') : ObsInv s' := by
  rw [finish] at hs
  cases ho : s.objs[r]? with
  | none => rw [ho] at hs; cases hs
  | some o =>
    rw [ho] at hs
    dsimp only at hs
    by_cases hlt : o.ended < o.started
    · rw [if_pos hlt] at hs
      have := Outcome.ok.inj hs
      subst this
      have hw : ∀ c, total (taskWait c) (s.tasks ++ [Task.update o.key]) = total (taskWait c) s.tasks := by
        intro c; rw [total_append]; simp [total, taskWait]
      have hcl : ∀ c, total (taskClosing c) (s.tasks ++ [Task.update o.key]) = total (taskClosing c) s.tasks := by
        intro c; rw [total_append]; simp [total, taskClosing]
      have hle : ObjsLe s.objs (s.objs.set r { o with ended := o.ended + 1, terminated := true }) := objsLe_set ho rfl fun _ => rfl
      refine ⟨h.nodup, ?_, ?_, h.keyed, ?_, ?_, ?_, ?_⟩
      · intro c ch hc
        dsimp only [wait] at hc ⊢
        rw [hw, hcl]; exact h.once c ch hc
      · intro c hc
        dsimp only [wait] at hc ⊢
        rw [hw, hcl]; exact h.absent c hc
      · intro c ch hc
        dsimp only at hc ⊢
        rw [hw]
        exact fun hp => (h.after c ch hc hp).mono hle
      · intro k' hk'
        dsimp only at hk'
        rw [List.mem_append, List.mem_singleton] at hk'
        rcases hk' with hk' | hk'
        · exact (h.upd k' hk').mono hle
        · injection hk' with e
          subst e
          exact ⟨r, _, List.getElem?_set_self (lt_of_some ho), rfl, rfl⟩
      · intro k' c r' hm
        dsimp only at hm ⊢
        obtain ⟨o', ho', hok⟩ := h.read k' c r' (by simpa using hm)
        obtain ⟨o2, h2, h3, _⟩ := hle r' o' ho'
        exact ⟨o2, h2, h3.trans hok⟩
      · intro k' c r' o' hc hrun ho' ht
        dsimp only at hc hrun ho' ⊢
        rcases getElem?_set_cases ho ho' with ⟨rfl, rfl⟩ | ⟨_, ho'⟩
        · obtain ⟨o2, h2, h3⟩ := hr.reg k' r' hrun
          have := Option.some.inj (h2.symm.trans ho)
          subst this
          left
          rw [h3]; simp
        · rcases h.promise k' c r' o' hc hrun ho' ht with hp | hp | hp
          · exact .inl (List.mem_append_left _ hp)
          · exact .inr (.inl (List.mem_append_left _ hp))
          · exact .inr (.inr (List.mem_append_left _ hp))
    · rw [if_neg hlt] at hs; cases hs

theorem mem_of_mem_erase {α : Type} {l : List α} {i : Nat} {t : α} (h : t ∈ l.eraseIdx i) : t ∈ l := List.mem_of_mem_eraseIdx h

/-- A task that waits for no channel goes. -/
theorem obsInv_erase {s : Reg} (h : ObsInv s) {i : Nat} {t : Task} (hi : s.tasks[i]? = some t) (hw : ∀ c, taskWait c t = 0)
    (hc : ∀ c, taskClosing c t = 0)
    (hp : ∀ k c r o, c ∈ (s.obs.get? k).getD [] → s.runs.get? k = some r → s.objs[r]? = some o → o.terminated = true →
      t ≠ .update k ∧ t ≠ .look k c ∧ t ≠ .read k c r) :
    ObsInv { s with tasks := s.tasks.eraseIdx i } := by
  have hw' : ∀ c, total (taskWait c) (s.tasks.eraseIdx i) = total (taskWait c) s.tasks := fun c => total_erase_zero _ hi (hw c)
  have hcl : ∀ c, total (taskClosing c) (s.tasks.eraseIdx i) = total (taskClosing c) s.tasks := fun c => total_erase_zero _ hi (hc c)
  refine ⟨h.nodup, ?_, ?_, h.keyed, ?_, ?_, ?_, ?_⟩
  · intro c ch hc
    dsimp only [wait] at hc ⊢
    rw [hw', hcl]; exact h.once c ch hc
  · intro c hc
    dsimp only [wait] at hc ⊢
    rw [hw', hcl]; exact h.absent c hc
  · intro c ch hc
    dsimp only at hc ⊢
    rw [hw']; exact h.after c ch hc
  · intro k hk; exact h.upd k (mem_of_mem_erase hk)
  · intro k c r hm; exact h.read k c r (mem_of_mem_erase hm)
  · intro k c r o hcm hrun ho ht
    obtain ⟨p1, p2, p3⟩ := hp k c r o hcm hrun ho ht
    rcases h.promise k c r o hcm hrun ho ht with hm | hm | hm
    · exact .inl (mem_erase_of_ne hi hm (Ne.symm p1))
    · exact .inr (.inl (mem_erase_of_ne hi hm (Ne.symm p2)))
    · exact .inr (.inr (mem_erase_of_ne hi hm (Ne.symm p3)))

/-- A task that waits for no channel becomes another. -/
theorem obsInv_replace {s : Reg} (h : ObsInv s) {i : Nat} {t t' : Task} (hi : s.tasks[i]? = some t)
    (hw : ∀ c, taskWait c t' = taskWait c t) (hc : ∀ c, taskClosing c t' = taskClosing c t)
    (hu : ∀ k, t' = .update k → TermKey s k) (hrd : ∀ k c r, t' = .read k c r → ∃ o, s.objs[r]? = some o ∧ o.key = k)
    (hp : ∀ k c r o, c ∈ (s.obs.get? k).getD [] → s.runs.get? k = some r → s.objs[r]? = some o → o.terminated = true →
      (t = .update k ∨ t = .look k c ∨ t = .read k c r) → (t' = .update k ∨ t' = .look k c ∨ t' = .read k c r)) :
    ObsInv { s with tasks := s.tasks.set i t' } := by
  have hw' : ∀ c, total (taskWait c) (s.tasks.set i t') = total (taskWait c) s.tasks := fun c => total_set_same _ _ hi (hw c)
  have hcl : ∀ c, total (taskClosing c) (s.tasks.set i t') = total (taskClosing c) s.tasks := fun c => total_set_same _ _ hi (hc c)
  refine ⟨h.nodup, ?_, ?_, h.keyed, ?_, ?_, ?_, ?_⟩
  · intro c ch hc
    dsimp only [wait] at hc ⊢
    rw [hw', hcl]; exact h.once c ch hc
  · intro c hc
    dsimp only [wait] at hc ⊢
    rw [hw', hcl]; exact h.absent c hc
  · intro c ch hc
    dsimp only at hc ⊢
    rw [hw']; exact h.after c ch hc
  · intro k hk
    rcases List.mem_or_eq_of_mem_set hk with hk | hk
    · exact h.upd k hk
    · exact hu k hk.symm
  · intro k c r hm
    rcases List.mem_or_eq_of_mem_set hm with hm | hm
    · exact h.read k c r hm
    · exact hrd k c r hm.symm
  · intro k c r o hcm hrun ho ht
    have hp := hp k c r o hcm hrun ho ht
    have hnew := mem_set_new t' hi
    by_cases e : t = .update k ∨ t = .look k c ∨ t = .read k c r
    · rcases hp e with e | e | e
      · exact .inl (by rw [← e]; exact hnew)
      · exact .inr (.inl (by rw [← e]; exact hnew))
      · exact .inr (.inr (by rw [← e]; exact hnew))
    · rw [not_or, not_or] at e
      rcases h.promise k c r o hcm hrun ho ht with hm | hm | hm
      · exact .inl (mem_set_of_ne _ hi hm (Ne.symm e.1))
      · exact .inr (.inl (mem_set_of_ne _ hi hm (Ne.symm e.2.1)))
      · exact .inr (.inr (mem_set_of_ne _ hi hm (Ne.symm e.2.2)))

theorem obsInv_update {s : Reg} (h : ObsInv s) {i : Nat} {k : RunKey} (hi : s.tasks[i]? = some (.update k)) :
    ObsInv { s with tasks := s.tasks.set i (.notify ((s.obs.get? k).getD [])), obs := s.obs.delete k } := by
  have hw : ∀ c, total (taskWait c) (s.tasks.set i (.notify ((s.obs.get? k).getD []))) =
      total (taskWait c) s.tasks + ((s.obs.get? k).getD []).count c := by
    intro c
    have := total_set (taskWait c) (.notify ((s.obs.get? k).getD [])) hi
    simp only [taskWait] at this
    omega
  have hcl : ∀ c, total (taskClosing c) (s.tasks.set i (.notify ((s.obs.get? k).getD []))) = total (taskClosing c) s.tasks :=
    fun c => total_set_same _ _ hi rfl
  have hg : ∀ k' c, c ∈ ((s.obs.delete k).get? k').getD [] → k ≠ k' ∧ c ∈ (s.obs.get? k').getD [] := by
    intro k' c hc
    rw [GoMap.get?_delete] at hc
    by_cases e : k = k'
    · rw [if_pos e] at hc; cases hc
    · rw [if_neg e] at hc; exact ⟨e, hc⟩
  refine ⟨GoMap.nodup_delete h.nodup k, ?_, ?_, ?_, ?_, ?_, ?_, ?_⟩
  · intro c ch hc
    dsimp only [wait] at hc ⊢
    rw [hw, hcl]
    obtain ⟨a, b, d⟩ := h.once c ch hc
    rw [wait, total_obs_delete c h.nodup k] at a
    exact ⟨by omega, b, d⟩
  · intro c hc
    dsimp only [wait] at hc ⊢
    rw [hw, hcl]
    obtain ⟨a, b⟩ := h.absent c hc
    rw [wait, total_obs_delete c h.nodup k] at a
    exact ⟨by omega, b⟩
  · intro k' c hc
    exact h.keyed k' c (hg k' c hc).2
  · intro c ch hc hp
    dsimp only at hc hp ⊢
    rw [hw] at hp
    by_cases hcnt : 0 < ((s.obs.get? k).getD []).count c
    · obtain ⟨ch', h1, h2⟩ := h.keyed k c (List.count_pos_iff.1 hcnt)
      have := Option.some.inj (h1.symm.trans hc)
      subst this
      rw [h2]
      exact h.upd k (List.mem_iff_getElem?.2 ⟨i, hi⟩)
    · exact h.after c ch hc (hp.imp (fun x => by omega) id)
  · intro k' hk
    rcases List.mem_or_eq_of_mem_set hk with hk | hk
    · exact h.upd k' hk
    · cases hk
  · intro k' c r hm
    rcases List.mem_or_eq_of_mem_set hm with hm | hm
    · exact h.read k' c r hm
    · cases hm
  · intro k' c r o hcm hrun ho ht
    obtain ⟨hne, hcm⟩ := hg k' c hcm
    rcases h.promise k' c r o hcm hrun ho ht with hm | hm | hm
    · exact .inl (mem_set_of_ne _ hi hm (by intro e; injection e with e; exact hne e.symm))
    · exact .inr (.inl (mem_set_of_ne _ hi hm (by intro e; cases e)))
    · exact .inr (.inr (mem_set_of_ne _ hi hm (by intro e; cases e)))

theorem chan_of_wait {s : Reg} (h : ObsInv s) {c : Nat} (hw : 0 < total (taskWait c) s.tasks) :
    ∃ ch, s.chans[c]? = some ch ∧ ch.sent = 0 ∧ ch.unread = 0 ∧ ch.closed = false := by
  have hlt : c < s.chans.length := by
    by_contra hc
    have := (h.absent c (by omega)).1
    rw [wait] at this
    omega
  obtain ⟨a, b, d⟩ := h.once c _ (List.getElem?_eq_getElem hlt)
  rw [wait] at a
  refine ⟨_, List.getElem?_eq_getElem hlt, by omega, by omega, ?_⟩
  by_contra hcl
  rw [Bool.not_eq_false] at hcl
  rw [if_pos hcl] at b
  omega

theorem chan_of_closing {s : Reg} (h : ObsInv s) {c : Nat} (hw : 0 < total (taskClosing c) s.tasks) :
    ∃ ch, s.chans[c]? = some ch ∧ ch.sent = 1 ∧ ch.closed = false := by
  have hlt : c < s.chans.length := by
    by_contra hc
    have := (h.absent c (by omega)).2
    omega
  obtain ⟨a, b, d⟩ := h.once c _ (List.getElem?_eq_getElem hlt)
  refine ⟨_, List.getElem?_eq_getElem hlt, by omega, ?_⟩
  by_contra hcl
  rw [Bool.not_eq_false] at hcl
  rw [if_pos hcl] at b
  omega

theorem obsInv_send {s : Reg} (h : ObsInv s) {i c : Nat} {cs : List Nat} {ch : Chan} (hi : s.tasks[i]? = some (.notify (c :: cs)))
    (hc : s.chans[c]? = some ch) :
    ObsInv { s with chans := s.chans.set c { ch with unread := ch.unread + 1, sent := ch.sent + 1 },
                    tasks := s.tasks.set i (.closing c cs) } := by
  have hpos : 0 < total (taskWait c) s.tasks := by
    have := total_pos (f := taskWait c) (List.mem_iff_getElem?.2 ⟨i, hi⟩)
    simp only [taskWait, List.count_cons_self] at this
    omega
  obtain ⟨ch', h1, hs0, hu0, hcl0⟩ := chan_of_wait h hpos
  have := Option.some.inj (h1.symm.trans hc)
  subst this
  have hw : ∀ c', total (taskWait c') (s.tasks.set i (.closing c cs)) + (if c = c' then 1 else 0) = total (taskWait c') s.tasks := by
    intro c'
    have := total_set (taskWait c') (.closing c cs) hi
    simp only [taskWait, List.count_cons] at this
    by_cases e : c = c'
    · subst e; simp at this ⊢; omega
    · simp [e] at this ⊢; omega
  have hcl : ∀ c', total (taskClosing c') (s.tasks.set i (.closing c cs)) = total (taskClosing c') s.tasks + if c = c' then 1 else 0 := by
    intro c'
    have := total_set (taskClosing c') (.closing c cs) hi
    simp only [taskClosing] at this
    omega
  refine ⟨h.nodup, ?_, ?_, ?_, ?_, ?_, ?_, ?_⟩
  · intro c' ch2 hc'
    dsimp only [wait] at hc' ⊢
    have hw := hw c'
    have hcl := hcl c'
    rcases getElem?_set_cases hc hc' with ⟨rfl, rfl⟩ | ⟨hne, hc'⟩
    · obtain ⟨a, b, d⟩ := h.once _ _ hc
      rw [if_pos rfl] at hw hcl
      rw [wait] at a
      dsimp only
      rw [hcl]
      exact ⟨by omega, by omega, by omega⟩
    · obtain ⟨a, b, d⟩ := h.once _ _ hc'
      rw [if_neg (Ne.symm hne)] at hw hcl
      rw [wait] at a
      rw [hcl]
      exact ⟨by omega, by omega, by omega⟩
  · intro c' hc'
    dsimp only [wait] at hc' ⊢
    rw [List.length_set] at hc'
    have hlt := lt_of_some hc
    have hw := hw c'
    have hcl := hcl c'
    rw [if_neg (by omega)] at hw hcl
    obtain ⟨a, b⟩ := h.absent c' hc'
    rw [wait] at a
    exact ⟨by omega, by omega⟩
  · intro k c' hc'
    obtain ⟨ch3, h3, h2⟩ := h.keyed k c' hc'
    dsimp only
    by_cases e : c' = c
    · subst e
      have := Option.some.inj (h3.symm.trans hc)
      exact ⟨_, List.getElem?_set_self (lt_of_some hc), by rw [← h2, this]⟩
    · exact ⟨ch3, by rw [List.getElem?_set_ne (Ne.symm e)]; exact h3, h2⟩
  · intro c' ch2 hc' hp
    dsimp only at hc' hp ⊢
    have hw := hw c'
    rcases getElem?_set_cases hc hc' with ⟨rfl, rfl⟩ | ⟨hne, hc'⟩
    · exact h.after c' ch' hc (.inl hpos)
    · exact h.after _ _ hc' (hp.imp (fun x => by omega) id)
  · intro k hk
    rcases List.mem_or_eq_of_mem_set hk with hk | hk
    · exact h.upd k hk
    · cases hk
  · intro k c' r hm
    rcases List.mem_or_eq_of_mem_set hm with hm | hm
    · exact h.read k c' r hm
    · cases hm
  · intro k c' r o hcm hrun ho ht
    rcases h.promise k c' r o hcm hrun ho ht with hm | hm | hm
    · exact .inl (mem_set_of_ne _ hi hm (by intro e; cases e))
    · exact .inr (.inl (mem_set_of_ne _ hi hm (by intro e; cases e)))
    · exact .inr (.inr (mem_set_of_ne _ hi hm (by intro e; cases e)))

theorem obsInv_close {s : Reg} (h : ObsInv s) {i c : Nat} {cs : List Nat} {ch : Chan} (hi : s.tasks[i]? = some (.closing c cs))
    (hc : s.chans[c]? = some ch) :
    ObsInv { s with chans := s.chans.set c { ch with closed := true }, tasks := s.tasks.set i (.notify cs) } := by
  have hpos : 0 < total (taskClosing c) s.tasks := by
    have := total_pos (f := taskClosing c) (List.mem_iff_getElem?.2 ⟨i, hi⟩)
    simp only [taskClosing, if_true] at this
    omega
  obtain ⟨ch', h1, hs0, hcl0⟩ := chan_of_closing h hpos
  have := Option.some.inj (h1.symm.trans hc)
  subst this
  have hw : ∀ c', total (taskWait c') (s.tasks.set i (.notify cs)) = total (taskWait c') s.tasks :=
    fun c' => total_set_same _ _ hi rfl
  have hcl : ∀ c', total (taskClosing c') (s.tasks.set i (.notify cs)) + (if c = c' then 1 else 0) = total (taskClosing c') s.tasks := by
    intro c'
    have := total_set (taskClosing c') (.notify cs) hi
    simp only [taskClosing] at this
    omega
  refine ⟨h.nodup, ?_, ?_, ?_, ?_, ?_, ?_, ?_⟩
  · intro c' ch2 hc'
    dsimp only [wait] at hc' ⊢
    have hcl := hcl c'
    rw [hw]
    rcases getElem?_set_cases hc hc' with ⟨rfl, rfl⟩ | ⟨hne, hc'⟩
    · obtain ⟨a, b, d⟩ := h.once _ _ hc
      rw [if_pos rfl] at hcl
      rw [wait] at a
      rw [hcl0] at b
      simp only [Bool.false_eq_true, if_false] at b
      dsimp only
      rw [if_pos rfl]
      exact ⟨by omega, by omega, by omega⟩
    · obtain ⟨a, b, d⟩ := h.once _ _ hc'
      rw [if_neg (Ne.symm hne)] at hcl
      rw [wait] at a
      refine ⟨by omega, ?_, by omega⟩
      rw [Nat.add_zero] at hcl
      rw [hcl]; exact b
  · intro c' hc'
    dsimp only [wait] at hc' ⊢
    rw [List.length_set] at hc'
    have hlt := lt_of_some hc
    have hcl := hcl c'
    rw [if_neg (by omega)] at hcl
    obtain ⟨a, b⟩ := h.absent c' hc'
    rw [wait] at a
    rw [hw]
    exact ⟨by omega, by omega⟩
  · intro k c' hc'
    obtain ⟨ch3, h3, h2⟩ := h.keyed k c' hc'
    dsimp only
    by_cases e : c' = c
    · subst e
      have := Option.some.inj (h3.symm.trans hc)
      exact ⟨_, List.getElem?_set_self (lt_of_some hc), by rw [← h2, this]⟩
    · exact ⟨ch3, by rw [List.getElem?_set_ne (Ne.symm e)]; exact h3, h2⟩
  · intro c' ch2 hc' hp
    dsimp only at hc' hp ⊢
    rw [hw] at hp
    rcases getElem?_set_cases hc hc' with ⟨rfl, rfl⟩ | ⟨hne, hc'⟩
    · exact h.after c' ch' hc (.inr (by omega))
    · exact h.after _ _ hc' hp
  · intro k hk
    rcases List.mem_or_eq_of_mem_set hk with hk | hk
    · exact h.upd k hk
    · cases hk
  · intro k c' r hm
    rcases List.mem_or_eq_of_mem_set hm with hm | hm
    · exact h.read k c' r hm
    · cases hm
  · intro k c' r o hcm hrun ho ht
    rcases h.promise k c' r o hcm hrun ho ht with hm | hm | hm
    · exact .inl (mem_set_of_ne _ hi hm (by intro e; cases e))
    · exact .inr (.inl (mem_set_of_ne _ hi hm (by intro e; cases e)))
    · exact .inr (.inr (mem_set_of_ne _ hi hm (by intro e; cases e)))

/-- The runs changed, without any termination, and the log. -/
theorem obsInv_objs {s : Reg} (h : ObsInv s) {objs : List Obj} {l : List Entry} (hle : ObjsLe s.objs objs)
    (hge : ∀ (r : Nat) (o : Obj), objs[r]? = some o → o.terminated = true → ∃ o', s.objs[r]? = some o' ∧ o'.terminated = true) :
    ObsInv { s with objs := objs, log := l } := by
  refine ⟨h.nodup, h.once, h.absent, h.keyed, ?_, ?_, ?_, ?_⟩
  · intro c ch hc hp; exact (h.after c ch hc hp).mono hle
  · intro k hk; exact (h.upd k hk).mono hle
  · intro k c r hm
    obtain ⟨o, ho, hok⟩ := h.read k c r hm
    obtain ⟨o', h1, h2, _⟩ := hle r o ho
    exact ⟨o', h1, h2.trans hok⟩
  · intro k c r o hc hrun ho ht
    obtain ⟨o', ho', ht'⟩ := hge r o ho ht
    exact h.promise k c r o' hc hrun ho' ht'

theorem obsInv_task {s s' : Reg} (h : ObsInv s) (hr : RunsInv s) {i : Nat} (hs : taskStep s i = .ok s') : ObsInv s' := by
  rw [taskStep] at hs
  cases hi : s.tasks[i]? with
  | none => rw [hi] at hs; cases hs
  | some t =>
    rw [hi] at hs
    cases t with
    | look k c =>
      dsimp only at hs
      cases hk : s.runs.get? k with
      | none =>
        rw [hk] at hs
        have := Outcome.ok.inj hs
        subst this
        refine obsInv_erase h hi (fun _ => rfl) (fun _ => rfl) ?_
        intro k' c' r o _ hrun _ _
        refine ⟨nofun, ?_, nofun⟩
        intro e
        injection e with e1 e2
        subst e1
        rw [hk] at hrun; cases hrun
      | some r =>
        rw [hk] at hs
        have := Outcome.ok.inj hs
        subst this
        refine obsInv_replace h hi (fun _ => rfl) (fun _ => rfl) (by intro k' e; cases e) ?_ ?_
        · intro k' c' r' e
          injection e with e1 e2 e3
          subst e1 e3
          exact hr.reg _ _ hk
        · intro k' c' r' o _ hrun _ _ e
          rcases e with e | e | e
          · cases e
          · injection e with e1 e2
            subst e1 e2
            have := Option.some.inj (hk.symm.trans hrun)
            subst this
            exact .inr (.inr rfl)
          · cases e
    | read k c r =>
      dsimp only at hs
      cases ho : s.objs[r]? with
      | none => rw [ho] at hs; cases hs
      | some o =>
        rw [ho] at hs
        dsimp only at hs
        have hmem := List.mem_iff_getElem?.2 ⟨i, hi⟩
        obtain ⟨o', ho', hok⟩ := h.read k c r hmem
        have := Option.some.inj (ho'.symm.trans ho)
        subst this
        by_cases hterm : o'.terminated = true
        · rw [if_pos hterm] at hs
          have := Outcome.ok.inj hs
          subst this
          refine obsInv_replace h hi (fun _ => rfl) (fun _ => rfl) ?_ (by intro k' c' r' e; cases e) ?_
          · intro k' e
            injection e with e
            exact ⟨r, o', ho, e, hterm⟩
          · intro k' c' r' o _ _ _ _ e
            rcases e with e | e | e
            · cases e
            · cases e
            · injection e with e1 e2 e3
              subst e1
              exact .inl (by rw [hok])
        · rw [if_neg hterm] at hs
          have := Outcome.ok.inj hs
          subst this
          refine obsInv_erase h hi (fun _ => rfl) (fun _ => rfl) ?_
          intro k' c' r' o _ _ ho2 ht
          refine ⟨nofun, nofun, ?_⟩
          intro e
          injection e with e1 e2 e3
          subst e3
          have := Option.some.inj (ho2.symm.trans ho)
          subst this
          exact hterm ht
    | update k =>
      have := Outcome.ok.inj hs
      subst this
      exact obsInv_update h hi
    | notify cs =>
      cases cs with
      | nil =>
        have := Outcome.ok.inj hs
        subst this
        refine obsInv_erase h hi (fun _ => rfl) (fun _ => rfl) ?_
        intro k c r o _ _ _ _
        exact ⟨nofun, nofun, nofun⟩
      | cons c cs =>
        dsimp only at hs
        cases hc : s.chans[c]? with
        | none => rw [hc] at hs; cases hs
        | some ch =>
          rw [hc] at hs
          dsimp only at hs
          by_cases hcl : ch.closed = true
          · rw [if_pos hcl] at hs; cases hs
          · rw [if_neg hcl] at hs
            by_cases hu : ch.unread < 1
            · rw [if_pos hu] at hs
              have := Outcome.ok.inj hs
              subst this
              exact obsInv_send h hi hc
            · rw [if_neg hu] at hs; cases hs
    | closing c cs =>
      dsimp only at hs
      cases hc : s.chans[c]? with
      | none => rw [hc] at hs; cases hs
      | some ch =>
        rw [hc] at hs
        dsimp only at hs
        by_cases hcl : ch.closed = true
        · rw [if_pos hcl] at hs; cases hs
        · rw [if_neg hcl] at hs
          have := Outcome.ok.inj hs
          subst this
          exact obsInv_close h hi hc
    | start r =>
      dsimp only at hs
      cases ho : s.objs[r]? with
      | none => rw [ho] at hs; cases hs
      | some o =>
        rw [ho] at hs
        have := Outcome.ok.inj hs
        subst this
        have h1 : ObsInv { s with tasks := s.tasks.eraseIdx i } := by
          refine obsInv_erase h hi (fun _ => rfl) (fun _ => rfl) ?_
          intro k c r o _ _ _ _
          exact ⟨nofun, nofun, nofun⟩
        refine obsInv_objs (s := { s with tasks := s.tasks.eraseIdx i }) h1 (objsLe_set ho rfl id) ?_
        intro r' o' ho' ht
        rcases getElem?_set_cases ho ho' with ⟨rfl, rfl⟩ | ⟨_, ho'⟩
        · exact ⟨o, ho, ht⟩
        · exact ⟨o', ho', ht⟩

theorem obsInv_step {s s' : Reg} (h : ObsInv s) (hr : RunsInv s) {e : Ev} (hs : step s e = .ok s') : ObsInv s' := by
  cases e with
  | obs k => have := Outcome.ok.inj hs; subst this; exact obsInv_obs h k
  | recv c =>
    rw [step, recv] at hs
    cases hc : s.chans[c]? with
    | none => rw [hc] at hs; cases hs
    | some ch =>
      rw [hc] at hs
      dsimp only at hs
      by_cases h1 : 0 < ch.unread
      · rw [if_pos h1] at hs
        have := Outcome.ok.inj hs
        subst this
        exact obsInv_recv h hc
      · rw [if_neg h1] at hs
        by_cases h2 : ch.closed = true
        · rw [if_pos h2] at hs
          have := Outcome.ok.inj hs
          subst this; exact h
        · rw [if_neg h2] at hs; cases hs
  | ensure k => have := Outcome.ok.inj hs; subst this; exact obsInv_ensure h hr k
  | delete k => have := Outcome.ok.inj hs; subst this; exact obsInv_delete h k
  | finish r => exact obsInv_finish h hr hs
  | task i => exact obsInv_task h hr hs

theorem inv_run {s s' : Reg} (h : RunsInv s) (ho : ObsInv s) {es : List Ev} (hs : run s es = .ok s') : RunsInv s' ∧ ObsInv s' := by
  induction es generalizing s with
  | nil => have := Outcome.ok.inj hs; subst this; exact ⟨h, ho⟩
  | cons e es ih =>
    rw [run, Outcome.bind_eq_ok] at hs
    obtain ⟨s1, h1, h2⟩ := hs
    exact ih (runsInv_step h h1) (obsInv_step ho h h1) h2

end Verif.Registry
