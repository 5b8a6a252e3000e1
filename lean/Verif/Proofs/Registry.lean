import Verif.Spec.Registry
import Mathlib.Data.List.Induction

/-! The invariants of the registry. -/
namespace Verif.Registry
open Verif.Spec.Registry

/-- Sum over a list. -/
def total {α : Type} (f : α → Nat) : List α → Nat
  | [] => 0
  | x :: l => f x + total f l

variable {α : Type}

theorem total_append (f : α → Nat) (l m : List α) : total f (l ++ m) = total f l + total f m := by
  induction l with
  | nil => simp [total]
  | cons x l ih => rw [List.cons_append, total, total, ih]; omega

theorem total_set (f : α → Nat) {l : List α} {i : Nat} {x : α} (y : α) (h : l[i]? = some x) :
    total f (l.set i y) + f x = total f l + f y := by
  induction l generalizing i with
  | nil => simp at h
  | cons a l ih =>
    cases i with
    | zero =>
      rw [List.getElem?_cons_zero] at h
      have := Option.some.inj h
      subst this
      rw [List.set_cons_zero, total, total]; omega
    | succ i =>
      rw [List.getElem?_cons_succ] at h
      rw [List.set_cons_succ, total, total]
      have := ih h
      omega

theorem total_erase (f : α → Nat) {l : List α} {i : Nat} {x : α} (h : l[i]? = some x) :
    total f (l.eraseIdx i) + f x = total f l := by
  induction l generalizing i with
  | nil => simp at h
  | cons a l ih =>
    cases i with
    | zero =>
      rw [List.getElem?_cons_zero] at h
      have := Option.some.inj h
      subst this
      rw [List.eraseIdx_cons_zero, total]; omega
    | succ i =>
      rw [List.getElem?_cons_succ] at h
      rw [List.eraseIdx_cons_succ, total, total]
      have := ih h
      omega

theorem total_pos {f : α → Nat} {l : List α} {x : α} (hx : x ∈ l) : f x ≤ total f l := by
  induction l with
  | nil => cases hx
  | cons a l ih =>
    rw [total]
    rcases List.mem_cons.1 hx with rfl | h
    · omega
    · have := ih h; omega

theorem exists_of_total_pos {f : α → Nat} {l : List α} (h : 0 < total f l) : ∃ x ∈ l, 0 < f x := by
  induction l with
  | nil => simp [total] at h
  | cons a l ih =>
    rw [total] at h
    by_cases ha : 0 < f a
    · exact ⟨a, by simp, ha⟩
    · obtain ⟨x, hx, hf⟩ := ih (by omega)
      exact ⟨x, by simp [hx], hf⟩

/-- Another element stays when one is replaced or removed. -/
theorem mem_set_of_ne {l : List α} {i : Nat} {x t : α} (y : α) (h : l[i]? = some x) (ht : t ∈ l) (hn : t ≠ x) : t ∈ l.set i y := by
  obtain ⟨j, hj⟩ := List.mem_iff_getElem?.1 ht
  have hij : i ≠ j := by rintro rfl; exact hn (Option.some.inj (hj.symm.trans h))
  exact List.mem_iff_getElem?.2 ⟨j, by rw [List.getElem?_set_ne hij]; exact hj⟩

theorem mem_erase_of_ne {l : List α} {i : Nat} {x t : α} (h : l[i]? = some x) (ht : t ∈ l) (hn : t ≠ x) : t ∈ l.eraseIdx i := by
  induction l generalizing i with
  | nil => cases ht
  | cons a l ih =>
    cases i with
    | zero =>
      rw [List.getElem?_cons_zero] at h
      have := Option.some.inj h
      subst this
      rw [List.eraseIdx_cons_zero]
      exact (List.mem_cons.1 ht).resolve_left hn
    | succ i =>
      rw [List.getElem?_cons_succ] at h
      rw [List.eraseIdx_cons_succ, List.mem_cons]
      exact (List.mem_cons.1 ht).imp id (ih h)

theorem mem_set_new {l : List α} {i : Nat} {x : α} (y : α) (h : l[i]? = some x) : y ∈ l.set i y := by
  have hi : i < l.length := by
    by_contra hc
    rw [List.getElem?_eq_none (by omega)] at h; cases h
  exact List.mem_iff_getElem?.2 ⟨i, by rw [List.getElem?_set_self hi]⟩

theorem map_set_same {β : Type} (g : α → β) {l : List α} {i : Nat} {x : α} (y : α) (h : l[i]? = some x) (hg : g y = g x) :
    (l.set i y).map g = l.map g := by
  induction l generalizing i with
  | nil => simp at h
  | cons a l ih =>
    cases i with
    | zero =>
      rw [List.getElem?_cons_zero] at h
      have := Option.some.inj h
      subst this
      simp [hg]
    | succ i =>
      rw [List.getElem?_cons_succ] at h
      simp [ih h]

theorem snoc_split {l l1 l2 : List α} {e x : α} (h : l ++ [e] = l1 ++ x :: l2) :
    (l1 = l ∧ x = e ∧ l2 = []) ∨ ∃ l2', l2 = l2' ++ [e] ∧ l = l1 ++ x :: l2' := by
  induction l2 using List.reverseRecOn with
  | nil =>
    left
    have := List.append_inj' h rfl
    exact ⟨this.1.symm, by have := this.2; simp at this; exact this.symm, rfl⟩
  | append_singleton l2 e' _ =>
    right
    rw [← List.cons_append, ← List.append_assoc] at h
    have := List.append_inj' h rfl
    refine ⟨l2, ?_, this.1⟩
    rw [this.2]

/-- How many tasks are about to start a thread of run `r`. -/
def startTok (r : Nat) (t : Task) : Nat := if t = .start r then 1 else 0

/-- The registry proper and its log. -/
structure RunsInv (s : Reg) : Prop where
  reg : ∀ k r, s.runs.get? k = some r → ∃ o, s.objs[r]? = some o ∧ o.key = k
  live : ∀ k, s.runs.get? k = live k s.log
  fresh : ∀ l1 k r l2, s.log = l1 ++ .created k r :: l2 → Spec.Registry.live k l1 = none
  made : creations s.log = (s.objs.map Obj.key).zipIdx
  thread : ∀ (r : Nat) (o : Obj), s.objs[r]? = some o → total (startTok r) s.tasks + o.started = 1 ∧ s.log.count (.started r) = o.started ∧
    o.ended ≤ o.started ∧ (o.terminated = true ↔ 0 < o.ended)
  absent : ∀ r, s.objs.length ≤ r → total (startTok r) s.tasks = 0 ∧ s.log.count (.started r) = 0

/-- Only the tasks changed, and not their starts. -/
theorem RunsInv.tasks {s s' : Reg} (h : RunsInv s) (hr : s'.runs = s.runs) (ho : s'.objs = s.objs) (hl : s'.log = s.log)
    (ht : ∀ r, total (startTok r) s'.tasks = total (startTok r) s.tasks) : RunsInv s' := by
  refine ⟨?_, ?_, ?_, ?_, ?_, ?_⟩
  · rw [hr, ho]; exact h.reg
  · rw [hr, hl]; exact h.live
  · rw [hl]; exact h.fresh
  · rw [hl, ho]; exact h.made
  · intro r o hro
    rw [ht, hl]; rw [ho] at hro; exact h.thread r o hro
  · intro r hr'
    rw [ht, hl]; rw [ho] at hr'; exact h.absent r hr'

theorem total_set_same (f : α → Nat) {l : List α} {i : Nat} {x : α} (y : α) (h : l[i]? = some x) (e : f y = f x) :
    total f (l.set i y) = total f l := by
  have := total_set f y h
  omega

theorem total_erase_zero (f : α → Nat) {l : List α} {i : Nat} {x : α} (h : l[i]? = some x) (e : f x = 0) :
    total f (l.eraseIdx i) = total f l := by
  have := total_erase f h
  omega

theorem runsInv_ensure {s : Reg} (h : RunsInv s) (k : RunKey) : RunsInv (ensure s k) := by
  rw [ensure]
  cases hk : s.runs.get? k with
  | some r => exact h
  | none =>
    dsimp only
    refine ⟨?_, ?_, ?_, ?_, ?_, ?_⟩
    · intro k' r hr
      dsimp only at hr ⊢
      rw [GoMap.get?_set] at hr
      by_cases e : k = k'
      · rw [if_pos e] at hr
        have := Option.some.inj hr
        subst this
        exact ⟨⟨k, 0, 0, false⟩, by simp, e⟩
      · rw [if_neg e] at hr
        obtain ⟨o, ho, hok⟩ := h.reg k' r hr
        refine ⟨o, ?_, hok⟩
        rw [List.getElem?_append_left, ho]
        by_contra hc
        rw [List.getElem?_eq_none (by omega)] at ho; cases ho
    · intro k'
      dsimp only
      rw [GoMap.get?_set, live_snoc, liveStep, h.live k']
    · intro l1 k' r l2 hl
      dsimp only at hl
      rcases snoc_split hl with ⟨rfl, e, _⟩ | ⟨l2', _, e⟩
      · injection e with e1 e2
        subst e1
        rw [← h.live]; exact hk
      · exact h.fresh _ _ _ _ e
    · dsimp only
      rw [creations_snoc, h.made, List.map_append, List.zipIdx_append]
      simp
    · intro r o hro
      dsimp only at hro ⊢
      rw [total_append, List.count_append]
      rw [List.getElem?_append] at hro
      by_cases hr : r < s.objs.length
      · rw [if_pos hr] at hro
        have ht := h.thread r o hro
        have e1 : total (startTok r) [Task.start s.objs.length] = 0 := by
          simp [total, startTok]; omega
        have e2 : List.count (Entry.started r) [Entry.created k s.objs.length] = 0 := by simp
        rw [e1, e2]
        exact ht
      · rw [if_neg hr] at hro
        have hr' : r = s.objs.length := by
          by_contra hne
          rw [List.getElem?_eq_none (by simp; omega)] at hro; cases hro
        subst hr'
        have ho : o = ⟨k, 0, 0, false⟩ := by simpa using hro.symm
        subst ho
        obtain ⟨a1, a2⟩ := h.absent _ (Nat.le_refl _)
        rw [a1, a2]
        simp [total, startTok]
    · intro r hr
      dsimp only at hr ⊢
      rw [List.length_append, List.length_singleton] at hr
      obtain ⟨a1, a2⟩ := h.absent r (by omega)
      rw [total_append, List.count_append, a1, a2]
      refine ⟨?_, by simp⟩
      have : s.objs.length ≠ r := by omega
      simp [total, startTok, this]

theorem runsInv_delete {s : Reg} (h : RunsInv s) (k : RunKey) : RunsInv (delete s k) := by
  rw [delete]
  refine ⟨?_, ?_, ?_, ?_, ?_, ?_⟩
  · intro k' r hr
    dsimp only at hr ⊢
    rw [GoMap.get?_delete] at hr
    by_cases e : k = k'
    · rw [if_pos e] at hr; cases hr
    · rw [if_neg e] at hr; exact h.reg k' r hr
  · intro k'
    dsimp only
    rw [GoMap.get?_delete, live_snoc, liveStep, h.live k']
  · intro l1 k' r l2 hl
    dsimp only at hl
    rcases snoc_split hl with ⟨_, e, _⟩ | ⟨l2', _, e⟩
    · cases e
    · exact h.fresh _ _ _ _ e
  · dsimp only
    rw [creations_snoc, h.made]; simp
  · intro r o hro
    dsimp only at hro ⊢
    rw [List.count_append]
    have e2 : List.count (Entry.started r) [Entry.deleted k] = 0 := by simp
    rw [e2]; exact h.thread r o hro
  · intro r hr
    dsimp only at hr ⊢
    rw [List.count_append]
    have e2 : List.count (Entry.started r) [Entry.deleted k] = 0 := by simp
    rw [e2]; exact h.absent r hr

theorem getElem?_set_cases {l : List α} {i j : Nat} {x y z : α} (hi : l[i]? = some x) (h : (l.set i y)[j]? = some z) :
    (j = i ∧ z = y) ∨ (j ≠ i ∧ l[j]? = some z) := by
  have hl : i < l.length := by
    by_contra hc
    rw [List.getElem?_eq_none (by omega)] at hi; cases hi
  by_cases e : j = i
  · subst e
    rw [List.getElem?_set_self hl] at h
    exact .inl ⟨rfl, (Option.some.inj h).symm⟩
  · rw [List.getElem?_set_ne (Ne.symm e)] at h
    exact .inr ⟨e, h⟩

theorem runsInv_finish {s s' : Reg} (h : RunsInv s) {r : Nat} (hs : finish s r = .ok s') : RunsInv s' := by
  rw [finish] at hs
  cases ho : s.objs[r]? with
  | none => rw [ho] at hs; cases hs
  | some o =>
    rw [ho] at hs
    dsimp only at hs
    by_cases hlt : o.ended < o.started
    · rw [if_pos hlt] at hs
      have := Outcome.ok.inj hs
      subst this
      have htok : ∀ r', total (startTok r') (s.tasks ++ [Task.update o.key]) = total (startTok r') s.tasks := by
        intro r'; rw [total_append]; simp [total, startTok]
      refine ⟨?_, h.live, h.fresh, ?_, ?_, ?_⟩
      · intro k r' hr
        dsimp only at hr ⊢
        obtain ⟨o', ho', hk⟩ := h.reg k r' hr
        by_cases e : r' = r
        · subst e
          have := Option.some.inj (ho'.symm.trans ho)
          subst this
          refine ⟨_, List.getElem?_set_self ?_, hk⟩
          by_contra hc
          rw [List.getElem?_eq_none (by omega)] at ho; cases ho
        · exact ⟨o', by rw [List.getElem?_set_ne (Ne.symm e)]; exact ho', hk⟩
      · dsimp only
        rw [map_set_same Obj.key { o with ended := o.ended + 1, terminated := true } ho rfl]; exact h.made
      · intro r' o' hro
        dsimp only at hro ⊢
        rw [htok]
        rcases getElem?_set_cases ho hro with ⟨rfl, rfl⟩ | ⟨_, hro⟩
        · obtain ⟨t1, t2, t3, t4⟩ := h.thread _ _ ho
          refine ⟨t1, t2, ?_, ?_⟩
          · dsimp only; omega
          · dsimp only; simp
        · exact h.thread r' o' hro
      · intro r' hr
        dsimp only at hr ⊢
        rw [htok]
        rw [List.length_set] at hr
        exact h.absent r' hr
    · rw [if_neg hlt] at hs; cases hs

theorem runsInv_task {s s' : Reg} (h : RunsInv s) {i : Nat} (hs : taskStep s i = .ok s') : RunsInv s' := by
  rw [taskStep] at hs
  cases hi : s.tasks[i]? with
  | none => rw [hi] at hs; cases hs
  | some t =>
    rw [hi] at hs
    cases t with
    | look k c =>
      dsimp only at hs
      cases hr : s.runs.get? k with
      | none =>
        rw [hr] at hs
        have := Outcome.ok.inj hs
        subst this
        exact h.tasks rfl rfl rfl fun r => total_erase_zero _ hi (by simp [startTok])
      | some r =>
        rw [hr] at hs
        have := Outcome.ok.inj hs
        subst this
        exact h.tasks rfl rfl rfl fun r => total_set_same _ _ hi (by simp [startTok])
    | read k c r =>
      dsimp only at hs
      cases ho : s.objs[r]? with
      | none => rw [ho] at hs; cases hs
      | some o =>
        rw [ho] at hs
        dsimp only at hs
        by_cases hterm : o.terminated = true
        · rw [if_pos hterm] at hs
          have := Outcome.ok.inj hs
          subst this
          exact h.tasks rfl rfl rfl fun r => total_set_same _ _ hi (by simp [startTok])
        · rw [if_neg hterm] at hs
          have := Outcome.ok.inj hs
          subst this
          exact h.tasks rfl rfl rfl fun r => total_erase_zero _ hi (by simp [startTok])
    | update k =>
      have := Outcome.ok.inj hs
      subst this
      exact h.tasks rfl rfl rfl fun r => total_set_same _ _ hi (by simp [startTok])
    | notify cs =>
      cases cs with
      | nil =>
        have := Outcome.ok.inj hs
        subst this
        exact h.tasks rfl rfl rfl fun r => total_erase_zero _ hi (by simp [startTok])
      | cons c cs =>
        dsimp only at hs
        cases hc : s.chans[c]? with
        | none => rw [hc] at hs; cases hs
        | some ch =>
          rw [hc] at hs
          dsimp only at hs
          by_cases hcl : ch.closed = true
          · rw [if_pos hcl] at hs; cases hs
          · rw [if_neg hcl] at hs
            by_cases hu : ch.unread < 1
            · rw [if_pos hu] at hs
              have := Outcome.ok.inj hs
              subst this
              exact h.tasks rfl rfl rfl fun r => total_set_same _ _ hi (by simp [startTok])
            · rw [if_neg hu] at hs; cases hs
    | closing c cs =>
      dsimp only at hs
      cases hc : s.chans[c]? with
      | none => rw [hc] at hs; cases hs
      | some ch =>
        rw [hc] at hs
        dsimp only at hs
        by_cases hcl : ch.closed = true
        · rw [if_pos hcl] at hs; cases hs
        · rw [if_neg hcl] at hs
          have := Outcome.ok.inj hs
          subst this
          exact h.tasks rfl rfl rfl fun r => total_set_same _ _ hi (by simp [startTok])
    | start r =>
      dsimp only at hs
      cases ho : s.objs[r]? with
      | none => rw [ho] at hs; cases hs
      | some o =>
        rw [ho] at hs
        have := Outcome.ok.inj hs
        subst this
        have hlen : r < s.objs.length := by
          by_contra hc
          rw [List.getElem?_eq_none (by omega)] at ho; cases ho
        refine ⟨?_, ?_, ?_, ?_, ?_, ?_⟩
        · intro k r' hr
          dsimp only at hr ⊢
          obtain ⟨o', ho', hk⟩ := h.reg k r' hr
          by_cases e : r' = r
          · subst e
            have := Option.some.inj (ho'.symm.trans ho)
            subst this
            exact ⟨_, List.getElem?_set_self hlen, hk⟩
          · exact ⟨o', by rw [List.getElem?_set_ne (Ne.symm e)]; exact ho', hk⟩
        · intro k
          dsimp only
          rw [live_snoc, liveStep]; exact h.live k
        · intro l1 k r' l2 hl
          dsimp only at hl
          rcases snoc_split hl with ⟨_, e, _⟩ | ⟨l2', _, e⟩
          · cases e
          · exact h.fresh _ _ _ _ e
        · dsimp only
          rw [creations_snoc, h.made, map_set_same Obj.key { o with started := o.started + 1 } ho rfl]; simp
        · intro r' o' hro
          dsimp only at hro ⊢
          rw [List.count_append]
          have htot := total_erase (startTok r') hi
          rcases getElem?_set_cases ho hro with ⟨rfl, rfl⟩ | ⟨hne, hro⟩
          · obtain ⟨t1, t2, t3, t4⟩ := h.thread _ _ ho
            have e1 : startTok r' (Task.start r') = 1 := by simp [startTok]
            have e2 : List.count (Entry.started r') [Entry.started r'] = 1 := by simp
            rw [e2, t2]
            refine ⟨?_, rfl, ?_, t4⟩
            · dsimp only; omega
            · dsimp only; omega
          · have e1 : startTok r' (Task.start r) = 0 := by simp [startTok]; omega
            have e2 : List.count (Entry.started r') [Entry.started r] = 0 := List.count_eq_zero_of_not_mem (by simp; omega)
            rw [e2]
            obtain ⟨t1, t2, t3, t4⟩ := h.thread _ _ hro
            exact ⟨by omega, by omega, t3, t4⟩
        · intro r' hr
          dsimp only at hr ⊢
          rw [List.length_set] at hr
          obtain ⟨a1, a2⟩ := h.absent r' hr
          rw [List.count_append, a2]
          have htot := total_erase (startTok r') hi
          have e2 : List.count (Entry.started r') [Entry.started r] = 0 := List.count_eq_zero_of_not_mem (by simp; omega)
          exact ⟨by omega, by rw [e2]⟩

theorem runsInv_init : RunsInv init := by
  refine ⟨?_, ?_, ?_, ?_, ?_, ?_⟩
  · intro k r h; simp [init] at h
  · intro k; rfl
  · intro l1 k r l2 h; simp [init] at h
  · rfl
  · intro r o h; simp [init] at h
  · intro r _; exact ⟨rfl, rfl⟩

theorem runsInv_step {s s' : Reg} (h : RunsInv s) {e : Ev} (hs : step s e = .ok s') : RunsInv s' := by
  cases e with
  | obs k =>
    have := Outcome.ok.inj hs
    subst this
    exact h.tasks rfl rfl rfl fun r => by
      rw [obsTerm, total_append]; simp [total, startTok]
  | recv c =>
    rw [step, recv] at hs
    cases hc : s.chans[c]? with
    | none => rw [hc] at hs; cases hs
    | some ch =>
      rw [hc] at hs
      dsimp only at hs
      by_cases h1 : 0 < ch.unread
      · rw [if_pos h1] at hs
        have := Outcome.ok.inj hs
        subst this
        exact h.tasks rfl rfl rfl fun _ => rfl
      · rw [if_neg h1] at hs
        by_cases h2 : ch.closed = true
        · rw [if_pos h2] at hs
          have := Outcome.ok.inj hs
          subst this; exact h
        · rw [if_neg h2] at hs; cases hs
  | ensure k => have := Outcome.ok.inj hs; subst this; exact runsInv_ensure h k
  | delete k => have := Outcome.ok.inj hs; subst this; exact runsInv_delete h k
  | finish r => exact runsInv_finish h hs
  | task i => exact runsInv_task h hs

end Verif.Registry
