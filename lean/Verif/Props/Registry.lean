import Verif.Proofs.Observers

/-! C48 and C49: observers of terminations, and one run with one stepping thread per run id. -/
namespace Verif.Props.Registry
open Verif.Registry Verif.Spec.Registry

theorem inv {h : List Ev} {s : Reg} (hr : run init h = .ok s) : RunsInv s ∧ ObsInv s := inv_run runsInv_init obsInv_init hr

/-- C49. Between two creations of a run with the same protocol, guest and run id there is a deletion of that run. -/
theorem C49_one_run (h : List Ev) (s : Reg) (hr : run init h = .ok s) (k : RunKey) (r r' : Nat) (l1 l2 l3 : List Entry)
    (hl : s.log = l1 ++ .created k r :: l2 ++ .created k r' :: l3) : Entry.deleted k ∈ l2 := by
  by_contra hd
  exact live_of_created k r l1 l2 hd ((inv hr).1.fresh _ k r' l3 hl)

/-- C49. The registry has the run created last, unless it was deleted since. -/
theorem C49_registered (h : List Ev) (s : Reg) (hr : run init h = .ok s) (k : RunKey) : s.runs.get? k = live k s.log :=
  (inv hr).1.live k

/-- C49. Each run created is a new object. -/
theorem C49_distinct (h : List Ev) (s : Reg) (hr : run init h = .ok s) :
    ((creations s.log).map Prod.snd).Nodup := by
  rw [(inv hr).1.made, List.zipIdx_map_snd]
  exact List.nodup_range'

/-- C49. A run created gets one stepping thread: never two, and one as soon as the call that created it has gone on. -/
theorem C49_one_thread (h : List Ev) (s : Reg) (hr : run init h = .ok s) (k : RunKey) (r : Nat)
    (hc : Entry.created k r ∈ s.log) :
    s.log.count (.started r) ≤ 1 ∧ (Task.start r ∉ s.tasks → s.log.count (.started r) = 1) := by
  have i := (inv hr).1
  have hm : (k, r) ∈ creations s.log := by
    rw [creations, List.mem_filterMap]; exact ⟨_, hc, rfl⟩
  rw [i.made] at hm
  have hlt := List.snd_lt_add_of_mem_zipIdx hm
  dsimp only at hlt
  rw [List.length_map, Nat.zero_add] at hlt
  obtain ⟨t1, t2, _, _⟩ := i.thread r _ (List.getElem?_eq_getElem hlt)
  refine ⟨by omega, fun hn => ?_⟩
  have : total (startTok r) s.tasks = 0 := by
    by_contra hne
    obtain ⟨x, hx, hp⟩ := exists_of_total_pos (f := startTok r) (l := s.tasks) (by omega)
    rw [startTok] at hp
    by_cases e : x = .start r
    · subst e; exact hn hx
    · rw [if_neg e] at hp; omega
  omega

/-- C49. A thread is started only for a run that was created. -/
theorem C49_thread_has_run (h : List Ev) (s : Reg) (hr : run init h = .ok s) (r : Nat) (hc : Entry.started r ∈ s.log) :
    ∃ k, Entry.created k r ∈ s.log := by
  have i := (inv hr).1
  have hlt : r < s.objs.length := by
    by_contra hn
    have := (i.absent r (by omega)).2
    rw [List.count_eq_zero] at this
    exact this hc
  have hm : ((s.objs.map Obj.key)[r]'(by rw [List.length_map]; exact hlt), r) ∈ (s.objs.map Obj.key).zipIdx := by
    rw [List.mem_zipIdx_iff_getElem?]
    exact List.getElem?_eq_getElem _
  rw [← i.made, creations, List.mem_filterMap] at hm
  obtain ⟨e, he, hx⟩ := hm
  cases e with
  | created k' r' =>
    have hx := Option.some.inj hx
    injection hx with h1 h2
    subst h2
    exact ⟨k', he⟩
  | deleted k' => cases hx
  | started r' => cases hx

/-- C48. No channel gets two notifications, and none is closed before its notification. -/
theorem C48_at_most_once (h : List Ev) (s : Reg) (hr : run init h = .ok s) (c : Nat) (ch : Chan)
    (hc : s.chans[c]? = some ch) : ch.sent ≤ 1 ∧ (ch.closed = true → ch.sent = 1) := by
  obtain ⟨a, b, _⟩ := (inv hr).2.once c ch hc
  refine ⟨by omega, fun hcl => ?_⟩
  rw [if_pos hcl] at b
  omega

/-- C48. A notification comes only after a run with that run id has terminated. -/
theorem C48_only_after (h : List Ev) (s : Reg) (hr : run init h = .ok s) (c : Nat) (ch : Chan)
    (hc : s.chans[c]? = some ch) (hs : 0 < ch.sent) :
    ∃ (r : Nat) (o : Obj), s.objs[r]? = some o ∧ o.key = ch.key ∧ o.terminated = true :=
  (inv hr).2.after c ch hc (.inr hs)

theorem notified {s : Reg} (i : ObsInv s) {k : RunKey} {r : Nat} {o : Obj}
    (hk : s.runs.get? k = some r) (ho : s.objs[r]? = some o) (ht : o.terminated = true) {c : Nat} {ch : Chan}
    (hc : s.chans[c]? = some ch) (hck : ch.key = k) (hq : ∀ t ∈ s.tasks, ¬ Concerns k c t) :
    ch.sent = 1 ∧ ch.closed = true := by
  obtain ⟨a, b, _⟩ := i.once c ch hc
  rw [wait] at a
  have h1 : total (taskWait c) s.tasks = 0 := by
    by_contra hne
    obtain ⟨x, hx, hp⟩ := exists_of_total_pos (f := taskWait c) (l := s.tasks) (by omega)
    refine hq x hx ?_
    cases x with
    | notify cs => exact List.count_pos_iff.1 hp
    | closing c' cs => exact .inr (List.count_pos_iff.1 hp)
    | _ => cases hp
  have h2 : total (taskClosing c) s.tasks = 0 := by
    by_contra hne
    obtain ⟨x, hx, hp⟩ := exists_of_total_pos (f := taskClosing c) (l := s.tasks) (by omega)
    refine hq x hx ?_
    cases x with
    | closing c' cs =>
      left
      by_contra hn
      rw [taskClosing, if_neg hn] at hp; cases hp
    | _ => cases hp
  have h3 : total (obsWait c) s.obs = 0 := by
    by_contra hne
    obtain ⟨p, hp, hpc⟩ := exists_of_total_pos (f := obsWait c) (l := s.obs) (by omega)
    have hg : s.obs.get? p.1 = some p.2 := (GoMap.mem_iff_get? i.nodup p.1 p.2).1 hp
    have hmem : c ∈ (s.obs.get? p.1).getD [] := by
      rw [hg, Option.getD_some]; exact List.count_pos_iff.1 hpc
    obtain ⟨ch', hc', hk'⟩ := i.keyed p.1 c hmem
    have := Option.some.inj (hc'.symm.trans hc)
    subst this
    have hpk : p.1 = k := hk'.symm.trans hck
    rw [hpk] at hmem
    rcases i.promise k c r o hmem hk ho ht with hm | hm | hm
    · exact hq _ hm rfl
    · exact hq _ hm rfl
    · exact hq _ hm rfl
  rw [h1, h3] at a
  refine ⟨by omega, ?_⟩
  by_contra hcl
  rw [Bool.not_eq_true] at hcl
  rw [hcl, h2] at b
  simp at b
  omega

/-- C48. When the registered run has terminated and no goroutine has anything left to do for a channel that observes it,
the channel has got its notification and is closed, whenever it was registered. -/
theorem C48_notified (h : List Ev) (s : Reg) (hr : run init h = .ok s) (k : RunKey) (r : Nat) (o : Obj)
    (hk : s.runs.get? k = some r) (ho : s.objs[r]? = some o) (ht : o.terminated = true) (c : Nat) (ch : Chan)
    (hc : s.chans[c]? = some ch) (hck : ch.key = k) (hq : ∀ t ∈ s.tasks, ¬ Concerns k c t) :
    ch.sent = 1 ∧ ch.closed = true := notified (inv hr).2 hk ho ht hc hck hq

theorem task_ok {s : Reg} (ir : RunsInv s) (io : ObsInv s) (i : Nat) (hi : i < s.tasks.length) : ∃ s', step s (.task i) = .ok s' := by
  rw [step, taskStep]
  have hit := List.getElem?_eq_getElem hi
  have hmem : s.tasks[i] ∈ s.tasks := List.getElem_mem hi
  rw [hit]
  cases ht : s.tasks[i] with
  | look k c => dsimp only; cases s.runs.get? k <;> exact ⟨_, rfl⟩
  | read k c r =>
    rw [ht] at hmem
    obtain ⟨o, ho, _⟩ := io.read k c r hmem
    dsimp only
    rw [ho]
    dsimp only
    by_cases hterm : o.terminated = true
    · rw [if_pos hterm]; exact ⟨_, rfl⟩
    · rw [if_neg hterm]; exact ⟨_, rfl⟩
  | update k => exact ⟨_, rfl⟩
  | notify cs =>
    cases cs with
    | nil => exact ⟨_, rfl⟩
    | cons c cs =>
      rw [ht] at hmem
      have := total_pos (f := taskWait c) hmem
      simp only [taskWait, List.count_cons_self] at this
      obtain ⟨ch, hc, _, hu, hcl⟩ := chan_of_wait io (c := c) (by omega)
      dsimp only
      rw [hc]
      dsimp only
      rw [hcl, hu]
      exact ⟨_, rfl⟩
  | closing c cs =>
    rw [ht] at hmem
    have := total_pos (f := taskClosing c) hmem
    simp only [taskClosing, if_true] at this
    obtain ⟨ch, hc, _, hcl⟩ := chan_of_closing io (c := c) (by omega)
    dsimp only
    rw [hc]
    dsimp only
    rw [hcl]
    exact ⟨_, rfl⟩
  | start r =>
    rw [ht] at hmem
    have := total_pos (f := startTok r) hmem
    rw [startTok, if_pos rfl] at this
    have hlt : r < s.objs.length := by
      by_contra hn
      have := (ir.absent r (by omega)).1
      omega
    dsimp only
    rw [List.getElem?_eq_getElem hlt]
    exact ⟨_, rfl⟩

/-- C48. A goroutine that registers or notifies observers is never blocked, and never panics. -/
theorem C48_never_blocks (h : List Ev) (s : Reg) (hr : run init h = .ok s) (i : Nat) (hi : i < s.tasks.length) :
    ∃ s', step s (.task i) = .ok s' := by
  obtain ⟨ir, io⟩ := inv hr
  exact task_ok ir io i hi

/-- The sections a task may still have to run, without those for the channels it will take from `_term_obs`. -/
def weight : Task → Nat
  | .look _ _ => 4
  | .read _ _ _ => 3
  | .update _ => 2
  | .notify cs => 1 + 2 * cs.length
  | .closing _ cs => 2 + 2 * cs.length
  | .start _ => 1

/-- A bound for the sections that all tasks may still have to run. -/
def work (s : Reg) : Nat := total (fun p => 2 * p.2.length) s.obs + total weight s.tasks

theorem total_len_delete {m : GoMap RunKey (List Nat)} (h : (GoMap.keys m).Nodup) (k : RunKey) :
    total (fun p => 2 * p.2.length) m = 2 * ((m.get? k).getD []).length + total (fun p => 2 * p.2.length) (m.delete k) := by
  induction m with
  | nil => simp [total, GoMap.delete]
  | cons p m ih =>
    rw [GoMap.keys, List.map_cons, List.nodup_cons] at h
    have ih := ih h.2
    rw [total, GoMap.get?_cons, GoMap.delete, List.filter_cons]
    by_cases e : p.1 = k
    · have hd : m.filter (fun p => decide (p.1 ≠ k)) = m := by
        rw [List.filter_eq_self]
        intro q hq
        rw [decide_eq_true_eq]
        intro hqk
        exact h.1 (List.mem_map.2 ⟨q, hq, hqk.trans e.symm⟩)
      rw [if_pos e]
      simp only [e, ne_eq, not_true, decide_false, Bool.false_eq_true, if_false]
      simp only [ne_eq] at hd
      rw [hd]; rfl
    · rw [if_neg e]
      simp only [e, ne_eq, not_false_eq_true, decide_true, if_true]
      rw [total]
      have : m.filter (fun p => decide (¬ p.1 = k)) = GoMap.delete m k := rfl
      rw [this]; omega

/-- What a section of a task leaves as it is. -/
structure Kept (s s' : Reg) : Prop where
  runs : s'.runs = s.runs
  objs : ObjsLe s.objs s'.objs
  chans : s'.chans.map Chan.key = s.chans.map Chan.key

theorem task_kept {s s' : Reg} (ho : ObsInv s) {i : Nat} (hs : step s (.task i) = .ok s') : Kept s s' ∧ work s' < work s := by
  rw [step, taskStep] at hs
  cases hi : s.tasks[i]? with
  | none => rw [hi] at hs; cases hs
  | some t =>
    rw [hi] at hs
    have herase := total_erase weight hi
    cases t with
    | look k c =>
      simp only [weight] at herase
      dsimp only at hs
      cases hr : s.runs.get? k with
      | none =>
        rw [hr] at hs
        have := Outcome.ok.inj hs
        subst this
        exact ⟨⟨rfl, .refl _, rfl⟩, by dsimp only [work]; omega⟩
      | some r =>
        rw [hr] at hs
        have := Outcome.ok.inj hs
        subst this
        have hset := total_set weight (.read k c r) hi
        simp only [weight] at hset
        exact ⟨⟨rfl, .refl _, rfl⟩, by dsimp only [work]; omega⟩
    | read k c r =>
      simp only [weight] at herase
      dsimp only at hs
      cases hor : s.objs[r]? with
      | none => rw [hor] at hs; cases hs
      | some o =>
        rw [hor] at hs
        dsimp only at hs
        by_cases hterm : o.terminated = true
        · rw [if_pos hterm] at hs
          have := Outcome.ok.inj hs
          subst this
          have hset := total_set weight (.update o.key) hi
          simp only [weight] at hset
          exact ⟨⟨rfl, .refl _, rfl⟩, by dsimp only [work]; omega⟩
        · rw [if_neg hterm] at hs
          have := Outcome.ok.inj hs
          subst this
          exact ⟨⟨rfl, .refl _, rfl⟩, by dsimp only [work]; omega⟩
    | update k =>
      have := Outcome.ok.inj hs
      subst this
      have hset := total_set weight (.notify ((s.obs.get? k).getD [])) hi
      simp only [weight] at hset
      have hdel := total_len_delete ho.nodup k
      exact ⟨⟨rfl, .refl _, rfl⟩, by dsimp only [work]; omega⟩
    | notify cs =>
      cases cs with
      | nil =>
        simp only [weight] at herase
        have := Outcome.ok.inj hs
        subst this
        exact ⟨⟨rfl, .refl _, rfl⟩, by dsimp only [work]; omega⟩
      | cons c cs =>
        dsimp only at hs
        cases hc : s.chans[c]? with
        | none => rw [hc] at hs; cases hs
        | some ch =>
          rw [hc] at hs
          dsimp only at hs
          by_cases hcl : ch.closed = true
          · rw [if_pos hcl] at hs; cases hs
          · rw [if_neg hcl] at hs
            by_cases hu : ch.unread < 1
            · rw [if_pos hu] at hs
              have := Outcome.ok.inj hs
              subst this
              have hset := total_set weight (.closing c cs) hi
              simp only [weight, List.length_cons] at hset
              exact ⟨⟨rfl, .refl _, map_set_same Chan.key _ hc rfl⟩, by dsimp only [work]; omega⟩
            · rw [if_neg hu] at hs; cases hs
    | closing c cs =>
      dsimp only at hs
      cases hc : s.chans[c]? with
      | none => rw [hc] at hs; cases hs
      | some ch =>
        rw [hc] at hs
        dsimp only at hs
        by_cases hcl : ch.closed = true
        · rw [if_pos hcl] at hs; cases hs
        · rw [if_neg hcl] at hs
          have := Outcome.ok.inj hs
          subst this
          have hset := total_set weight (.notify cs) hi
          simp only [weight] at hset
          exact ⟨⟨rfl, .refl _, map_set_same Chan.key _ hc rfl⟩, by dsimp only [work]; omega⟩
    | start r =>
      simp only [weight] at herase
      dsimp only at hs
      cases hor : s.objs[r]? with
      | none => rw [hor] at hs; cases hs
      | some o =>
        rw [hor] at hs
        have := Outcome.ok.inj hs
        subst this
        exact ⟨⟨rfl, objsLe_set hor rfl id, rfl⟩, by dsimp only [work]; omega⟩

theorem run_append (s : Reg) (h g : List Ev) : run s (h ++ g) = run s h >>= fun s' => run s' g := by
  induction h generalizing s with
  | nil => rfl
  | cons e h ih =>
    rw [List.cons_append, run, run]
    cases step s e with
    | ok a => exact ih a
    | err => rfl
    | panic => rfl

/-- C48. The goroutines that register and notify observers run at most `work s` sections in a row, whatever the order. -/
theorem C48_finite (h : List Ev) (s s' : Reg) (hr : run init h = .ok s) (is : List Nat)
    (hs : run s (is.map Ev.task) = .ok s') : is.length ≤ work s := by
  induction is generalizing h s with
  | nil => exact Nat.zero_le _
  | cons i is ih =>
    rw [List.map_cons, run, Outcome.bind_eq_ok] at hs
    obtain ⟨s1, h1, h2⟩ := hs
    have hw := (task_kept (inv hr).2 h1).2
    have hr1 : run init (h ++ [.task i]) = .ok s1 := by
      rw [run_append, hr, Outcome.bind_ok, run, h1, Outcome.bind_ok, run]
    have := ih (h ++ [.task i]) s1 hr1 h2
    rw [List.length_cons]; omega

/-- C48. From any moment on at which the registered run has terminated, once the pending goroutines have run, in whatever
order, until they have nothing left to do, every channel made for it so far has got exactly one notification. -/
theorem C48_exactly_once (h : List Ev) (s : Reg) (hr : run init h = .ok s) (k : RunKey) (r : Nat) (o : Obj)
    (hk : s.runs.get? k = some r) (ho : s.objs[r]? = some o) (ht : o.terminated = true) (c : Nat) (ch : Chan)
    (hc : s.chans[c]? = some ch) (hck : ch.key = k) (is : List Nat) (s' : Reg) (hs : run s (is.map Ev.task) = .ok s')
    (hd : s'.tasks = []) : ∃ ch', s'.chans[c]? = some ch' ∧ ch'.key = k ∧ ch'.sent = 1 ∧ ch'.closed = true := by
  have key : ∀ (is : List Nat) (h : List Ev) (s : Reg), run init h = .ok s → run s (is.map Ev.task) = .ok s' → Kept s s' ∧
      ∃ h', run init h' = .ok s' := by
    intro is
    induction is with
    | nil =>
      intro h s hr hs
      have := Outcome.ok.inj hs
      subst this
      exact ⟨⟨rfl, .refl _, rfl⟩, h, hr⟩
    | cons i is ih =>
      intro h s hr hs
      rw [List.map_cons, run, Outcome.bind_eq_ok] at hs
      obtain ⟨s1, h1, h2⟩ := hs
      have hw := (task_kept (inv hr).2 h1).1
      have hr1 : run init (h ++ [.task i]) = .ok s1 := by
        rw [run_append, hr, Outcome.bind_ok, run, h1, Outcome.bind_ok, run]
      obtain ⟨ht, hh⟩ := ih _ s1 hr1 h2
      refine ⟨⟨ht.runs.trans hw.runs, ?_, ht.chans.trans hw.chans⟩, hh⟩
      intro r o ho
      obtain ⟨o1, ho1, hk1, ht1⟩ := hw.objs r o ho
      obtain ⟨o2, ho2, hk2, ht2⟩ := ht.objs r o1 ho1
      exact ⟨o2, ho2, hk2.trans hk1, fun x => ht2 (ht1 x)⟩
  obtain ⟨kp, h', hr'⟩ := key is h s hr hs
  obtain ⟨o', ho', _, ht'⟩ := kp.objs r o ho
  have hc' : (s'.chans.map Chan.key)[c]? = some k := by
    rw [kp.chans, List.getElem?_map, hc, Option.map_some, hck]
  rw [List.getElem?_map] at hc'
  cases hcs : s'.chans[c]? with
  | none => rw [hcs] at hc'; cases hc'
  | some ch' =>
    rw [hcs] at hc'
    have hkk : ch'.key = k := by simpa using hc'
    refine ⟨ch', rfl, hkk, ?_⟩
    exact C48_notified h' s' hr' k r o' (by rw [kp.runs]; exact hk) ho' (ht' ht) c ch' hcs hkk (by rw [hd]; simp)

/-- C48. Such a continuation exists: the pending goroutines can always be run to their ends. -/
theorem C48_drains (h : List Ev) (s : Reg) (hr : run init h = .ok s) :
    ∃ (is : List Nat) (s' : Reg), run s (is.map Ev.task) = .ok s' ∧ s'.tasks = [] := by
  induction hn : work s using Nat.strongRecOn generalizing h s with
  | ind n ih =>
    by_cases hl : s.tasks = []
    · exact ⟨[], s, rfl, hl⟩
    · have h0 : 0 < s.tasks.length := List.length_pos_of_ne_nil hl
      obtain ⟨s1, h1⟩ := C48_never_blocks h s hr 0 h0
      have hw := (task_kept (inv hr).2 h1).2
      have hr1 : run init (h ++ [.task 0]) = .ok s1 := by
        rw [run_append, hr, Outcome.bind_ok, run, h1, Outcome.bind_ok, run]
      obtain ⟨is, s', hs', hd⟩ := ih (work s1) (by omega) (h ++ [.task 0]) s1 hr1 rfl
      exact ⟨0 :: is, s', by rw [List.map_cons, run, h1, Outcome.bind_ok]; exact hs', hd⟩

section Examples

/-- A run of the first protocol. -/
def exKey : RunKey := ⟨0, 1, "a"⟩

/-- An observer before the run, two racing callers, an observer that registers while the run ends, and one that registers
while the observers are told. -/
def exHist : List Ev :=
  [.obs exKey, .task 0, .ensure exKey, .ensure exKey, .task 0, .obs exKey, .task 0, .finish 0, .task 0, .task 0, .obs exKey] ++
    List.replicate 13 (.task 0)

def exCheck : Bool :=
  match run init exHist with
  | .ok s => s.tasks.isEmpty && (s.chans.map fun c => (c.sent, c.closed)) == [(1, true), (1, true), (1, true)] &&
      s.runs.get? exKey == some 0 && s.log == [.created exKey 0, .started 0] && s.objs.map Obj.terminated == [true]
  | _ => false

/-- The hypotheses of the theorems hold for this history. -/
theorem exHist_ok : exCheck = true := by decide +kernel

def exCheck2 : Bool :=
  match run init (exHist ++ [.delete exKey, .ensure exKey]) with
  | .ok s => s.log == [.created exKey 0, .started 0, .deleted exKey, .created exKey 1] && s.tasks == [.start 1]
  | _ => false

/-- Two creations with a deletion between them, and a thread not yet started. -/
theorem exHist2_ok : exCheck2 = true := by decide +kernel
end Examples

end Verif.Props.Registry
