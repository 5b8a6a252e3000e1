import Verif.Proofs.KeyProgram

/-! What holds of the main goroutine as it makes long-term keys. -/
namespace Verif.KeyProgram
open Verif.Prot Verif.Dto Verif.Dss Verif.Dkg Verif.Tables Verif.Signode Verif.Props Verif.Spec.Prot Verif.Spec.Signode
open Verif.Spec.KeyProgram
open Verif.Registry (lt_of_some)
open Verif.Props.Signode (allValid_true)
open Verif.Program (nodeEvent released node_ok FInv)
variable {K : Type} {c : Cfg K} {W : Message Dto → Prop}

/-- The run identifiers. -/
abbrev ids (c : Cfg K) (i : Nat) : String := attemptId c.start c.interval i

/-- The output of guest `g` for run `id` has been taken, or never will be. -/
def Popped (c : Cfg K) (m : Main) (g : Int) (id : String) : Prop :=
  ∃ j, id = ids c j ∧ (j < m.i ∨ (j = m.i ∧ (m.pc = .collecting ∨ m.pc = .checking) ∧ g ∈ m.done))

/-- The runners of the j-th attempt have been started. -/
def Launched (m : Main) (j : Nat) : Prop := j < m.i ∨ (j = m.i ∧ m.pc ≠ .launching)

/-- A run for guest `g` in the j-th attempt has ended with this share. -/
def Ended (c : Cfg K) (p : Program.Sys K) (j : Nat) (g : Int) (sh : KeyShare) : Prop :=
  ∃ (r : Nat) (o : Registry.Obj) (u : Run Dto Obj (Data K)) (q : List Int), p.node.reg.objs[r]? = some o ∧ o.key = ⟨0, g, ids c j⟩ ∧
    p.runs[r]? = some u ∧ u.phase = .done ∧ u.user.out = [.key sh q] ∧ c.base.members ≤ q.length

theorem Ended.later {p p' : Program.Sys K} {j : Nat} {g : Int} {sh : KeyShare} (h : Ended c p j g sh) (hl : Later p p') :
    Ended c p' j g sh := by
  obtain ⟨r, o, u, q, h1, h2, h3, h4, h5, h6⟩ := h
  obtain ⟨o', u', a1, a2, a3, a4, a5⟩ := hl r o u h1 h3 h4
  exact ⟨r, o', u', q, a1, a2.trans h2, a3, a4, a5.trans h5, h6⟩

/-- The loop over the guests has begun. -/
def Taking (m : Main) : Prop := m.pc = .collecting ∨ m.pc = .checking

/-- What is known of the main goroutine. -/
structure MInv (c : Cfg K) (s : Sys K) : Prop where
  time : s.main.time = c.start + s.main.i * c.interval
  owner : ∀ u ∈ s.prog.node.runners, ∃ j g, g ∈ c.base.guests ∧ u.key = ⟨0, g, ids c j⟩ ∧ Launched s.main j
  mine : ∀ j g, g ∈ c.base.guests → Launched s.main j → ∃ (k : Nat) (u : Node.Runner), s.prog.node.runners[k]? = some u ∧
    u.key = ⟨0, g, ids c j⟩ ∧ (j = s.main.i → s.main.pc = .waiting → k ∈ s.main.runners) ∧
    (j < s.main.i ∨ s.main.pc ≠ .waiting → 6 ≤ u.pos)
  done : ∀ g ∈ s.main.done, g ∈ c.base.guests
  lts : Taking s.main → s.main.lts.keys.Nodup ∧ ∀ g, g ∈ s.main.lts.keys ↔ g ∈ s.main.done
  all : s.main.pc = .checking → ∀ g ∈ c.base.guests, g ∈ s.main.done
  got : Taking s.main → ∀ g sh, s.main.lts.get? g = some sh → Ended c s.prog s.main.i g sh
  past : ∀ j < s.main.i, ∃ lts : GoMap Int KeyShare, (∀ g ∈ c.base.guests, ∃ sh, lts.get? g = some sh) ∧
    (∀ g sh, lts.get? g = some sh → g ∈ c.base.guests ∧ Ended c s.prog j g sh) ∧ ∃ g sh, lts.get? g = some sh ∧ ¬ OnChain sh
  file : ∀ f, s.file = some f → s.main.pc = .checking ∧ saveLongterms s.main.lts = .ok f ∧
    ∀ g sh, s.main.lts.get? g = some sh → OnChain sh

/-- Everything. -/
structure SInv (c : Cfg K) (W : Message Dto → Prop) (s : Sys K) : Prop where
  p : PInv c.base W (Popped c s.main) s.prog
  m : MInv c s

/-- The run identifiers of the attempts are distinct. -/
def Inj (c : Cfg K) : Prop := ∀ i j, ids c i = ids c j → i = j

theorem runId_ids {s : Sys K} (h : MInv c s) : runId c s.main = ids c s.main.i := by
  rw [runId, runnerRunId, ids, attemptId, h.time]

/-- The runs of an attempt for which the main goroutine no longer waits have ended. -/
theorem finished {s : Sys K} (hp : PInv c.base W (Popped c s.main) s.prog) (hm : MInv c s) {j : Nat} {g : Int} (hg : g ∈ c.base.guests)
    (hj : Launched s.main j) (hw : j < s.main.i ∨ s.main.pc ≠ .waiting) :
    ∃ (r : Nat) (o : Registry.Obj) (u : Run Dto Obj (Data K)), s.prog.node.reg.objs[r]? = some o ∧ o.key = ⟨0, g, ids c j⟩ ∧
      s.prog.runs[r]? = some u ∧ u.phase = .done := by
  obtain ⟨k, v, hv, hk, _, h6⟩ := hm.mine j g hg hj
  obtain ⟨r, o, ho, hok, ht⟩ := hp.n.orig.term hv (h6 hw)
  have hlt : r < s.prog.runs.length := by rw [hp.u.len]; exact lt_of_some ho
  exact ⟨r, o, s.prog.runs[r], ho, hok.trans hk, List.getElem?_eq_getElem hlt, hp.u.term r o _ ho (List.getElem?_eq_getElem hlt) ht⟩

theorem popped_launched {m : Main} {g : Int} {id : String} (h : Popped c m g id) :
    ∃ j, id = ids c j ∧ Launched m j ∧ (j < m.i ∨ m.pc ≠ .waiting) := by
  obtain ⟨j, e, hj | ⟨rfl, hpc, _⟩⟩ := h
  · exact ⟨j, e, .inl hj, .inl hj⟩
  · have h1 : m.pc ≠ .launching := by rcases hpc with h | h <;> rw [h] <;> decide
    have h2 : m.pc ≠ .waiting := by rcases hpc with h | h <;> rw [h] <;> decide
    exact ⟨_, e, .inr ⟨rfl, h1⟩, .inr h2⟩

theorem made {s : Sys K} (h : SInv c W s) : Made (Popped c s.main) s.prog.node := by
  intro u hu hp
  obtain ⟨j, g, hg, hk, hl⟩ := h.m.owner u hu
  obtain ⟨j', e, hl', hw⟩ := popped_launched hp
  rw [hk] at e
  dsimp only at e
  obtain ⟨r, o, _, h1, h2, _⟩ := finished h.p h.m hg hl' hw
  exact ⟨r, o, h1, by rw [h2, hk, e]⟩

/-- An object belongs to a guest and to an attempt whose runners have been started. -/
theorem obj_owner {s : Sys K} (h : SInv c W s) {r : Nat} {o : Registry.Obj} (ho : s.prog.node.reg.objs[r]? = some o) :
    ∃ j g, g ∈ c.base.guests ∧ o.key = ⟨0, g, ids c j⟩ ∧ Launched s.main j := by
  obtain ⟨v, hv, _, hk⟩ := h.p.n.orig.obj r o ho
  rw [← hk]
  exact h.m.owner v hv

theorem sinv_prog {s : Sys K} {e : Program.Ev} {p : Program.Sys K} (hecho : ∀ g id, W (echo g id)) (h : SInv c W s)
    (hw : ∀ m, e = .net m → W m) (hs : progStep c s.prog e = .ok p) : SInv c W { s with prog := p } := by
  obtain ⟨hp, ha⟩ := pinv_progStep hecho h.p (made h) hw hs
  refine ⟨hp, ⟨h.m.time, fun u hu => ?_, fun j g hg hl => ?_, h.m.done, h.m.lts, h.m.all, fun ht g sh hx => (h.m.got ht g sh hx).later ha.later,
    fun j hj => ?_, h.m.file⟩⟩
  · have : u.key ∈ s.prog.node.runners.map Node.Runner.key := by rw [← ha.keys]; exact List.mem_map_of_mem hu
    obtain ⟨v, hv, e⟩ := List.mem_map.1 this
    rw [← e]
    exact h.m.owner v hv
  · obtain ⟨k, u, hu, hk, h3, h4⟩ := h.m.mine j g hg hl
    obtain ⟨u', hu', hk', hp'⟩ := ha.le k u hu
    exact ⟨k, u', hu', hk'.trans hk, h3, fun x => Nat.le_trans (h4 x) hp'⟩
  · obtain ⟨lts, h1, h2, h3⟩ := h.m.past j hj
    exact ⟨lts, h1, fun g sh hx => ⟨(h2 g sh hx).1, (h2 g sh hx).2.later ha.later⟩, h3⟩

/-- What has been taken may be described otherwise. -/
theorem UInv.congr {c : Program.Cfg K} {P P' : Int → String → Prop} {s : Program.Sys K} (h : UInv c W P s)
    (hp : ∀ (r : Nat) (o : Registry.Obj), s.node.reg.objs[r]? = some o → (P o.key.gidx o.key.runId ↔ P' o.key.gidx o.key.runId)) :
    UInv c W P' s := by
  refine ⟨h.len, h.term, h.trace, fun r o u ho hr hn => h.out r o u ho hr fun x => hn ((hp r o ho).1 x),
    fun r o u ho hr hx => h.live r o u ho hr ((hp r o ho).2 hx), fun g id hne => ?_⟩
  obtain ⟨⟨r, o, ho, hk⟩, h2⟩ := h.outs g id hne
  refine ⟨⟨r, o, ho, hk⟩, fun hx => h2 ?_⟩
  have := hp r o ho
  rw [hk] at this
  exact this.2 hx

theorem launchAll_inv {id : String} {t : Int} {gs : List Int} {p p' : Program.Sys K} (hecho : ∀ g id, W (echo g id)) (hn : NInv W p.node)
    (hlen : p.runs.length = p.node.reg.objs.length)
    (hnd : gs.Nodup) (hf : ∀ g ∈ gs, (⟨0, g, id⟩ : RunKey) ∉ p.node.runners.map Node.Runner.key)
    (hs : launchAll c id t gs p = .ok p') : NInv W p'.node ∧
      p' = { p with node := { p.node with runners := p.node.runners ++ gs.map fun g => ⟨⟨0, g, id⟩, c.allow t, 0, 0, 0⟩ } } := by
  induction gs generalizing p with
  | nil =>
    rw [launchAll] at hs
    rw [← Outcome.ok.inj hs]
    exact ⟨hn, by rw [List.map_nil, List.append_nil]⟩
  | cons g gs ih =>
    rw [launchAll, Outcome.bind_eq_ok] at hs
    obtain ⟨s1, h1, h2⟩ := hs
    obtain ⟨n, h3, e⟩ := node_ok h1
    have hn1 : NInv W n := ninv_step hecho hn (fun m he => by cases he)
      (fun k a he => by cases he; exact ⟨hf g (List.mem_cons_self ..), rfl⟩) h3
    rw [Node.step] at h3
    have h3 := Outcome.ok.inj h3
    have e1 : s1 = { p with node := n } := by
      rw [e]
      have : n.reg.objs.drop p.runs.length = [] := by
        rw [← h3]; exact List.drop_eq_nil_of_le (Nat.le_of_eq hlen.symm)
      rw [this, List.map_nil, List.append_nil]
    subst e1
    obtain ⟨h4, h5⟩ := ih hn1 (by rw [← h3]; exact hlen) (List.nodup_cons.1 hnd).2 (fun g' hg' hm => by
      rw [← h3] at hm
      dsimp only at hm
      rw [List.map_append, List.mem_append] at hm
      rcases hm with hm | hm
      · exact hf g' (List.mem_cons_of_mem _ hg') hm
      · rw [List.map_singleton, List.mem_singleton] at hm
        have : g' = g := congrArg RunKey.gidx hm
        subst this
        exact (List.nodup_cons.1 hnd).1 hg') h2
    refine ⟨h4, ?_⟩
    rw [h5, ← h3]
    dsimp only
    rw [List.append_assoc, List.map_cons]
    rfl

/-- The runners of the next attempt are new. -/
theorem launch_fresh {s : Sys K} (hi : Inj c) (h : MInv c s) (hpc : s.main.pc = .launching) (g : Int) :
    (⟨0, g, ids c s.main.i⟩ : RunKey) ∉ s.prog.node.runners.map Node.Runner.key := by
  intro hm
  obtain ⟨u, hu, hk⟩ := List.mem_map.1 hm
  obtain ⟨j, g', _, hk', hl⟩ := h.owner u hu
  have e : s.main.i = j := hi _ _ (congrArg RunKey.runId (hk.symm.trans hk'))
  rcases hl with hl | ⟨_, hl⟩
  · omega
  · exact hl hpc

/-- The main goroutine pops an output. -/
theorem pop_facts {s : Sys K} (hi : Inj c) (h : SInv c W s) (hpc : s.main.pc = .collecting) {g : Int} (hg : g ∈ c.base.guests) (hd : g ∉ s.main.done)
    {o' : Outputs Output} {v : Option Output} (hpop : popOutput s.prog.outs 0 g (ids c s.main.i) = .ok (o', v)) :
    ∃ (r : Nat) (o : Registry.Obj) (u : Run Dto Obj (Data K)), s.prog.node.reg.objs[r]? = some o ∧ o.key = ⟨0, g, ids c s.main.i⟩ ∧
      s.prog.runs[r]? = some u ∧ u.phase = .done ∧ v = u.user.out.head? ∧ Final (c.base.y g r) u.user := by
  have hnw : s.main.pc ≠ .waiting := by rw [hpc]; decide
  obtain ⟨r, o, u, h1, h2, h3, h4⟩ := finished h.p h.m hg (.inr ⟨rfl, by rw [hpc]; decide⟩) (.inr hnw)
  have hnp : ¬ Popped c s.main g (ids c s.main.i) := by
    rintro ⟨j, e, hj | ⟨_, _, hj⟩⟩
    · have := hi _ _ e; omega
    · exact hd hj
  have h5 := h.p.u.out r o u h1 h3 (by rw [h2]; exact hnp)
  rw [h2] at h5
  dsimp only at h5
  refine ⟨r, o, u, h1, h2, h3, h4, by rw [(pop_waiting hpop 0 g (ids c s.main.i)).1, h5], ?_⟩
  obtain ⟨t0, hh, _, h6⟩ := h.p.u.trace r o u h1 h3
  rw [h2] at h6
  exact dkg_final h6

theorem takeKey_ok {n : Nat} {v : Option Output} {sh : KeyShare} (h : takeKey n v = .ok sh) : ∃ q, v = some (.key sh q) ∧ n ≤ q.length := by
  cases v with
  | none => cases h
  | some x =>
    cases x with
    | sig s => cases h
    | key s q =>
      rw [takeKey] at h
      by_cases hq : q.length < n
      · rw [if_pos hq] at h; cases h
      · rw [if_neg hq] at h
        rw [Outcome.ok.inj h]
        exact ⟨q, rfl, by omega⟩

theorem sinv_main {s s' : Sys K} {g : Int} (hi : Inj c) (hgn : c.base.guests.Nodup) (hecho : ∀ g id, W (echo g id)) (h : SInv c W s)
    (hfile : s.file = none) (hs : mainStep c s g = .ok s') : SInv c W s' := by
  rw [mainStep, runId_ids h.m] at hs
  dsimp only at hs
  have nofile : ∀ {P : Prop} f, s.file = some f → P := by intro P f e; rw [hfile] at e; cases e
  cases hpc : s.main.pc with
  | launching =>
    rw [hpc] at hs
    dsimp only at hs
    rw [Outcome.bind_eq_ok] at hs
    obtain ⟨p, h1, hs⟩ := hs
    obtain ⟨hn1, e1⟩ := launchAll_inv hecho h.p.n h.p.u.len hgn (fun g _ => launch_fresh hi h.m hpc g) h1
    rw [← Outcome.ok.inj hs]
    have hL : ∀ j, Launched { s.main with
        pc := .waiting, runners := (List.range c.base.guests.length).map (s.prog.node.runners.length + ·) } j ↔
        (Launched s.main j ∨ j = s.main.i) := by
      intro j
      constructor
      · rintro (hj | ⟨hj, _⟩)
        · exact .inl (.inl hj)
        · exact .inr hj
      · rintro ((hj | ⟨hj, _⟩) | hj)
        · exact .inl hj
        · exact .inr ⟨hj, by intro hc; cases hc⟩
        · exact .inr ⟨hj, by intro hc; cases hc⟩
    refine ⟨⟨hn1, ?_, ?_, ?_⟩, ⟨h.m.time, ?_, ?_, h.m.done, ?_, ?_, ?_, ?_, fun f hf => nofile f hf⟩⟩
    · have hU : UInv c.base W (Popped c s.main) p := by
        rw [e1]
        exact ⟨h.p.u.1, h.p.u.2, h.p.u.3, h.p.u.4, h.p.u.5, h.p.u.6⟩
      refine hU.congr fun r o ho => ?_
      constructor
      · rintro ⟨j, e, hj | ⟨_, hj, _⟩⟩
        · exact ⟨j, e, .inl hj⟩
        · rw [hpc] at hj; rcases hj with hj | hj <;> cases hj
      · rintro ⟨j, e, hj | ⟨_, hj, _⟩⟩
        · exact ⟨j, e, .inl hj⟩
        · rcases hj with hj | hj <;> cases hj
    · rw [e1]; exact h.p.f
    · rw [e1]; exact h.p.jobs
    · intro u hu
      rw [e1] at hu
      rcases List.mem_append.1 hu with hu | hu
      · obtain ⟨j, g', h2, h3, h4⟩ := h.m.owner u hu
        exact ⟨j, g', h2, h3, (hL j).2 (.inl h4)⟩
      · obtain ⟨g', hg', rfl⟩ := List.mem_map.1 hu
        exact ⟨s.main.i, g', hg', rfl, (hL _).2 (.inr rfl)⟩
    · intro j g' hg' hl
      rcases (hL j).1 hl with hl | rfl
      · obtain ⟨k, u, hu, h2, h3, h4⟩ := h.m.mine j g' hg' hl
        have hj : j < s.main.i := by
          rcases hl with hl | ⟨_, hl⟩
          · exact hl
          · exact absurd hpc hl
        refine ⟨k, u, ?_, h2, fun e => absurd e (Nat.ne_of_lt hj), fun _ => h4 (.inl hj)⟩
        rw [e1]
        dsimp only
        rw [List.getElem?_append_left (lt_of_some hu)]
        exact hu
      · obtain ⟨k, hk⟩ := List.mem_iff_getElem?.1 hg'
        refine ⟨s.prog.node.runners.length + k, ⟨⟨0, g', ids c s.main.i⟩, c.allow s.main.time, 0, 0, 0⟩, ?_, rfl, fun _ _ => ?_, fun x => ?_⟩
        · rw [e1]
          dsimp only
          rw [List.getElem?_append_right (Nat.le_add_right _ _), Nat.add_sub_cancel_left, List.getElem?_map, hk]
          rfl
        · exact List.mem_map.2 ⟨k, List.mem_range.2 (lt_of_some hk), rfl⟩
        · rcases x with x | x
          · exact absurd x (Nat.lt_irrefl _)
          · exact absurd rfl x
    · rintro (hx | hx) <;> cases hx
    · intro hx; cases hx
    · rintro (hx | hx) <;> cases hx
    · intro j hj
      obtain ⟨lts, h2, h3, h4⟩ := h.m.past j hj
      have : Later s.prog p := by rw [e1]; exact Later.refl s.prog
      exact ⟨lts, h2, fun g sh hx => ⟨(h3 g sh hx).1, (h3 g sh hx).2.later this⟩, h4⟩
  | waiting =>
    rw [hpc] at hs
    dsimp only at hs
    by_cases ho : s.main.runners.all (released s.prog) = true
    · rw [if_pos ho] at hs
      rw [← Outcome.ok.inj hs]
      have hL : ∀ j, Launched { s.main with pc := .collecting, done := [], lts := [] } j → Launched s.main j := by
        rintro j (hj | ⟨hj, _⟩)
        · exact .inl hj
        · exact .inr ⟨hj, by rw [hpc]; decide⟩
      refine ⟨⟨h.p.n, ?_, h.p.f, h.p.jobs⟩, ⟨h.m.time, ?_, ?_, fun g hg => absurd hg List.not_mem_nil, ?_, ?_, ?_, h.m.past, fun f hf => nofile f hf⟩⟩
      · refine h.p.u.congr fun r o ho => ?_
        constructor
        · rintro ⟨j, e, hj | ⟨_, hj, _⟩⟩
          · exact ⟨j, e, .inl hj⟩
          · rw [hpc] at hj; rcases hj with hj | hj <;> cases hj
        · rintro ⟨j, e, hj | ⟨_, _, hj⟩⟩
          · exact ⟨j, e, .inl hj⟩
          · exact absurd hj List.not_mem_nil
      · intro u hu
        obtain ⟨j, g', h2, h3, h4⟩ := h.m.owner u hu
        refine ⟨j, g', h2, h3, ?_⟩
        rcases h4 with h4 | ⟨h4, _⟩
        · exact .inl h4
        · exact .inr ⟨h4, by intro hc; cases hc⟩
      · intro j g' hg' hl
        obtain ⟨k, u, hu, h2, h3, h4⟩ := h.m.mine j g' hg' (hL j hl)
        refine ⟨k, u, hu, h2, fun _ x => (by cases x), fun _ => ?_⟩
        rcases hl with hl | ⟨hl, _⟩
        · exact h4 (.inl hl)
        · have := List.all_eq_true.1 ho k (h3 hl hpc)
          rw [released, hu] at this
          simpa using this
      · exact fun _ => ⟨List.nodup_nil, fun g => by simp [GoMap.keys]⟩
      · intro hx; cases hx
      · intro _ g sh hx; cases hx
    · rw [if_neg ho] at hs; cases hs
  | collecting =>
    rw [hpc] at hs
    dsimp only at hs
    have hT : Taking s.main := .inl hpc
    by_cases ho : (c.base.guests.all fun g => decide (g ∈ s.main.done)) = true
    · rw [if_pos ho] at hs
      rw [← Outcome.ok.inj hs]
      have hL : ∀ j, Launched { s.main with pc := .checking } j ↔ Launched s.main j := by
        intro j
        constructor
        · rintro (hj | ⟨hj, _⟩)
          · exact .inl hj
          · exact .inr ⟨hj, by rw [hpc]; decide⟩
        · rintro (hj | ⟨hj, _⟩)
          · exact .inl hj
          · exact .inr ⟨hj, by intro hc; cases hc⟩
      refine ⟨⟨h.p.n, ?_, h.p.f, h.p.jobs⟩, ⟨h.m.time, ?_, ?_, h.m.done, fun _ => h.m.lts hT, ?_, fun _ => h.m.got hT, h.m.past, fun f hf => nofile f hf⟩⟩
      · refine h.p.u.congr fun r o ho => ?_
        constructor
        · rintro ⟨j, e, hj | ⟨h1, _, hj⟩⟩
          · exact ⟨j, e, .inl hj⟩
          · exact ⟨j, e, .inr ⟨h1, .inr rfl, hj⟩⟩
        · rintro ⟨j, e, hj | ⟨h1, _, hj⟩⟩
          · exact ⟨j, e, .inl hj⟩
          · exact ⟨j, e, .inr ⟨h1, hT, hj⟩⟩
      · intro u hu
        obtain ⟨j, g', h2, h3, h4⟩ := h.m.owner u hu
        exact ⟨j, g', h2, h3, (hL j).2 h4⟩
      · intro j g' hg' hl
        obtain ⟨k, u, hu, h2, h3, h4⟩ := h.m.mine j g' hg' ((hL j).1 hl)
        exact ⟨k, u, hu, h2, fun _ x => (by cases x), fun _ => h4 (.inr (by rw [hpc]; decide))⟩
      · intro _ g hg
        exact of_decide_eq_true (List.all_eq_true.1 ho g hg)
    · rw [if_neg ho] at hs
      by_cases hm : (decide (g ∈ c.base.guests) && decide (g ∉ s.main.done)) = true
      · rw [if_pos hm] at hs
        have hm : g ∈ c.base.guests ∧ g ∉ s.main.done := by simpa using hm
        rw [Outcome.bind_eq_ok] at hs
        obtain ⟨⟨o', v⟩, h1, hs⟩ := hs
        rw [Outcome.bind_eq_ok] at hs
        obtain ⟨sh, h2, hs⟩ := hs
        rw [← Outcome.ok.inj hs]
        obtain ⟨r, o, u, f1, f2, f3, f4, f5, f6⟩ := pop_facts hi h hpc hm.1 hm.2 h1
        dsimp only at h2
        obtain ⟨q, hv, hq⟩ := takeKey_ok h2
        have hout : u.user.out = [.key sh q] := by
          rw [f5] at hv
          rcases f6 with f6 | ⟨sh', q', f6, _⟩
          · rw [f6] at hv; cases hv
          · rw [f6] at hv ⊢
            rw [Option.some.inj hv]
        have hend : Ended c s.prog s.main.i g sh := ⟨r, o, u, q, f1, f2, f3, f4, hout, hq⟩
        have hPop : ∀ g' id, Popped c { s.main with pc := .collecting, done := g :: s.main.done, lts := s.main.lts.set g sh } g' id ↔
            Popped c s.main g' id ∨ (g' = g ∧ id = ids c s.main.i) := by
          intro g' id
          constructor
          · rintro ⟨j, e, hj | ⟨h3, _, hj⟩⟩
            · exact .inl ⟨j, e, .inl hj⟩
            · dsimp only at h3 hj
              rcases List.mem_cons.1 hj with hj | hj
              · exact .inr ⟨hj, by rw [e, h3]⟩
              · exact .inl ⟨j, e, .inr ⟨h3, hT, hj⟩⟩
          · rintro (⟨j, e, hj | ⟨h3, _, hj⟩⟩ | ⟨rfl, e⟩)
            · exact ⟨j, e, .inl hj⟩
            · exact ⟨j, e, .inr ⟨h3, .inl rfl, List.mem_cons_of_mem _ hj⟩⟩
            · exact ⟨_, e, .inr ⟨rfl, .inl rfl, List.mem_cons_self ..⟩⟩
        have hL : ∀ j, Launched { s.main with pc := .collecting, done := g :: s.main.done, lts := s.main.lts.set g sh } j ↔ Launched s.main j := by
          intro j
          constructor
          · rintro (hj | ⟨hj, _⟩)
            · exact .inl hj
            · exact .inr ⟨hj, by rw [hpc]; decide⟩
          · rintro (hj | ⟨hj, _⟩)
            · exact .inl hj
            · exact .inr ⟨hj, by intro hc; cases hc⟩
        refine ⟨⟨h.p.n, ⟨h.p.u.len, h.p.u.term, h.p.u.trace, ?_, ?_, ?_⟩, h.p.f, h.p.jobs⟩,
          ⟨h.m.time, ?_, ?_, ?_, ?_, ?_, ?_, h.m.past, fun f hf => nofile f hf⟩⟩
        · intro r1 o1 u1 ho1 hr1 hnp
          dsimp only
          have h3 : ¬ Popped c s.main o1.key.gidx o1.key.runId := fun x => hnp ((hPop _ _).2 (.inl x))
          rw [(pop_waiting h1 0 o1.key.gidx o1.key.runId).2, if_neg]
          · exact h.p.u.out r1 o1 u1 ho1 hr1 h3
          · rintro ⟨_, e1, e2⟩
            exact hnp ((hPop _ _).2 (.inr ⟨e1.symm, e2.symm⟩))
        · intro r1 o1 u1 ho1 hr1 hp
          rcases (hPop _ _).1 hp with hp | ⟨e1, e2⟩
          · exact h.p.u.live r1 o1 u1 ho1 hr1 hp
          · have e : r = r1 := h.p.n.one f1 ho1 (by rw [f2, h.p.n.objKey ho1, e1, e2])
            subst e
            have := Option.some.inj (f3.symm.trans hr1)
            subst this
            exact f4
        · intro g' id hne
          dsimp only at hne
          rw [(pop_waiting h1 0 g' id).2] at hne
          by_cases e : (0 : Int) = 0 ∧ g = g' ∧ ids c s.main.i = id
          · rw [if_pos e] at hne; exact absurd rfl hne
          · rw [if_neg e] at hne
            obtain ⟨h3, h4⟩ := h.p.u.outs g' id hne
            refine ⟨h3, fun hp => ?_⟩
            rcases (hPop _ _).1 hp with hp | ⟨e1, e2⟩
            · exact h4 hp
            · exact e ⟨rfl, e1.symm, e2.symm⟩
        · intro u hu
          obtain ⟨j, g', h2, h3, h4⟩ := h.m.owner u hu
          exact ⟨j, g', h2, h3, (hL j).2 h4⟩
        · intro j g' hg' hl
          obtain ⟨k, u, hu, h2, h3, h4⟩ := h.m.mine j g' hg' ((hL j).1 hl)
          exact ⟨k, u, hu, h2, fun _ x => (by cases x), fun _ => h4 (.inr (by rw [hpc]; decide))⟩
        · intro g' hg'
          rcases List.mem_cons.1 hg' with rfl | hg'
          · exact hm.1
          · exact h.m.done g' hg'
        · intro _
          obtain ⟨h3, h4⟩ := h.m.lts hT
          refine ⟨GoMap.nodup_set h3 g sh, fun g' => ?_⟩
          dsimp only
          rw [← GoMap.get?_isSome_iff, GoMap.get?_set, List.mem_cons]
          by_cases e : g = g'
          · rw [if_pos e]; simp [e]
          · rw [if_neg e, GoMap.get?_isSome_iff, h4]
            exact ⟨.inr, fun x => x.resolve_left fun y => e y.symm⟩
        · intro hx
          cases hx
        · intro _ g' sh' hx
          dsimp only at hx
          rw [GoMap.get?_set] at hx
          by_cases e : g = g'
          · rw [if_pos e] at hx
            rw [← e, ← Option.some.inj hx]
            exact hend
          · rw [if_neg e] at hx
            exact h.m.got hT g' sh' hx
      · rw [if_neg hm] at hs; cases hs
  | checking => rw [hpc] at hs; cases hs

theorem allValid_false_iff {ds : List KeyShare} (h : allValid ds true = .ok false) : ∃ d ∈ ds, ¬ OnChain d := by
  by_contra hc
  have : ∀ d ∈ ds, OnChain d := by
    intro d hd
    by_contra hx
    exact hc ⟨d, hd, hx⟩
  rw [(allValid_true ds).2 this] at h
  cases h

/-- The shares that the check looks at. -/
theorem mem_shares {lts : GoMap Int KeyShare} {order : List Int} (hp : order.Perm lts.keys) (d : KeyShare) :
    d ∈ order.filterMap (fun g => lts.get? g) ↔ ∃ g, lts.get? g = some d := by
  rw [List.mem_filterMap]
  constructor
  · rintro ⟨g, _, h⟩; exact ⟨g, h⟩
  · rintro ⟨g, h⟩
    refine ⟨g, hp.mem_iff.2 ?_, h⟩
    rw [← GoMap.get?_isSome_iff, h]; rfl

theorem sinv_check {s s' : Sys K} {order : List Int} (h : SInv c W s) (hfile : s.file = none) (hs : checkStep c s order = .ok s') :
    SInv c W s' := by
  rw [checkStep] at hs
  by_cases hc : s.main.pc = .checking ∧ order.Perm s.main.lts.keys
  · rw [if_pos hc, Outcome.bind_eq_ok] at hs
    obtain ⟨cv, h1, hs⟩ := hs
    have hT : Taking s.main := .inr hc.1
    obtain ⟨hn, hk⟩ := h.m.lts hT
    cases cv with
    | true =>
      rw [if_pos rfl, Outcome.bind_eq_ok] at hs
      obtain ⟨f, h2, hs⟩ := hs
      rw [← Outcome.ok.inj hs]
      refine ⟨⟨h.p.n, h.p.u, h.p.f, h.p.jobs⟩, ⟨h.m.time, h.m.owner, h.m.mine, h.m.done, h.m.lts, h.m.all, h.m.got, h.m.past, fun f' hf => ?_⟩⟩
      dsimp only at hf ⊢
      rw [← Option.some.inj hf]
      exact ⟨hc.1, h2, fun g sh hx => (allValid_true _).1 h1 sh ((mem_shares hc.2 sh).2 ⟨g, hx⟩)⟩
    | false =>
      rw [if_neg (by decide)] at hs
      rw [← Outcome.ok.inj hs]
      have hdone : ∀ g ∈ c.base.guests, g ∈ s.main.done := h.m.all hc.1
      have hL : ∀ j, Launched { s.main with i := s.main.i + 1, time := s.main.time + c.interval, pc := .launching, done := [] } j ↔ Launched s.main j := by
        intro j
        constructor
        · rintro (hj | ⟨_, hj⟩)
          · dsimp only at hj
            by_cases e : j = s.main.i
            · exact .inr ⟨e, by rw [hc.1]; decide⟩
            · exact .inl (by omega)
          · exact absurd rfl hj
        · rintro (hj | ⟨hj, _⟩)
          · exact .inl (Nat.lt_succ_of_lt hj)
          · exact .inl (by rw [hj]; exact Nat.lt_succ_self _)
      refine ⟨⟨h.p.n, ?_, h.p.f, h.p.jobs⟩, ⟨?_, ?_, ?_, fun g hg => absurd hg List.not_mem_nil, ?_, ?_, ?_, ?_, fun f hf => ?_⟩⟩
      · refine h.p.u.congr fun r o ho => ?_
        constructor
        · rintro ⟨j, e, hj | ⟨hj, _, _⟩⟩
          · exact ⟨j, e, .inl (Nat.lt_succ_of_lt hj)⟩
          · exact ⟨j, e, .inl (by rw [hj]; exact Nat.lt_succ_self _)⟩
        · rintro ⟨j, e, hj | ⟨_, hj, _⟩⟩
          · dsimp only at hj
            by_cases e' : j = s.main.i
            · obtain ⟨_, g', hg', hk', _⟩ := obj_owner h ho
              refine ⟨j, e, .inr ⟨e', hT, ?_⟩⟩
              rw [hk']
              exact hdone g' hg'
            · exact ⟨j, e, .inl (by omega)⟩
          · rcases hj with hj | hj <;> cases hj
      · dsimp only
        rw [h.m.time]
        push_cast
        ring
      · intro u hu
        obtain ⟨j, g', h2, h3, h4⟩ := h.m.owner u hu
        exact ⟨j, g', h2, h3, (hL j).2 h4⟩
      · intro j g' hg' hl
        obtain ⟨k, u, hu, h2, h3, h4⟩ := h.m.mine j g' hg' ((hL j).1 hl)
        exact ⟨k, u, hu, h2, fun _ x => (by cases x), fun _ => h4 (.inr (by rw [hc.1]; decide))⟩
      · rintro (hx | hx) <;> cases hx
      · intro hx; cases hx
      · rintro (hx | hx) <;> cases hx
      · intro j hj
        dsimp only at hj
        by_cases e : j = s.main.i
        · subst e
          refine ⟨s.main.lts, fun g hg => ?_, fun g sh hx => ⟨?_, h.m.got hT g sh hx⟩, ?_⟩
          · have := (hk g).2 (hdone g hg)
            rw [← GoMap.get?_isSome_iff, Option.isSome_iff_exists] at this
            exact this
          · refine h.m.done g ((hk g).1 ?_)
            rw [← GoMap.get?_isSome_iff, hx]; rfl
          · obtain ⟨d, hd, hx⟩ := allValid_false_iff h1
            obtain ⟨g, hg⟩ := (mem_shares hc.2 d).1 hd
            exact ⟨g, d, hg, hx⟩
        · exact h.m.past j (by omega)
      · dsimp only at hf
        rw [hfile] at hf; cases hf
  · rw [if_neg hc] at hs; cases hs

theorem sinv_step {s s' : Sys K} {e : Ev} (hi : Inj c) (hgn : c.base.guests.Nodup) (hecho : ∀ g id, W (echo g id)) (h : SInv c W s)
    (hw : ∀ m, e = .prog (.net m) → W m) (hs : step c s e = .ok s') : SInv c W s' := by
  rw [Verif.KeyProgram.step.eq_def] at hs
  by_cases hf : s.file.isSome = true
  · rw [if_pos hf] at hs; cases hs
  · rw [if_neg hf] at hs
    have hfile : s.file = none := by simpa using hf
    cases e with
    | prog e =>
      dsimp only at hs
      rw [Outcome.bind_eq_ok] at hs
      obtain ⟨p, h1, hs⟩ := hs
      rw [← Outcome.ok.inj hs]
      exact sinv_prog hecho h (fun m he => hw m (by rw [he])) h1
    | main g => exact sinv_main hi hgn hecho h hfile hs
    | check order => exact sinv_check h hfile hs

theorem sinv_init (c : Cfg K) (W : Message Dto → Prop) : SInv c W (init c) := by
  refine ⟨⟨⟨fun k => Node.good_make k _ _ _ _ _ _, Node.orig_make _ _ _ _ _ _, Node.carry_make _ _ _ _ _ _ _, List.nodup_nil, ?_, rfl, rfl⟩,
    ⟨rfl, ?_, ?_, ?_, ?_, ?_⟩, ?_, rfl⟩, ⟨?_, ?_, ?_, fun g hg => absurd hg List.not_mem_nil, ?_, ?_, ?_, ?_, fun f hf => (by cases hf)⟩⟩
  · intro u hu; exact absurd hu List.not_mem_nil
  · intro r o u ho; cases ho
  · intro r o u ho; cases ho
  · intro r o u ho; cases ho
  · intro r o u ho; cases ho
  · intro g id hne; exact absurd (Program.initOutputs_none _ _ _ _ _ _) hne
  · intro q m hm; cases hm
  · rw [init]; simp
  · intro u hu; exact absurd hu List.not_mem_nil
  · rintro j g _ (hj | ⟨_, hj⟩)
    · exact absurd hj (Nat.not_lt_zero _)
    · exact absurd rfl hj
  · rintro (hx | hx) <;> cases hx
  · intro hx; cases hx
  · rintro (hx | hx) <;> cases hx
  · intro j hj; exact absurd hj (Nat.not_lt_zero _)

theorem sinv_run {s s' : Sys K} {h : List Ev} (hi : Inj c) (hgn : c.base.guests.Nodup) (hecho : ∀ g id, W (echo g id)) (hI : SInv c W s)
    (hw : ∀ m, .prog (.net m) ∈ h → W m) (hs : run c s h = .ok s') : SInv c W s' := by
  induction h generalizing s with
  | nil => rw [run] at hs; rw [← Outcome.ok.inj hs]; exact hI
  | cons e h ih =>
    rw [run, Outcome.bind_eq_ok] at hs
    obtain ⟨s1, h1, h2⟩ := hs
    exact ih (sinv_step hi hgn hecho hI (fun m he => hw m (by rw [← he]; exact List.mem_cons_self ..)) h1)
      (fun m hm => hw m (List.mem_cons_of_mem _ hm)) h2

end Verif.KeyProgram
