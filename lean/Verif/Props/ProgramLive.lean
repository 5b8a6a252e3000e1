import Verif.Proofs.ProgramBound
import Verif.Props.Program

/-!
C82: every request ends. Whatever has arrived, only finitely much can still happen by itself; when nothing more can happen, every
request has printed a line for each guest and nothing about it is left; and such a state can be reached from every moment.
-/
namespace Verif.Props.Program
open Verif.Prot Verif.Dto Verif.Dss Verif.Dkg Verif.Point Verif.Tables Verif.Signode Verif.Program Verif.Props Verif.Spec.Prot Verif.Spec.Program
variable {K : Type}

theorem known_of {c : Cfg K} {h : List Ev} {s : Sys K} {W : Message Dto → Prop} (hr : run c (init c) h = .ok s) (hg : c.guests.Nodup)
    (hd : ((requests h).map jobId).Nodup) (hw : ∀ m, .net m ∈ h → W m) : Known c W s :=
  known_run (known_init c W) (inv_of hr hg hd hw).2.1 hg hw hr

/-- Events that happen by themselves, and the passing of time, leave the requests. -/
theorem requests_own {h : List Ev} (ho : ∀ e ∈ h, own e = true ∨ ∃ t, e = .tick t) : requests h = [] ∧ ∀ m, .net m ∉ h := by
  induction h with
  | nil => exact ⟨rfl, fun m hm => absurd hm List.not_mem_nil⟩
  | cons e h ih =>
    obtain ⟨h1, h2⟩ := ih fun e he => ho e (List.mem_cons_of_mem _ he)
    have h3 := ho e (List.mem_cons_self ..)
    constructor
    · cases e with
      | request j => rcases h3 with h3 | ⟨t, h3⟩ <;> cases h3
      | _ => exact h1
    · intro m hm
      rcases List.mem_cons.1 hm with rfl | hm
      · rcases h3 with h3 | ⟨t, h3⟩ <;> cases h3
      · exact h2 m hm

theorem bounded {c : Cfg K} {W : Message Dto → Prop} (hg : c.guests.Nodup) {s s' : Sys K} (hk : Known c W s) {h : List Ev}
    (ho : ∀ e ∈ h, own e = true ∨ ∃ t, e = .tick t) (hr : run c s h = .ok s') : cost c s' + (h.filter own).length ≤ cost c s := by
  induction h generalizing s with
  | nil => rw [Verif.Program.run] at hr; rw [← Outcome.ok.inj hr]; exact Nat.le_refl _
  | cons e h ih =>
    have hq := requests_own ho
    have hreq := reqs_run hr
    rw [hq.1, List.append_nil] at hreq
    rw [Verif.Program.run, Outcome.bind_eq_ok] at hr
    obtain ⟨s1, h1, h2⟩ := hr
    have hreq2 := reqs_run h2
    rw [(requests_own fun e he => ho e (List.mem_cons_of_mem _ he)).1, List.append_nil] at hreq2
    have hd1 : Distinct s1.jobs := distinct_of_reqs (s' := s) (l := []) (by rw [List.append_nil, ← hreq, hreq2]) hk.d
    have hk1 := known_step hk hd1 hg (fun m e => absurd (List.mem_cons.2 (.inl e.symm)) (hq.2 m)) h1
    have h3 := ih hk1 (fun e he => ho e (List.mem_cons_of_mem _ he)) h2
    rw [List.filter_cons]
    rcases ho e (List.mem_cons_self ..) with he | ⟨t, rfl⟩
    · rw [if_pos he, List.length_cons]
      have := cost_own hg hk hk1 he h1
      omega
    · have := cost_tick hg hk.p.u.len h1
      simp only [own, Bool.false_eq_true, if_false]
      omega

/-- C82 (only finitely much is left to do). If the requests so far have different run identifiers, there is a bound on the number of
sections that can still run by themselves, whatever their order, as long as no message and no request comes in. -/
theorem C82_bounded (c : Cfg K) (h : List Ev) (s : Sys K) (hr : run c (init c) h = .ok s) (hg : c.guests.Nodup)
    (hd : ((requests h).map jobId).Nodup) : ∃ n, ∀ (h' : List Ev) (s' : Sys K), (∀ e ∈ h', own e = true ∨ ∃ t, e = .tick t) →
      run c s h' = .ok s' → (h'.filter own).length ≤ n := by
  have hk := known_of (W := fun _ => True) hr hg hd (fun _ _ => trivial)
  exact ⟨cost c s, fun h' s' ho hr' => by have := bounded hg hk ho hr'; omega⟩

/-- C82 (nothing gets stuck). If the requests have different run identifiers and nothing more can happen by itself, however late it gets,
then every request has ended and has printed a line for each guest, and nothing is left of it: no run, no allowance, no document, no
message on its way and no goroutine of the registry. -/
theorem C82_settled (c : Cfg K) (h : List Ev) (s : Sys K) (hr : run c (init c) h = .ok s) (hg : c.guests.Nodup)
    (hd : ((requests h).map jobId).Nodup) (hs : Settled c s) :
    s.jobs.map JobSt.job = requests h ∧ (∀ b ∈ s.jobs, b.pc = .ended ∧ (b.lines.map Prod.fst).Perm c.guests) ∧
    (∀ k, s.node.reg.runs.get? k = none ∧ s.node.fw.allowances.get? k = none) ∧ s.node.reg.tasks = [] ∧
    (∀ q, s.node.queues q = [] ∧ s.node.cons q = .idle) ∧ ∀ g id, docFor s.docs g id = none := by
  obtain ⟨h1, h2⟩ := C75_origin c h s hr hg hd
  have hk := known_of (W := fun _ => True) hr hg hd (fun _ _ => trivial)
  obtain ⟨t, ht, s1, hs1, hL, e⟩ := late_tick (c := c) hk.p.u.len
  have hq : Quiet c s1 := hs t s1 hs1
  have hk1 : Known c (fun _ => True) s1 := known_step hk (by rw [e]; exact hk.d) hg (fun _ _ => trivial) hs1
  have hj : ∀ b ∈ s.jobs, b.pc = .ended := fun b hb => quiet_jobs hk1 hL hq (by rw [e]; exact hb)
  refine ⟨h1, fun b hb => ⟨hj b hb, (h2 b hb).1 (hj b hb)⟩, fun k => ⟨?_, ?_⟩, ?_, fun q => ?_, fun g id => ?_⟩
  · have := quiet_reg hk1 hL hq k; rw [e] at this; exact this
  · have := quiet_allowances hk1.whole hL hq k; rw [e] at this; exact this
  · have := quiet_tasks hk1.whole hq; rw [e] at this; exact this
  · have := quiet_cons hk1.whole hq q; rw [e] at this; exact ⟨this.2, this.1⟩
  · cases hx : docFor s.docs g id with
    | none => rfl
    | some d =>
      obtain ⟨_, b, hb, _, _, _, hne⟩ := (C77_docs c h s hr hg hd g id d).1 hx
      exact absurd (hj b hb) hne

/-- From every moment the program gets to such a state, if the runs do not panic. -/
theorem reaches (c : Cfg K) (W : Message Dto → Prop) (hc : RunsSafe c W) (h : List Ev) (s : Sys K) (hr : run c (init c) h = .ok s) (hg : c.guests.Nodup)
    (hd : ((requests h).map jobId).Nodup) (hm : ∀ m, .net m ∈ h → W m) :
    ∃ (h' : List Ev) (s' : Sys K), (∀ e ∈ h', own e = true ∨ ∃ t, e = .tick t) ∧ run c s h' = .ok s' ∧ Settled c s' := by
  have hk := known_of (W := W) hr hg hd hm
  have hS : SInv c s := by
    have key : ∀ (h : List Ev) (s0 s : Sys K), Known c W s0 → SInv c s0 → Distinct s.jobs →
        (∀ m, .net m ∈ h → W m) → run c s0 h = .ok s → SInv c s := by
      intro h
      induction h with
      | nil => intro s0 s _ hS _ _ hr; rw [Verif.Program.run] at hr; rw [← Outcome.ok.inj hr]; exact hS
      | cons e h ih =>
        intro s0 s hk hS hd hm hr
        rw [Verif.Program.run, Outcome.bind_eq_ok] at hr
        obtain ⟨s1, h1, h2⟩ := hr
        have hd1 := distinct_of_reqs (reqs_run h2) hd
        exact ih s1 s (known_step hk hd1 hg (fun m x => hm m (by rw [x]; exact List.mem_cons_self ..)) h1)
          ((step_safe hc hk.p hS hk.d hg e).2 s1 h1) hd (fun m x => hm m (List.mem_cons_of_mem _ x)) h2
    exact key h _ s (known_init c _) (sinv_init c) hk.d hm hr
  clear hr hd hm h
  induction hn : cost c s using Nat.strongRecOn generalizing s with
  | ind n ih =>
    by_cases hx : Settled c s
    · exact ⟨[], s, fun e he => absurd he List.not_mem_nil, rfl, hx⟩
    · rw [Settled] at hx
      push Not at hx
      obtain ⟨t, s1, h1, e, he, h2⟩ := hx
      have ej1 : s1.jobs = s.jobs := by
        rw [Verif.Program.step] at h1
        obtain ⟨n, _, rfl⟩ := node_ok h1
        rfl
      have hk1 : Known c W s1 := known_step hk (by rw [ej1]; exact hk.d) hg (fun m e => (by cases e)) h1
      have hS1 := (step_safe hc hk.p hS hk.d hg _).2 s1 h1
      obtain ⟨hp, hS2⟩ := step_safe hc hk1.p hS1 hk1.d hg e
      cases h3 : step c s1 e with
      | panic => exact absurd h3 hp
      | err => exact absurd h3 h2
      | ok s2 =>
        have hnet : ∀ m, e ≠ .net m := fun m x => by rw [x] at he; cases he
        have hq : requests [e] = [] := (requests_own (h := [e]) fun x hx => .inl (by rw [List.mem_singleton.1 hx]; exact he)).1
        have hreq : reqs s2 = reqs s1 := by
          have := reqs_run (c := c) (s := s1) (h := [e]) (s' := s2) (by rw [Verif.Program.run, h3]; rfl)
          rw [hq, List.append_nil] at this
          exact this
        have hd2 : Distinct s2.jobs := distinct_of_reqs (s' := s1) (l := []) (by rw [List.append_nil, hreq]) hk1.d
        have hk2 := known_step hk1 hd2 hg (fun m x => absurd x (hnet m)) h3
        have l1 := cost_tick hg hk.p.u.len h1
        have l2 := cost_own hg hk1 hk2 he h3
        obtain ⟨h', s', g1, g2, g3⟩ := ih (cost c s2) (by omega) s2 hk2 (hS2 s2 h3) rfl
        refine ⟨.tick t :: e :: h', s', fun x hx => ?_, ?_, g3⟩
        · rcases List.mem_cons.1 hx with rfl | hx
          · exact .inr ⟨t, rfl⟩
          · rcases List.mem_cons.1 hx with rfl | hx
            · exact .inl he
            · exact g1 x hx
        · rw [Verif.Program.run, h1, Outcome.bind_ok, Verif.Program.run, h3, Outcome.bind_ok]
          exact g2

/-- C82 (every request can end). With different run identifiers, sane generators and complete messages, from every moment the program gets
by itself, as time passes, to a state in which nothing more can happen: with `C82_settled`, one in which every request has ended. -/
theorem C82_reaches (c : Cfg K) (hc : Sane c) (h : List Ev) (s : Sys K) (hr : run c (init c) h = .ok s) (hg : c.guests.Nodup)
    (hd : ((requests h).map jobId).Nodup) (hm : ∀ m, .net m ∈ h → Complete m.dto) :
    ∃ (h' : List Ev) (s' : Sys K), (∀ e ∈ h', own e = true ∨ ∃ t, e = .tick t) ∧ run c s h' = .ok s' ∧ Settled c s' :=
  reaches c (fun m => Complete m.dto) (sane_runs hc fun _ h => h) h s hr hg hd hm

end Verif.Props.Program
