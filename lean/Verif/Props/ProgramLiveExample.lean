import Verif.Props.ProgramLive
import Verif.Props.ProgramExample
import Verif.Proofs.ProgramStuck

/-!
Concrete histories for C82: two requests on their way, and the same request twice, the second of which never ends.
-/
namespace Verif.Props.Program
open Verif.Prot Verif.Dto Verif.Dss Verif.Dkg Verif.Point Verif.Tables Verif.Signode Verif.Program Verif.Props Verif.Spec.Prot Verif.Spec.Program

theorem pgBegin_ok : (match run pgCfg (init pgCfg) pgBegin with | .ok s => decide (s.jobs.map JobSt.pc = [.waiting, .waiting]) | _ => false) = true := by
  decide +kernel

theorem pgBegin_complete : ∀ m, .net m ∈ pgBegin → Complete m.dto := fun m hm => pg_complete m (by
  rw [pgHistory, List.append_assoc, List.append_assoc, List.append_assoc]
  exact List.mem_append_left _ hm)

/-- The two requests of the example are on their way, and the hypotheses of C82 hold: by itself the program gets to a state in which
nothing more happens, and there both have ended with a line for guest 0. -/
example : ∃ s, run pgCfg (init pgCfg) pgBegin = .ok s ∧ s.jobs.map JobSt.pc = [.waiting, .waiting] ∧
    ∃ h' s', (∀ e ∈ h', own e = true ∨ ∃ t, e = .tick t) ∧ run pgCfg s h' = .ok s' ∧ Settled pgCfg s' ∧
      s'.jobs.length = 2 ∧ ∀ b ∈ s'.jobs, b.pc = .ended ∧ (b.lines.map Prod.fst).Perm [0] := by
  have h := pgBegin_ok
  cases hs : run pgCfg (init pgCfg) pgBegin with
  | panic => rw [hs] at h; cases h
  | err => rw [hs] at h; cases h
  | ok s =>
    rw [hs] at h
    have hd : ((requests pgBegin).map jobId).Nodup := by decide +kernel
    obtain ⟨h', s', g1, g2, g3⟩ := C82_reaches pgCfg pg_sane pgBegin s hs pg_ids.1 hd pgBegin_complete
    have hrun : run pgCfg (init pgCfg) (pgBegin ++ h') = .ok s' := by
      have app : ∀ (l l' : List Ev) (t : Sys Unit), run pgCfg t (l ++ l') = run pgCfg t l >>= fun t' => run pgCfg t' l' := by
        intro l l'
        induction l with
        | nil => exact fun t => rfl
        | cons e l ih =>
          intro t
          rw [List.cons_append, Verif.Program.run, Verif.Program.run]
          cases Verif.Program.step pgCfg t e with
          | ok t1 => exact ih t1
          | err => rfl
          | panic => rfl
      rw [app, hs, Outcome.bind_ok, g2]
    have hreq : requests (pgBegin ++ h') = [pgJob1, pgJob2] := by
      have app : ∀ l l' : List Ev, requests (l ++ l') = requests l ++ requests l' := by
        intro l l'
        induction l with
        | nil => rfl
        | cons e l ih => cases e <;> simp [requests, ih]
      rw [app, (requests_own g1).1, List.append_nil]
      decide +kernel
    have hd' : ((requests (pgBegin ++ h')).map jobId).Nodup := by rw [hreq]; decide +kernel
    obtain ⟨k1, k2, _⟩ := C82_settled pgCfg _ s' hrun pg_ids.1 hd' g3
    refine ⟨s, rfl, of_decide_eq_true h, h', s', g1, g2, g3, ?_, k2⟩
    have := congrArg List.length k1
    rw [hreq, List.length_map] at this
    exact this

/-- The same request twice, up to the second call of `fw_set_allowance`. -/
def pgTwice : List Ev :=
  [.request pgJob1, .request pgJob1, .job 0 0, .job 0 0, .job 0 0, .job 1 0, .job 1 0, .job 1 0, .runner 0, .runner 1, .runner 0, .runner 1]

def pgTwiceCheck : Bool :=
  match run pgCfg (init pgCfg) pgTwice with
  | .ok s => match s.jobs[1]?, s.node.runners[1]? with
    | some b, some u => decide (b.pc = .waiting) && decide (b.runners = [1]) && decide (u.pos = 2) &&
      (match s.node.fw.calls[u.call]? with | some cl => !cl.live && cl.obs.isEmpty | none => false)
    | _, _ => false
  | _ => false

theorem pgTwiceCheck_ok : pgTwiceCheck = true := by decide +kernel

theorem pg_twice : ∃ s : Sys Unit, run pgCfg (init pgCfg) pgTwice = .ok s ∧ ∀ (h' : List Ev) (s' : Sys Unit), run pgCfg s h' = .ok s' →
    ∃ b, s'.jobs[1]? = some b ∧ b.pc = .waiting ∧ b.lines = [] := by
  have h := pgTwiceCheck_ok
  rw [pgTwiceCheck] at h
  cases hs : run pgCfg (init pgCfg) pgTwice with
  | panic => rw [hs] at h; cases h
  | err => rw [hs] at h; cases h
  | ok s =>
    rw [hs] at h
    dsimp only at h
    cases hb : s.jobs[1]? with
    | none => rw [hb] at h; cases h
    | some b =>
      cases hu : s.node.runners[1]? with
      | none => rw [hb, hu] at h; cases h
      | some u =>
        rw [hb, hu] at h
        cases hc : s.node.fw.calls[u.call]? with
        | none => simp [hc] at h
        | some cl =>
          dsimp only at h
          rw [hc] at h
          simp only [Bool.and_eq_true, decide_eq_true_eq, Bool.not_eq_true', List.isEmpty_iff] at h
          obtain ⟨⟨⟨h1, h2⟩, h3⟩, h4, h5⟩ := h
          have hlines : b.lines = [] := by
            have hx : (match run pgCfg (init pgCfg) pgTwice with | .ok s => s.jobs.all fun b => b.lines.isEmpty | _ => false) = true := by
              decide +kernel
            rw [hs] at hx
            rw [List.all_eq_true] at hx
            exact List.isEmpty_iff.1 (hx b (List.mem_of_getElem? hb))
          have hst : Stuck 1 1 u b s := ⟨⟨hu, h3, cl, hc, h4, h5⟩, hb, h1, by rw [h2]; exact List.mem_singleton.2 rfl⟩
          refine ⟨s, rfl, fun h' s' hr => ?_⟩
          have := stuck_run hst hr
          exact ⟨b, this.job, h1, hlines⟩

/-- C82 is false when requests have the same run identifier: the second one never ends, whatever happens afterwards. -/
theorem C82_counterexample_ids : ∃ (c : Cfg Unit) (h : List Ev) (s : Sys Unit), run c (init c) h = .ok s ∧ c.guests.Nodup ∧ Sane c ∧
    (∀ m, .net m ∉ h) ∧ ∀ (h' : List Ev) (s' : Sys Unit), run c s h' = .ok s' → ∃ b, s'.jobs[1]? = some b ∧ b.pc = .waiting ∧ b.lines = [] := by
  obtain ⟨s, hs, h⟩ := pg_twice
  refine ⟨pgCfg, pgTwice, s, hs, pg_ids.1, pg_sane, ?_, h⟩
  intro m hm; simp [pgTwice] at hm

end Verif.Props.Program
