import Verif.Proofs.KeyLive
import Verif.Props.KeyProgram

/-!
C92: making long-term keys comes to an end. The tool never waits for ever; in each attempt only finitely much can happen by itself; and
from every moment the attempt under way can come to its end.
-/
namespace Verif.Props.KeyProgram
open Verif.Prot Verif.Dto Verif.Dss Verif.Dkg Verif.Tables Verif.Signode Verif.Props Verif.Spec.Prot Verif.Spec.Signode
open Verif.Spec.KeyProgram Verif.KeyProgram
variable {K : Type}

theorem known_of {c : Cfg K} {h : List Ev} {s : Sys K} (hrun : Verif.KeyProgram.run c (init c) h = .ok s) (hgn : c.base.guests.Nodup)
    (hs : 0 ≤ c.start) (hi : 0 ≤ c.interval) : Known c (fun _ => True) s :=
  known_run (inj hs hi) hgn (fun _ _ => trivial) (known_init c _) (fun _ _ => trivial) hrun

theorem awake {c : Cfg K} {s : Sys K} (hk : Known c (fun _ => True) s) (hi : Inj c) (hgn : c.base.guests.Nodup) (hf : s.file = none) :
    ∃ t s1 e, Verif.KeyProgram.step c s (.prog (.tick t)) = .ok s1 ∧ own e = true ∧ Verif.KeyProgram.step c s1 e ≠ .err := by
  obtain ⟨t, _, p, h1, hL, _⟩ := Program.late_tick (c := c.base) hk.i.p.u.len
  have h2 : Verif.KeyProgram.step c s (.prog (.tick t)) = .ok { s with prog := p } := by
    rw [Verif.KeyProgram.step.eq_def, if_neg (by rw [hf]; simp)]
    dsimp only
    rw [progStep, h1]
    · rfl
    · exact nofun
  have hk1 := known_step hi hgn (fun _ _ => trivial) hk (fun _ _ => trivial) h2
  by_contra hx
  push Not at hx
  exact not_quiet hk1 hL hf fun e he => hx t _ e h2 he

/-- C92 (the tool never waits for ever). As long as no file of long-term keys is written there comes a time at which something can happen
by itself, whatever has arrived and whatever has not. -/
theorem C92_awake (c : Cfg K) (h : List Ev) (s : Sys K) (hrun : Verif.KeyProgram.run c (init c) h = .ok s) (hgn : c.base.guests.Nodup)
    (hs : 0 ≤ c.start) (hi : 0 ≤ c.interval) (hf : s.file = none) :
    ∃ t s1 e, Verif.KeyProgram.step c s (.prog (.tick t)) = .ok s1 ∧ own e = true ∧ Verif.KeyProgram.step c s1 e ≠ .err :=
  awake (known_of hrun hgn hs hi) (inj hs hi) hgn hf

theorem bounded {c : Cfg K} (hi : Inj c) (hgn : c.base.guests.Nodup) {s s' : Sys K} (hk : Known c (fun _ => True) s) {h : List Ev}
    (ho : ∀ e ∈ h, own e = true ∨ ∃ t, e = .prog (.tick t)) (hr : Verif.KeyProgram.run c s h = .ok s') :
    ∃ d, s'.main.i = s.main.i + d ∧ cost c s' + (h.filter own).length ≤ cost c s + attemptCost c * d := by
  induction h generalizing s with
  | nil =>
    rw [Verif.KeyProgram.run] at hr
    rw [← Outcome.ok.inj hr]
    exact ⟨0, rfl, Nat.le_refl _⟩
  | cons e h ih =>
    rw [Verif.KeyProgram.run, Outcome.bind_eq_ok] at hr
    obtain ⟨s1, h1, h2⟩ := hr
    have hk1 := known_step hi hgn (fun _ _ => trivial) hk (fun _ _ => trivial) h1
    obtain ⟨d, e1, h3⟩ := ih hk1 (fun e he => ho e (List.mem_cons_of_mem _ he)) h2
    rw [List.filter_cons]
    rcases ho e (List.mem_cons_self ..) with he | ⟨t, rfl⟩
    · rw [if_pos he, List.length_cons]
      rcases cost_own hgn hk hk1 he h1 with ⟨e2, h4⟩ | ⟨e2, _, _, h4⟩
      · exact ⟨d, by omega, by omega⟩
      · refine ⟨d + 1, by omega, ?_⟩
        rw [Nat.mul_add, Nat.mul_one]
        omega
    · obtain ⟨h4, h5, _⟩ := cost_tick hgn hk h1
      refine ⟨d, by rw [e1, h5], ?_⟩
      have : own (.prog (.tick t)) = false := rfl
      simp only [this, Bool.false_eq_true, if_false]
      omega

/-- C92 (only finitely much is left to do in an attempt). There are bounds on the number of sections that can still run by themselves in
this attempt and in each of those after it, whatever their order, as long as no message comes in. -/
theorem C92_bounded (c : Cfg K) (h : List Ev) (s : Sys K) (hrun : Verif.KeyProgram.run c (init c) h = .ok s) (hgn : c.base.guests.Nodup)
    (hs : 0 ≤ c.start) (hi : 0 ≤ c.interval) : ∃ n a, ∀ (h' : List Ev) (s' : Sys K), (∀ e ∈ h', own e = true ∨ ∃ t, e = .prog (.tick t)) →
      Verif.KeyProgram.run c s h' = .ok s' → ∃ d, s'.main.i = s.main.i + d ∧ (h'.filter own).length ≤ n + a * d :=
  ⟨cost c s, attemptCost c, fun h' s' ho hr => by
    obtain ⟨d, e, h1⟩ := bounded (inj hs hi) hgn (known_of hrun hgn hs hi) ho hr
    exact ⟨d, e, by omega⟩⟩

/-- C92 (every attempt ends). From every moment before the file is written the tool gets by itself, as time passes, to the end of the
attempt under way: the file is written, or the next attempt begins, or the tool panics. -/
theorem C92_attempt_ends (c : Cfg K) (h : List Ev) (s : Sys K) (hrun : Verif.KeyProgram.run c (init c) h = .ok s) (hgn : c.base.guests.Nodup)
    (hs : 0 ≤ c.start) (hi : 0 ≤ c.interval) (hf : s.file = none) : ∃ (h' : List Ev) (s' : Sys K),
      (∀ e ∈ h', own e = true ∨ ∃ t, e = .prog (.tick t)) ∧ Verif.KeyProgram.run c s h' = .ok s' ∧
      ((s'.main.i = s.main.i ∧ s'.file.isSome = true) ∨ (s'.main.i = s.main.i + 1 ∧ s'.main.pc = .launching ∧ s'.file = none) ∨
        s'.main.i = s.main.i ∧ ∃ e, own e = true ∧ Verif.KeyProgram.step c s' e = .panic) := by
  have hk := known_of hrun hgn hs hi
  have hI := inj hs hi (c := c)
  clear hrun h
  induction hn : cost c s using Nat.strongRecOn generalizing s with
  | ind n ih =>
    obtain ⟨t, s1, e, h1, he, h2⟩ := awake hk hI hgn hf
    have hk1 := known_step hI hgn (fun _ _ => trivial) hk (fun _ _ => trivial) h1
    obtain ⟨l1, m1, f1⟩ := cost_tick hgn hk h1
    cases h3 : Verif.KeyProgram.step c s1 e with
    | err => exact absurd h3 h2
    | panic =>
      refine ⟨[.prog (.tick t)], s1, fun x hx => .inr ⟨t, List.mem_singleton.1 hx⟩, ?_, .inr (.inr ⟨by rw [m1], e, he, h3⟩)⟩
      rw [Verif.KeyProgram.run, h1]; rfl
    | ok s2 =>
      have hk2 := known_step hI hgn (fun _ _ => trivial) hk1 (fun _ _ => trivial) h3
      have two : ∀ x ∈ [Ev.prog (.tick t), e], own x = true ∨ ∃ t, x = .prog (.tick t) := by
        intro x hx
        rcases List.mem_cons.1 hx with rfl | hx
        · exact .inr ⟨t, rfl⟩
        · rw [List.mem_singleton.1 hx]; exact .inl he
      have r2 : Verif.KeyProgram.run c s [.prog (.tick t), e] = .ok s2 := by
        rw [Verif.KeyProgram.run, h1, Outcome.bind_ok, Verif.KeyProgram.run, h3]; rfl
      rcases cost_own hgn hk1 hk2 he h3 with ⟨e2, h4⟩ | ⟨e2, hl, hf2, h4⟩
      · cases hf2 : s2.file with
        | some f => exact ⟨_, s2, two, r2, .inl ⟨by rw [e2, m1], by rw [hf2]; rfl⟩⟩
        | none =>
          obtain ⟨h', s', g1, g2, g3⟩ := ih (cost c s2) (by omega) s2 hf2 hk2 rfl
          rw [e2, m1] at g3
          refine ⟨.prog (.tick t) :: e :: h', s', fun x hx => ?_, ?_, g3⟩
          · rcases List.mem_cons.1 hx with rfl | hx
            · exact .inr ⟨t, rfl⟩
            · rcases List.mem_cons.1 hx with rfl | hx
              · exact .inl he
              · exact g1 x hx
          · rw [Verif.KeyProgram.run, h1, Outcome.bind_ok, Verif.KeyProgram.run, h3, Outcome.bind_ok]
            exact g2
      · exact ⟨_, s2, two, r2, .inr (.inl ⟨by rw [e2, m1], hl, hf2⟩)⟩

theorem run_append {c : Cfg K} {s s1 : Sys K} {h1 : List Ev} (h2 : List Ev) (hr : Verif.KeyProgram.run c s h1 = .ok s1) :
    Verif.KeyProgram.run c s (h1 ++ h2) = Verif.KeyProgram.run c s1 h2 := by
  induction h1 generalizing s with
  | nil => rw [Verif.KeyProgram.run] at hr; rw [← Outcome.ok.inj hr]; rfl
  | cons e h1 ih =>
    rw [Verif.KeyProgram.run, Outcome.bind_eq_ok] at hr
    obtain ⟨s2, g1, g2⟩ := hr
    rw [List.cons_append, Verif.KeyProgram.run, g1, Outcome.bind_ok]
    exact ih g2

/-- C92 (what an attempt comes to). With sane generators and complete messages, an attempt after which the file is not written and none
follows is one in which the run of some guest has left no key, or a QUAL short of members, or a share with no commitment or one that is
not on the curve. -/
theorem C92_outcome (c : Cfg K) (h : List Ev) (s : Sys K) (hrun : Verif.KeyProgram.run c (init c) h = .ok s) (hgn : c.base.guests.Nodup)
    (hs : 0 ≤ c.start) (hi : 0 ≤ c.interval) (hc : ∀ g ∈ c.base.guests, ∀ r, Calm (c.base.y g r))
    (hm : ∀ m, .prog (.net m) ∈ h → Complete m.dto) (hf : s.file = none) : ∃ (h' : List Ev) (s' : Sys K),
      (∀ e ∈ h', own e = true ∨ ∃ t, e = .prog (.tick t)) ∧ Verif.KeyProgram.run c s h' = .ok s' ∧
      ((s'.main.i = s.main.i ∧ s'.file.isSome = true) ∨ (s'.main.i = s.main.i + 1 ∧ s'.main.pc = .launching ∧ s'.file = none) ∨
        ∃ g ∈ c.base.guests, (∃ r u, RanTo c (h ++ h') s' s.main.i g r u ∧ NoKey c.base.members u) ∨
          ∃ share, FromRun c (h ++ h') s' s.main.i g share ∧ (share.commits = [] ∨ ∃ p ∈ share.commits, ¬ OnCurve p.X p.Y)) := by
  obtain ⟨h', s', h1, h2, h3⟩ := C92_attempt_ends c h s hrun hgn hs hi hf
  refine ⟨h', s', h1, h2, h3.imp id fun h3 => h3.imp id ?_⟩
  rintro ⟨ei, e, _, hp⟩
  have hr := (run_append h' hrun).trans h2
  have key : ∀ {lts : GoMap Int KeyShare} {g : Int} {sh : KeyShare}, lts.keys.Perm c.base.guests → lts.get? g = some sh → g ∈ c.base.guests := by
    intro lts g sh hk hg
    refine hk.mem_iff.1 ((GoMap.get?_isSome_iff _ _).1 ?_)
    rw [hg]; rfl
  rcases C87_panics c (h ++ h') s' hr hgn hs hi hc (fun m hx => by
      rcases List.mem_append.1 hx with hx | hx
      · exact hm m hx
      · rcases h1 _ hx with hx | ⟨t, hx⟩ <;> cases hx) e hp with
    ⟨g, hg, r, u, _, h4, h5⟩ | ⟨order, lts, _, h4, h5, ⟨g, sh, h6, h7⟩ | ⟨_, g, sh, p, h6, h7, h8⟩⟩
  · exact ⟨g, hg, .inl ⟨r, u, by rw [← ei]; exact h4, h5⟩⟩
  · exact ⟨g, key h4 h6, .inr ⟨sh, by rw [← ei]; exact h5 g sh h6, .inl h7⟩⟩
  · exact ⟨g, key h4 h6, .inr ⟨sh, by rw [← ei]; exact h5 g sh h6, .inr ⟨p, h7, h8⟩⟩⟩

end Verif.Props.KeyProgram
