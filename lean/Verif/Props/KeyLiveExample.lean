import Verif.Props.KeyLive
import Verif.Props.KeyExample

/-! C92 is not vacuous: the attempts of `kxHistory` after their message has come, and that of `kxBad`. -/
namespace Verif.Props.KeyStart
open Verif.Point Verif.Layout Verif.Dto Verif.Dss Verif.Dkg Verif.Signode Verif.Start Verif.Props
open Verif.Spec.KeyProgram Verif.Props.Start
open Verif.KeyProgram (Cfg Ev Sys)

/-- The event happens by itself, or is the passing of time. -/
def kxFree : Ev → Bool
  | .prog (.tick _) => true
  | e => own e

theorem kxFree_iff {e : Ev} (h : kxFree e = true) : own e = true ∨ ∃ t, e = .prog (.tick t) := by
  cases e with
  | prog e =>
    cases e with
    | tick t => exact .inr ⟨t, rfl⟩
    | _ => exact .inl h
  | _ => exact .inl h

/-- How the events of `h` go on after the first `n`: whether the file is there, and the number of the attempt, before and after. -/
def kxGoesOn (c : Cfg Unit) (h : List Ev) (n : Nat) : Option ((Bool × Nat) × (Bool × Nat)) :=
  match Verif.KeyProgram.run c (Verif.KeyProgram.init c) (h.take n) with
  | .ok s => match Verif.KeyProgram.run c s (h.drop n) with
    | .ok s' => if (h.drop n).all kxFree then some ((s.file.isSome, s.main.i), (s'.file.isSome, s'.main.i)) else none
    | _ => none
  | _ => none

theorem kxGoesOn_ok : kxGoesOn (kxCfg 0) (kxAttempt 0 1 0 100) 11 = some ((false, 0), (false, 1)) ∧
    kxGoesOn (kxCfg 0) (kxHistory 0 1) ((kxAttempt 0 1 0 100).length + 11) = some ((false, 1), (true, 1)) := by
  constructor <;> decide +kernel

theorem kx_goes_on {c : Cfg Unit} {h : List Ev} {n i j : Nat} {b : Bool} (hc : kxGoesOn c h n = some ((false, i), (b, j))) :
    ∃ s s' : Sys Unit, Verif.KeyProgram.run c (Verif.KeyProgram.init c) (h.take n) = .ok s ∧ s.file = none ∧ s.main.i = i ∧
      (∀ e ∈ h.drop n, own e = true ∨ ∃ t, e = .prog (.tick t)) ∧ Verif.KeyProgram.run c s (h.drop n) = .ok s' ∧ s'.file.isSome = b ∧
      s'.main.i = j := by
  unfold kxGoesOn at hc
  cases h1 : Verif.KeyProgram.run c (Verif.KeyProgram.init c) (h.take n) with
  | err => rw [h1] at hc; cases hc
  | panic => rw [h1] at hc; cases hc
  | ok s =>
    rw [h1] at hc
    dsimp only at hc
    cases h2 : Verif.KeyProgram.run c s (h.drop n) with
    | err => rw [h2] at hc; cases hc
    | panic => rw [h2] at hc; cases hc
    | ok s' =>
      rw [h2] at hc
      dsimp only at hc
      by_cases h3 : (h.drop n).all kxFree = true
      · rw [if_pos h3] at hc
        have hc := Option.some.inj hc
        rw [Prod.mk.injEq, Prod.mk.injEq, Prod.mk.injEq] at hc
        refine ⟨s, s', rfl, ?_, hc.1.2, fun e he => kxFree_iff (List.all_eq_true.1 h3 e he), h2, hc.2.1, hc.2.2⟩
        cases hf : s.file with
        | none => rfl
        | some f => rw [hf] at hc; cases hc.1.1
      · rw [if_neg h3] at hc; cases hc

theorem kx_calm (g : Int) (r : Nat) : Calm ((kxCfg 0).base.y g r) := by
  refine ⟨?_, ?_, ?_, ?_, ?_, ?_, ?_, ?_, ?_⟩ <;> intros <;> simp [kxCfg, kxRest, keyCfg, programCfg, exKyb]

theorem kx_msgs (m : Message Dto) (hm : .prog (.net m) ∈ kxHistory 0 1) : Complete m.dto := by
  have : m = kxDeal 0 1 0 ∨ m = kxDeal 0 1 1 := by simpa [kxHistory, kxAttempt] using hm
  rcases this with rfl | rfl <;>
    (unfold kxDeal dtoOf; cases dealToDto (exDeal 1) <;> trivial)

/-- In the middle of the second attempt: `C92_awake`, `C92_bounded` and `C92_outcome` apply, and the attempt indeed writes the file. -/
example : ∃ s : Sys Unit, s.main.i = 1 ∧
    (∃ t s1 e, Verif.KeyProgram.step (kxCfg 0) s (.prog (.tick t)) = .ok s1 ∧ own e = true ∧ Verif.KeyProgram.step (kxCfg 0) s1 e ≠ .err) ∧
    (∃ (h' : List Ev) (s' : Sys Unit), (∀ e ∈ h', own e = true ∨ ∃ t, e = .prog (.tick t)) ∧ 30 ≤ (h'.filter own).length ∧
      Verif.KeyProgram.run (kxCfg 0) s h' = .ok s' ∧ s'.file.isSome = true) ∧
    ∃ n, ∀ (h' : List Ev) (s' : Sys Unit), (∀ e ∈ h', own e = true ∨ ∃ t, e = .prog (.tick t)) →
      Verif.KeyProgram.run (kxCfg 0) s h' = .ok s' → s'.main.i = 1 → (h'.filter own).length ≤ n := by
  obtain ⟨s, s', h1, h2, h3, h4, h5, h6, _⟩ := kx_goes_on kxGoesOn_ok.2
  have a1 : (kxCfg 0).base.guests.Nodup := List.nodup_singleton _
  have a2 : 0 ≤ (kxCfg 0).start := by show (0 : Int) ≤ 100000000; decide
  have a3 : 0 ≤ (kxCfg 0).interval := by show (0 : Int) ≤ 1525000000; decide
  refine ⟨s, h3, KeyProgram.C92_awake (kxCfg 0) _ s h1 a1 a2 a3 h2, ⟨_, s', h4, by decide +kernel, h5, h6⟩, ?_⟩
  obtain ⟨n, a, hn⟩ := KeyProgram.C92_bounded (kxCfg 0) _ s h1 a1 a2 a3
  refine ⟨n, fun h' s' g1 g2 g3 => ?_⟩
  obtain ⟨d, g4, g5⟩ := hn h' s' g1 g2
  have : d = 0 := by omega
  rw [this] at g5
  exact g5

/-- In the middle of the first one, which is followed by another: what `C92_outcome` says. -/
example : ∃ (s : Sys Unit) (h' : List Ev) (s' : Sys Unit), s.main.i = 0 ∧ s.file = none ∧
    (∀ e ∈ h', own e = true ∨ ∃ t, e = .prog (.tick t)) ∧ Verif.KeyProgram.run (kxCfg 0) s h' = .ok s' ∧
    ((s'.main.i = 0 ∧ s'.file.isSome = true) ∨ (s'.main.i = 0 + 1 ∧ s'.main.pc = .launching ∧ s'.file = none) ∨
      ∃ g ∈ (kxCfg 0).base.guests, (∃ r u, RanTo (kxCfg 0) ((kxAttempt 0 1 0 100).take 11 ++ h') s' 0 g r u ∧ NoKey (kxCfg 0).base.members u) ∨
        ∃ share, FromRun (kxCfg 0) ((kxAttempt 0 1 0 100).take 11 ++ h') s' 0 g share ∧
          (share.commits = [] ∨ ∃ p ∈ share.commits, ¬ OnCurve p.X p.Y)) := by
  obtain ⟨s, _, h1, h2, h3, _⟩ := kx_goes_on kxGoesOn_ok.1
  obtain ⟨h', s', g1, g2, g3⟩ := KeyProgram.C92_outcome (kxCfg 0) _ s h1 (List.nodup_singleton _) (by show (0 : Int) ≤ 100000000; decide)
    (by show (0 : Int) ≤ 1525000000; decide) (fun g _ r => kx_calm g r)
    (fun m hm => kx_msgs m (List.mem_append_left _ (List.mem_of_mem_take hm))) h2
  rw [h3] at g3
  exact ⟨s, h', s', h3, h2, g1, g2, g3⟩

/-- The attempt of `kxBad` does not end otherwise than with a panic, as `C92_attempt_ends` allows. -/
example (short : Bool) : ∃ s : Sys Unit, Verif.KeyProgram.run (kxBad short) (Verif.KeyProgram.init (kxBad short)) kxBadHistory = .ok s ∧
    s.file = none ∧ Verif.KeyProgram.step (kxBad short) s (.main 0) = .panic ∧ own (.main 0) = true := by
  obtain ⟨s, hs, h1, _, hp⟩ := kxBad_run short
  refine ⟨s, hs, ?_, hp, rfl⟩
  cases hf : s.file with
  | none => rfl
  | some f =>
    rw [Verif.KeyProgram.step.eq_def, if_pos (by rw [hf]; rfl)] at hp
    cases hp

end Verif.Props.KeyStart
