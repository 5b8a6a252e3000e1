import Verif.Props.ConsoleExample
import Verif.Props.RabinTogetherExample

/-! The hypotheses of `C122_signed` can be met: the process of `Verif.Props.RabinTogetherExample` that signs without the other one, when `0 _ 9` is typed. -/
namespace Verif.Props.Console
open Verif.Signode Verif.Console Verif.Start Verif.Point Verif.Dss Verif.Dto Verif.Tables Verif.Spec.Program Verif.Spec.Console
open Verif.Props.Start Verif.Props.KeyStart Verif.Props.Program Verif.Props.RabinTogether
open Verif.Print (doneText sigText)

attribute [local irreducible] rsSys rsRun rsHistory rsEvents

theorem rs_typed : ∃ es s, Console.run rsWorld.parse (stStarted false).startAt rsCfg (Console.init rsCfg) es = .ok s ∧ s.prog = rsSys ∧ s.text = "0 _ 9\n".toList ∧
    trace rsWorld.parse (stStarted false).startAt rsCfg (Console.init rsCfg) es = rsHistory := by
  obtain ⟨hq, h1, _⟩ := rs_facts
  obtain ⟨h, e⟩ := rs_read
  rw [e] at hq h1
  obtain ⟨s, k1, k2, k3, _, k5⟩ := typed (parse := rsWorld.parse) (dflt := (stStarted false).startAt) (r := ⟨"0", "_", "9"⟩) (text := "0 _ 9\n".toList)
    (by decide +kernel) (by decide +kernel) h1 (List.cons.inj (by rw [requests] at hq; exact hq)).2
  exact ⟨_, s, k1, k2, k3, by rw [k5, e]⟩

/-- The process prints the signature of document 9 for its two guests. -/
example : ∃ es s sig more, Console.run rsWorld.parse (stStarted false).startAt rsCfg (Console.init rsCfg) es = .ok s ∧ s.text = "0 _ 9\n".toList ∧
    Schnorr.verify sumHash (.pt (timesAdd base 5)) 9 sig = .ok () ∧
    s.out.Perm ([doneText (jobId stJob), sigText sig, sigText sig] ++ more) := by
  obtain ⟨es, s, k1, k2, k3, k4⟩ := rs_typed
  obtain ⟨f, h1, h2⟩ := C122_signed rk_together nk_wired rk_online (rk_kyber _) key_fair (by decide) rk_noZero (fun p => by cases p <;> decide)
    (fun p => (rk_facts p).2.2.2.1)
  have hf : f = ktFile := by
    funext p
    exact Option.some.inj ((h1 p).symm.trans (rk_facts p).2.2.2.2.1)
  subst hf
  obtain ⟨st, h3, h4⟩ := h2 {false} (fun _ => rsWorld) (fun _ => "u") (fun _ => ⟨rfl, rfl, rfl, .inr ⟨_, rfl⟩⟩)
  have hst : st = fun _ => stStarted false := by
    funext p
    have h := (h3 p).1
    rw [eq_first p] at h ⊢
    exact Outcome.ok.inj (h.symm.trans rs_start)
  subst hst
  have hs : (fun _ : First => s.prog) = fun _ => rsSys := by rw [k2]
  obtain ⟨sig, hv, h⟩ := h4 (fun _ => rsRest) (fun _ => es) (fun _ => s) (fun _ => rsHistory) stJob sigP sigS sigR sumHash exSH sumHash_length
    (fun _ => ⟨rfl, rfl⟩) (fun _ => k1) (fun _ => k4.symm) (fun _ => by rw [k2]; exact rs_in_time) ⟨by decide, by decide⟩ (by decide)
    (fun x => ⟨fun hx => ⟨false, Finset.mem_singleton_self _, hx⟩, fun ⟨p, hp, hx⟩ => by
      rw [Finset.mem_singleton.1 hp] at hx; exact hx⟩) (by decide) rfl (rs_kyber _) sig_fair rsEvents (by rw [hs]; exact rs_online)
  obtain ⟨_, more, h5⟩ := h KeyStart.first
  exact ⟨es, s, sig, more, k1, k3, hv, h5⟩

end Verif.Props.Console
