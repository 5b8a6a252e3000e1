import Verif.Proofs.KeySafe
import Verif.Props.RunId

/-! The tool as it makes long-term keys. -/
namespace Verif.Props.KeyProgram
open Verif.Prot Verif.Dto Verif.Dss Verif.Dkg Verif.Tables Verif.Signode Verif.Props Verif.Spec.Prot Verif.Spec.Signode
open Verif.Spec.KeyProgram Verif.KeyProgram
variable {K : Type}

/-- What can be in the runs after a history. -/
def Seen (h : List Ev) (m : Message Dto) : Prop := .prog (.net m) ∈ h ∨ ∃ g id, m = echo g id

theorem inj {c : Cfg K} (hs : 0 ≤ c.start) (hi : 0 ≤ c.interval) : Inj c :=
  fun i j e => RunId.C74_own_attempts c.start c.interval hs hi i j e

theorem reached {c : Cfg K} {h : List Ev} {s : Sys K} (hrun : Verif.KeyProgram.run c (init c) h = .ok s) (hgn : c.base.guests.Nodup)
    (hs : 0 ≤ c.start) (hi : 0 ≤ c.interval) : SInv c (Seen h) s :=
  sinv_run (inj hs hi) hgn (fun g id => .inr ⟨g, id, rfl⟩) (sinv_init c _) (fun _ hm => .inl hm) hrun

/-- The history of an ended run. -/
theorem ranTo {c : Cfg K} {h : List Ev} {s : Sys K} (hI : SInv c (Seen h) s) {j r : Nat} {g : Int} {o : Registry.Obj}
    {u : Run Dto Obj (Data K)} (ho : s.prog.node.reg.objs[r]? = some o) (hk : o.key = ⟨0, g, ids c j⟩) (hr : s.prog.runs[r]? = some u)
    (hd : u.phase = .done) : RanTo c h s j g r u ∧ Final (c.base.y g r) u.user := by
  obtain ⟨t0, hist, hm, he⟩ := hI.p.u.trace r o u ho hr
  rw [hk] at hm he
  dsimp only at he
  refine ⟨⟨⟨o, ho, hk⟩, hr, hd, t0, hist, fun m hx => ?_, he⟩, dkg_final he⟩
  obtain ⟨h1, h2, h3⟩ := hm m hx
  refine ⟨h3, h2, h1.imp id ?_⟩
  rintro ⟨g', id, rfl⟩
  have e1 : g' = g := congrArg RunKey.gidx h3
  have e2 : id = ids c j := congrArg RunKey.runId h3
  rw [e1, e2]

theorem fromRun {c : Cfg K} {h : List Ev} {s : Sys K} (hI : SInv c (Seen h) s) {j : Nat} {g : Int} {sh : KeyShare}
    (he : Ended c s.prog j g sh) : FromRun c h s j g sh := by
  obtain ⟨r, o, u, q, h1, h2, h3, h4, h5, h6⟩ := he
  obtain ⟨h7, h8⟩ := ranTo hI h1 h2 h3 h4
  rcases h8 with h8 | ⟨sh', q', h8, h9, h10, _⟩
  · rw [h8] at h5; cases h5
  · rw [h8] at h5
    injection h5 with h5 _
    injection h5 with e1 e2
    subst e1 e2
    exact ⟨r, u, _, h7, h9, h10, h8, h6⟩

/-- C86 (saved). When the tool has written a file of long-term keys, it holds for each guest the share that the generator of a finished
run of the key generation gave in one and the same attempt, with no member missing from QUAL, and every share has a public key on the
curve. In each attempt before, all guests had such shares too, but not all of them with a public key on the curve. -/
theorem C86_saved (c : Cfg K) (h : List Ev) (s : Sys K) (hrun : Verif.KeyProgram.run c (init c) h = .ok s) (hgn : c.base.guests.Nodup)
    (hs : 0 ≤ c.start) (hi : 0 ≤ c.interval) (f : GoMap Int DksDTO) (hf : s.file = some f) :
    ∃ (i : Nat) (lts : GoMap Int KeyShare), saveLongterms lts = .ok f ∧ lts.keys.Perm c.base.guests ∧
      (∀ g share, lts.get? g = some share → OnChain share ∧ FromRun c h s i g share) ∧
      ∀ j < i, ∃ share : Int → KeyShare, (∀ g ∈ c.base.guests, FromRun c h s j g (share g)) ∧ ∃ g ∈ c.base.guests, ¬ OnChain (share g) := by
  have hI := reached hrun hgn hs hi
  obtain ⟨h1, h2, h3⟩ := hI.m.file f hf
  obtain ⟨h4, h5⟩ := hI.m.lts (.inr h1)
  refine ⟨s.main.i, s.main.lts, h2, ?_, fun g sh hg => ⟨h3 g sh hg, fromRun hI (hI.m.got (.inr h1) g sh hg)⟩, fun j hj => ?_⟩
  · rw [List.perm_ext_iff_of_nodup h4 hgn]
    intro g
    rw [h5]
    exact ⟨fun hg => hI.m.done g hg, fun hg => hI.m.all h1 g hg⟩
  · obtain ⟨lts, l1, l2, g, sh, l3, l4⟩ := hI.m.past j hj
    refine ⟨fun g => (lts.get? g).getD ⟨⟨0, 0⟩, []⟩, fun g hg => ?_, g, (l2 g sh l3).1, by dsimp only; rw [l3]; exact l4⟩
    obtain ⟨sh, hsh⟩ := l1 g hg
    dsimp only
    rw [hsh]
    exact fromRun hI (l2 g sh hsh).2

theorem complete {h : List Ev} (hm : ∀ m, .prog (.net m) ∈ h → Complete m.dto) (m : Message Dto) (hs : Seen h m) : Complete m.dto := by
  rcases hs with hs | ⟨g, id, rfl⟩
  · exact hm m hs
  · trivial

theorem tables {c : Cfg K} {h : List Ev} {s : Sys K} (hrun : Verif.KeyProgram.run c (init c) h = .ok s) (hgn : c.base.guests.Nodup)
    (hs : 0 ≤ c.start) (hi : 0 ≤ c.interval) (hc : RunsSafe c.base (Seen h)) : TInv c.base s.prog :=
  tinv_steps (W := Seen h) (inj hs hi) hgn (fun g id => .inr ⟨g, id, rfl⟩) (sinv_init c _) (tinv_init c) hc
    (fun _ hm => .inl hm) hrun

theorem gives_up (c : Cfg K) (h : List Ev) (s : Sys K) (hrun : Verif.KeyProgram.run c (init c) h = .ok s) (hgn : c.base.guests.Nodup)
    (hs : 0 ≤ c.start) (hi : 0 ≤ c.interval) (hc : RunsSafe c.base (Seen h))
    (hpc : s.main.pc = .collecting) (g : Int) (hg : g ∈ c.base.guests)
    (hd : g ∉ s.main.done) : ∃ r u, RanTo c h s s.main.i g r u ∧ (Verif.KeyProgram.step c s (.main g) = .panic ↔ NoKey c.base.members u) := by
  have hI := reached hrun hgn hs hi
  have hT := tables hrun hgn hs hi hc
  have hfile : s.file = none := by
    cases hf : s.file with
    | none => rfl
    | some f => have := (hI.m.file f hf).1; rw [hpc] at this; cases this
  obtain ⟨o1, v, hpop⟩ : ∃ o1 v, popOutput s.prog.outs 0 g (ids c s.main.i) = .ok (o1, v) := by
    rw [popOutput]
    cases hq : s.prog.outs.get? (0, g) with
    | none => exact absurd hq (hT.outs g hg).1
    | some m => exact ⟨_, _, rfl⟩
  obtain ⟨r, o, u, h1, h2, h3, h4, h5, h6⟩ := pop_facts (inj hs hi) hI hpc hg hd hpop
  refine ⟨r, u, (ranTo hI h1 h2 h3 h4).1, ?_⟩
  have hover : ¬ (c.base.guests.all fun g => decide (g ∈ s.main.done)) = true := by
    rw [List.all_eq_true]
    intro hx
    exact hd (by simpa using hx g hg)
  rw [Verif.KeyProgram.step.eq_def, if_neg (by rw [hfile]; simp)]
  dsimp only
  rw [mainStep, runId_ids hI.m, hpc]
  dsimp only
  rw [if_neg hover, if_pos (by simp [hg, hd]), hpop, Outcome.bind_ok, h5]
  rcases h6 with h6 | ⟨sh, q, h6, _⟩
  · rw [h6]
    exact ⟨fun _ => .inl h6, fun _ => rfl⟩
  · rw [h6]
    show (takeKey c.base.members (some (.key sh q)) >>= _) = _ ↔ _
    rw [takeKey]
    by_cases hq : q.length < c.base.members
    · rw [if_pos hq]
      exact ⟨fun _ => .inr ⟨sh, q, h6, hq⟩, fun _ => rfl⟩
    · rw [if_neg hq]
      refine ⟨fun hx => (by cases hx), ?_⟩
      rintro (hx | ⟨sh', q', hx, hl⟩)
      · rw [h6] at hx; cases hx
      · rw [h6] at hx
        injection hx with hx _
        injection hx with _ e2
        subst e2
        exact absurd hl hq

/-- C87 (giving up). Guest `g` is dealt with in the loop that takes the outputs of an attempt: its run has ended by then, and the tool
panics exactly if that run has left no key or QUAL is short of members. -/
theorem C87_gives_up (c : Cfg K) (h : List Ev) (s : Sys K) (hrun : Verif.KeyProgram.run c (init c) h = .ok s) (hgn : c.base.guests.Nodup)
    (hs : 0 ≤ c.start) (hi : 0 ≤ c.interval) (hc : ∀ g ∈ c.base.guests, ∀ r, Calm (c.base.y g r))
    (hm : ∀ m, .prog (.net m) ∈ h → Complete m.dto) (hpc : s.main.pc = .collecting) (g : Int) (hg : g ∈ c.base.guests)
    (hd : g ∉ s.main.done) : ∃ r u, RanTo c h s s.main.i g r u ∧ (Verif.KeyProgram.step c s (.main g) = .panic ↔ NoKey c.base.members u) := 
  gives_up c h s hrun hgn hs hi (calm_runs hc (complete hm)) hpc g hg hd

/-- Saving panics only if some commitment is not on the curve. -/
theorem save_panic {lts : GoMap Int KeyShare} (h : saveLongterms lts = .panic) :
    ∃ p ∈ lts, ∃ q ∈ p.2.commits, ¬ OnCurve q.X q.Y := by
  by_contra hx
  push Not at hx
  have : ∃ d, ltsToDto lts = .ok d := by
    rw [ltsToDto]
    clear h
    induction lts with
    | nil => exact ⟨[], rfl⟩
    | cons p lts ih =>
      obtain ⟨ds, h1⟩ := ih (fun q hq => hx q (List.mem_cons_of_mem _ hq))
      obtain ⟨a, h2, _⟩ := share_roundtrip p.2.share
      obtain ⟨cs, h3⟩ : ∃ cs, Layout.mapO Point.marshalBinary p.2.commits = .ok cs := by
        obtain ⟨e1, e2⟩ := points_err p.2.commits
        cases hc : Layout.mapO Point.marshalBinary p.2.commits with
        | ok cs => exact ⟨cs, rfl⟩
        | panic => exact absurd hc e2
        | err =>
          obtain ⟨q, hq, hn⟩ := e1.1 hc
          exact absurd (hx p (List.mem_cons_self ..) q hq) hn
      have h4 : dksToDto p.2 = .ok ⟨cs, a⟩ := by rw [dksToDto, h3, Outcome.bind_ok, h2]; rfl
      exact ⟨(p.1, ⟨cs, a⟩) :: ds, by rw [Layout.mapO, h4, Outcome.bind_ok, h1]; rfl⟩
  obtain ⟨d, hd⟩ := this
  rw [saveLongterms, hd] at h
  cases h

theorem panics (c : Cfg K) (h : List Ev) (s : Sys K) (hrun : Verif.KeyProgram.run c (init c) h = .ok s) (hgn : c.base.guests.Nodup)
    (hs : 0 ≤ c.start) (hi : 0 ≤ c.interval) (hc : RunsSafe c.base (Seen h))
    (e : Ev) (hp : Verif.KeyProgram.step c s e = .panic) :
    (∃ g ∈ c.base.guests, ∃ r u, e = .main g ∧ RanTo c h s s.main.i g r u ∧ NoKey c.base.members u) ∨
    ∃ (order : List Int) (lts : GoMap Int KeyShare), e = .check order ∧ lts.keys.Perm c.base.guests ∧
      (∀ g share, lts.get? g = some share → FromRun c h s s.main.i g share) ∧
      ((∃ g share, lts.get? g = some share ∧ share.commits = []) ∨
        (∀ g share, lts.get? g = some share → OnChain share) ∧
          ∃ g share p, lts.get? g = some share ∧ p ∈ share.commits ∧ ¬ OnCurve p.X p.Y) := by
  have hI := reached hrun hgn hs hi
  have hT := tables hrun hgn hs hi hc
  have hp' := hp
  rw [Verif.KeyProgram.step.eq_def] at hp
  by_cases hf : s.file.isSome = true
  · rw [if_pos hf] at hp; cases hp
  rw [if_neg hf] at hp
  cases e with
  | prog e =>
    dsimp only at hp
    exact absurd hp (Node.bind_ne_panic (prog_safe hI hT hc e).1 fun _ _ hx => by cases hx)
  | main g =>
    left
    dsimp only at hp
    rw [mainStep] at hp
    dsimp only at hp
    cases hpc : s.main.pc with
    | launching =>
      rw [hpc] at hp
      exact absurd hp (Node.bind_ne_panic launchAll_safe fun _ _ hx => by cases hx)
    | waiting =>
      rw [hpc] at hp
      dsimp only at hp
      by_cases ho : s.main.runners.all (Program.released s.prog) = true
      · rw [if_pos ho] at hp; cases hp
      · rw [if_neg ho] at hp; cases hp
    | checking => rw [hpc] at hp; cases hp
    | collecting =>
      rw [hpc] at hp
      dsimp only at hp
      by_cases ho : (c.base.guests.all fun g => decide (g ∈ s.main.done)) = true
      · rw [if_pos ho] at hp; cases hp
      · rw [if_neg ho] at hp
        by_cases hmi : (decide (g ∈ c.base.guests) && decide (g ∉ s.main.done)) = true
        · have hmi : g ∈ c.base.guests ∧ g ∉ s.main.done := by simpa using hmi
          obtain ⟨r, u, h1, h2⟩ := gives_up c h s hrun hgn hs hi hc hpc g hmi.1 hmi.2
          exact ⟨g, hmi.1, r, u, rfl, h1, h2.1 hp'⟩
        · rw [if_neg hmi] at hp; cases hp
  | check order =>
    right
    dsimp only at hp
    rw [checkStep] at hp
    by_cases hck : s.main.pc = .checking ∧ order.Perm s.main.lts.keys
    · rw [if_pos hck] at hp
      obtain ⟨hn, hk⟩ := hI.m.lts (.inr hck.1)
      refine ⟨order, s.main.lts, rfl, ?_, fun g sh hg => fromRun hI (hI.m.got (.inr hck.1) g sh hg), ?_⟩
      · rw [List.perm_ext_iff_of_nodup hn hgn]
        intro g
        rw [hk]
        exact ⟨fun hg => hI.m.done g hg, fun hg => hI.m.all hck.1 g hg⟩
      · by_cases hce : ∃ g share, s.main.lts.get? g = some share ∧ share.commits = []
        · exact .inl hce
        · right
          obtain ⟨b, hb⟩ := Signode.allValid_total (order.filterMap fun g => s.main.lts.get? g) (fun d hd he => by
            obtain ⟨g, hg⟩ := (mem_shares hck.2 d).1 hd
            exact hce ⟨g, d, hg, he⟩)
          rw [hb, Outcome.bind_ok] at hp
          cases b with
          | false => rw [if_neg (by simp)] at hp; cases hp
          | true =>
            rw [if_pos rfl] at hp
            refine ⟨fun g sh hg => (Signode.allValid_true _).1 hb sh ((mem_shares hck.2 sh).2 ⟨g, hg⟩), ?_⟩
            have hsv : saveLongterms s.main.lts = .panic := by
              cases hx : saveLongterms s.main.lts with
              | panic => rfl
              | ok f => rw [hx] at hp; cases hp
              | err => rw [hx] at hp; cases hp
            obtain ⟨p, h1, q, h2, h3⟩ := save_panic hsv
            exact ⟨p.1, p.2, q, (GoMap.mem_iff_get? hn p.1 p.2).1 h1, h2, h3⟩
    · rw [if_neg hck] at hp; cases hp

/-- C87 (panics). As it makes long-term keys the tool panics, on messages without nil pointers, at two places only: where it takes the
output of a run that has left no key or a QUAL short of members, and at the end of an attempt in which some share has no commitments, or
one that is not on the curve although the public keys are. -/
theorem C87_panics (c : Cfg K) (h : List Ev) (s : Sys K) (hrun : Verif.KeyProgram.run c (init c) h = .ok s) (hgn : c.base.guests.Nodup)
    (hs : 0 ≤ c.start) (hi : 0 ≤ c.interval) (hc : ∀ g ∈ c.base.guests, ∀ r, Calm (c.base.y g r))
    (hm : ∀ m, .prog (.net m) ∈ h → Complete m.dto) (e : Ev) (hp : Verif.KeyProgram.step c s e = .panic) :
    (∃ g ∈ c.base.guests, ∃ r u, e = .main g ∧ RanTo c h s s.main.i g r u ∧ NoKey c.base.members u) ∨
    ∃ (order : List Int) (lts : GoMap Int KeyShare), e = .check order ∧ lts.keys.Perm c.base.guests ∧
      (∀ g share, lts.get? g = some share → FromRun c h s s.main.i g share) ∧
      ((∃ g share, lts.get? g = some share ∧ share.commits = []) ∨
        (∀ g share, lts.get? g = some share → OnChain share) ∧
          ∃ g share p, lts.get? g = some share ∧ p ∈ share.commits ∧ ¬ OnCurve p.X p.Y) := 
  panics c h s hrun hgn hs hi (calm_runs hc (complete hm)) e hp

end Verif.Props.KeyProgram
