import Verif.Props.ProgramAgree
import Verif.Props.ProgramExample
import Verif.Props.SigningExample

/-!
C80 and C81 are not vacuous: the processes of members 0 and 1 of a group of three with threshold 2 sign document 9, and each gets what
the other one sends.
-/
namespace Verif.Props.Program
open Verif.Prot Verif.Dto Verif.Dss Verif.Dkg Verif.Point Verif.Tables Verif.Signode Verif.Program Verif.Props Verif.Spec.Prot Verif.Spec.Program

def agGroup : Group := ⟨jobId pgJob1, exPubs, 2, [5, 7], [11, 13], 9⟩

theorem agGroup_sound : agGroup.Sound :=
  ⟨by decide, by decide, ⟨by decide, by decide⟩, fun p hp => isElt_commits [1, 2, 3] p hp, by decide, by decide⟩

/-- The process of member `i`. -/
def agCfg (i : Nat) : Cfg Unit :=
  { pgCfg with y := fun _ _ => exKybOf i, guests := [(i : Int)], secret := fun x => x + 1,
               longterms := [((i : Int), ⟨⟨i, peval [5, 7] (i + 1)⟩, [5, 7].map (timesAdd base)⟩)] }

/-- The partial signature of member `i`, as it reaches member `j`. -/
def agMsg (i j : Nat) : Message Dto :=
  ⟨i, 1, j, jobId pgJob1, 10,
    match newDSS sumHash ⟨i + 1, exPubs, ⟨⟨i, peval [5, 7] (i + 1)⟩, [5, 7].map (timesAdd base)⟩,
        ⟨⟨i, peval [11, 13] (i + 1)⟩, [11, 13].map (timesAdd base)⟩, [0, 1, 2], 9, 2⟩ with
    | .ok d => match (partialSig sumHash exSH 17 d).2 with
      | .ok ps => dtoOf .partsig partsigToDto ps
      | _ => .other
    | _ => .other⟩

/-- What happens in the process of member `i`: one request, and the message of member `j`. -/
def agHistory (i j : Nat) : List Ev :=
  [.request pgJob1, .job 0 i, .job 0 i, .job 0 i, .runner 0, .runner 0, .fwStep 0, .task 0, .tick 95, .fwStep 0, .runner 0,
   .net (agMsg j i), .tick 100, .fwStep 0, .runner 0, .runner 0, .task 0, .cons (1, i), .cons (1, i), .cons (1, i), .thread 0, .thread 0] ++
  pgStages [0] ++ [.task 0, .task 0, .runner 0, .job 0 i, .job 0 i, .job 0 i, .job 0 i, .job 0 i, .runner 0]

/-- The request has ended; its run was not abandoned, has sent a partial signature to `j` and had the one of `j` before its stage. -/
def agCheck (i j : Nat) : Bool :=
  match run (agCfg i) (init (agCfg i)) (agHistory i j) with
  | .ok s =>
    (match s.jobs with
     | [b] => decide (b.job = pgJob1) && decide (b.pc = .ended) && b.lines.all fun l => l.2.isSome
     | _ => false) &&
    (match s.node.reg.objs, s.runs with
     | [o], [u] => decide (o.key = ⟨1, (i : Int), jobId pgJob1⟩) && !gaveUp u.log && (sentOf 10 u.log).contains (agMsg i j) &&
        (early 10 u.log).contains (agMsg j i)
     | _, _ => false)
  | _ => false

theorem agCheck_ok : agCheck 0 1 = true ∧ agCheck 1 0 = true := by
  constructor <;> decide +kernel

theorem ag_check {i j : Nat} (h : agCheck i j = true) : ∃ (s : Sys Unit) (b : JobSt) (o : Registry.Obj) (u : Prot.Run Dto Obj (Data Unit)),
    run (agCfg i) (init (agCfg i)) (agHistory i j) = .ok s ∧ s.jobs = [b] ∧ b.job = pgJob1 ∧ b.pc = .ended ∧
    s.node.reg.objs = [o] ∧ s.runs = [u] ∧ o.key = ⟨1, (i : Int), jobId pgJob1⟩ ∧ gaveUp u.log = false ∧ agMsg i j ∈ sentOf 10 u.log ∧
    agMsg j i ∈ early 10 u.log := by
  rw [agCheck] at h
  cases hs : run (agCfg i) (init (agCfg i)) (agHistory i j) with
  | panic => rw [hs] at h; cases h
  | err => rw [hs] at h; cases h
  | ok s =>
    rw [hs] at h
    dsimp only at h
    rw [Bool.and_eq_true] at h
    obtain ⟨h1, h2⟩ := h
    split at h1
    · rename_i b hb
      split at h2
      · rename_i o u ho hu
        simp only [Bool.and_eq_true, decide_eq_true_eq, Bool.not_eq_true', List.contains_iff_mem] at h1 h2
        exact ⟨s, b, o, u, rfl, hb, h1.1.1, h1.1.2, ho, hu, h2.1.1.1, h2.1.1.2, h2.1.2, h2.2⟩
      · cases h2
    · cases h1

theorem ag_own {i : Nat} (hi : i < 2) : ∃ pub, mulBase ((i : Int) + 1) = .ok pub ∧ (exPubs.findIdx? fun q => equal q pub) = some i := by
  rcases (show i = 0 ∨ i = 1 by omega) with rfl | rfl
  exacts [exEnvOf_own.1, exEnvOf_own.2]

theorem ag_guest {i : Nat} (hi : i < 2) : ∀ x ∈ (agCfg i).guests, ∃ n : Nat, x = (n : Int) ∧ (agCfg i).secret x % secp256k1N ≠ 0 ∧
    (∃ pub, mulBase ((agCfg i).secret x) = .ok pub ∧ (agGroup.keys.findIdx? fun q => equal q pub) = some n) ∧
    ∃ long, (agCfg i).longterms.get? x = some long ∧ long.commits = agGroup.ls.map (timesAdd base) ∧
      (long.share.V - peval agGroup.ls (n + 1)) % secp256k1N = 0 := by
  intro x hx
  have hx' : x = (i : Int) := List.mem_singleton.1 hx
  subst hx'
  refine ⟨i, rfl, ?_, ag_own hi, ⟨⟨i, peval [5, 7] (i + 1)⟩, [5, 7].map (timesAdd base)⟩, ?_, rfl, ?_⟩
  · rcases (show i = 0 ∨ i = 1 by omega) with rfl | rfl
    · show (((0 : Nat) : Int) + 1) % (secp256k1N : Int) ≠ 0; decide
    · show (((1 : Nat) : Int) + 1) % (secp256k1N : Int) ≠ 0; decide
  · show GoMap.get? [((i : Int), _)] (i : Int) = _
    rw [GoMap.get?_cons, if_pos rfl]
  · show (peval [5, 7] (i + 1) - peval [5, 7] (i + 1)) % _ = 0
    rw [sub_self]; rfl

theorem ag_random {i : Nat} {s : Sys Unit} {o : Registry.Obj} (ho : s.node.reg.objs = [o]) (hk : o.key.gidx = (i : Int)) :
    ∀ (r : Nat) (o : Registry.Obj) (u : Prot.Run Dto Obj (Data Unit)), s.node.reg.objs[r]? = some o → o.key.runId = agGroup.id →
      s.runs[r]? = some u → ∀ random, ((agCfg i).y o.key.gidx r).distKeyShare u.user.kyb = .ok random → random.commits = agGroup.rs.map (timesAdd base) ∧
        (random.share.V - peval agGroup.rs (o.key.gidx + 1)) % secp256k1N = 0 := by
  intro r o' u ho' _ _ random h
  have ho1 : o' ∈ s.node.reg.objs := List.mem_of_getElem? ho'
  rw [ho, List.mem_singleton] at ho1
  subst ho1
  have h' : random = ⟨⟨i, peval [11, 13] (i + 1)⟩, [11, 13].map (timesAdd base)⟩ := (Outcome.ok.inj h).symm
  subst h'
  refine ⟨rfl, ?_⟩
  rw [hk]
  show (peval [11, 13] (i + 1) - peval [11, 13] (i + 1)) % _ = 0
  rw [sub_self]; rfl

theorem ag_ready {i j : Nat} (hi : i < 2) {s : Sys Unit} (hs : run (agCfg i) (init (agCfg i)) (agHistory i j) = .ok s) :
    Process.Ready ⟨agCfg i, agHistory i j, s⟩ sumHash exSH agGroup := by
  refine ⟨hs, List.nodup_singleton _, ?_, ⟨rfl, rfl⟩, rfl, rfl, rfl, ag_guest hi⟩
  show ((requests (agHistory i j)).map jobId).Nodup
  rcases (show i = 0 ∨ i = 1 by omega) with rfl | rfl <;> exact List.nodup_singleton _

theorem ag_signs {i j : Nat} {s : Sys Unit} {o : Registry.Obj} (ho : s.node.reg.objs = [o]) (hk : o.key.gidx = (i : Int)) :
    Process.Signs ⟨agCfg i, agHistory i j, s⟩ agGroup pgJob1 :=
  ⟨by show pgJob1 ∈ requests (_ :: _); exact List.mem_cons_self .., rfl, rfl, ag_random ho hk⟩

theorem sent_of {l : List (Entry Dto Obj)} {m : Message Dto} (h : m ∈ sentOf 10 l) : .sent m ∈ l := by
  rw [sentOf, List.mem_filterMap] at h
  obtain ⟨x, hx, hx'⟩ := h
  cases x with
  | sent m' =>
    dsimp only at hx'
    by_cases ho : m'.op = 10
    · rw [if_pos ho] at hx'
      have := Option.some.inj hx'
      subst this
      exact hx
    · rw [if_neg ho] at hx'; cases hx'
  | _ => cases hx'

theorem ag_prints {i j : Nat} (hi : i < 2) (hj : j < 2) (hij : i ≠ j) (ci : agCheck i j = true) (cj : agCheck j i = true) :
    ∃ (s : Sys Unit) (b : JobSt) (sig : Schnorr.Sig), Process.Ready ⟨agCfg i, agHistory i j, s⟩ sumHash exSH agGroup ∧
      Process.Signs ⟨agCfg i, agHistory i j, s⟩ agGroup pgJob1 ∧ b ∈ s.jobs ∧ b.job = pgJob1 ∧ ((i : Int), some sig) ∈ b.lines ∧
      Schnorr.verify sumHash (.pt (timesAdd base 5)) 9 sig = .ok () := by
  obtain ⟨s, b, o, u, h1, h2, h3, h4, h5, h6, h7, h8, _, h10⟩ := ag_check ci
  obtain ⟨s', _, o', u', h1', _, _, _, h5', h6', h7', _, h9', _⟩ := ag_check cj
  have hr := ag_ready hi h1
  have hsg : Process.Signs ⟨agCfg i, agHistory i j, s⟩ agGroup pgJob1 := ag_signs h5 (by rw [h7])
  have hb : b ∈ s.jobs := by rw [h2]; exact List.mem_singleton.2 rfl
  obtain ⟨sig, g1, g2⟩ := C81_prints (g := agGroup) (fun b => by simp [sumHash]) agGroup_sound ⟨agCfg i, agHistory i j, s⟩ hr pgJob1 hsg b hb h3 h4 i
    (List.mem_singleton.2 rfl) 0 o u (by show s.node.reg.objs[0]? = _; rw [h5]; rfl) h7 (by show s.runs[0]? = _; rw [h6]; rfl)
    (fun l1 l2 e => by
      have : gaveUp u.log = true := by rw [show u.log = _ from e]; exact gaveUp_mid l1 l2
      rw [h8] at this; cases this)
    [(j : Int)] (List.nodup_singleton _) (by rw [List.mem_singleton]; omega) (by show (2 : Int) ≤ ((1 : Nat) : Int) + 1; decide)
    (fun y hy random _ => by
      rw [List.mem_singleton] at hy
      subst hy
      show (j : Int) ∈ ([0, 1, 2] : List Int)
      rcases (show j = 0 ∨ j = 1 by omega) with rfl | rfl <;> decide)
    (fun y hy => by
      rw [List.mem_singleton] at hy
      subst hy
      exact ⟨⟨agCfg j, agHistory j i, s'⟩, pgJob1, u', agMsg j i, ag_ready hj h1', ag_signs h5' (by rw [h7']),
        by show u' ∈ s'.runs; rw [h6']; exact List.mem_singleton.2 rfl, sent_of h9', rfl, rfl, rfl, List.mem_append_left _ h10⟩)
  exact ⟨s, b, sig, hr, hsg, hb, h3, g1, g2⟩

/-- Both processes print a signature by C81; by C80 it is the same. -/
example : ∃ (s s' : Sys Unit) (b b' : JobSt) (sig : Schnorr.Sig), run (agCfg 0) (init (agCfg 0)) (agHistory 0 1) = .ok s ∧
    run (agCfg 1) (init (agCfg 1)) (agHistory 1 0) = .ok s' ∧ b ∈ s.jobs ∧ b' ∈ s'.jobs ∧
    (0, some sig) ∈ b.lines ∧ (1, some sig) ∈ b'.lines ∧ Schnorr.verify sumHash (.pt (timesAdd base 5)) 9 sig = .ok () := by
  obtain ⟨s, b, sig, h1, h2, h3, h4, h5, h6⟩ := ag_prints (i := 0) (j := 1) (by omega) (by omega) (by omega) agCheck_ok.1 agCheck_ok.2
  obtain ⟨s', b', sig', h1', h2', h3', h4', h5', _⟩ := ag_prints (i := 1) (j := 0) (by omega) (by omega) (by omega) agCheck_ok.2 agCheck_ok.1
  have := (C80_same (fun b => by simp [sumHash]) agGroup_sound _ _ h1 h1' _ _ h2 h2' b b' h3 h3' h4 h4' _ _ sig sig' h5 h5').1
  subst this
  exact ⟨s, s', b, b', sig, h1.run, h1'.run, h3, h3', h5, h5', h6⟩

end Verif.Props.Program
