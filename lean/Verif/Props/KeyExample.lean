import Verif.Props.KeyStart
import Verif.Props.StartExample

/-!
C86-C88 are not vacuous: members 0 and 1 of the three of `exHosts` make long-term keys. In the first attempt the key is zero, in the
second it is not. Started again with the files that they have written, they sign.
-/
namespace Verif.Props.KeyStart
open Verif.Point Verif.Layout Verif.Dto Verif.Dss Verif.Dkg Verif.Signode Verif.Start Verif.Props Verif.Spec.Program Verif.Props.Program
open Verif.Spec.KeyProgram Verif.Props.Start
open Verif.KeyProgram (Cfg Ev Sys)

/-- The polynomials of the attempts. -/
def kxPoly (i : Nat) : List Nat := if i = 0 then [0, 7] else [5, 7]

/-- The share of member `i` in attempt `r`. -/
def kxShare (i r : Nat) : KeyShare := ⟨⟨i, peval (kxPoly r) (i + 1)⟩, (kxPoly r).map (timesAdd base)⟩

/-- The command line of member `i` without a file of long-term keys. -/
def kxCmd (i : Nat) : Cmd := { sxCmd i with longterms := none }

def kxStarted (i : Nat) : Started := { sxStarted i with longterms := [] }

/-- The generators of member `i`. -/
def kxRest (i : Nat) : Rest Unit :=
  { sxRest i with y := fun _ r => { exKyb with distKeyShare := fun _ => .ok (kxShare i r) } }

def kxCfg (i : Nat) : Cfg Unit := keyCfg (kxStarted i) (kxRest i)

def kxId (r : Nat) : String := Spec.Signode.attemptId 100000000 1525000000 r

/-- A deal for member `i` in attempt `r`, as it comes from member `j`. -/
def kxDeal (i j r : Nat) : Message Dto := ⟨j, 0, i, kxId r, 1, dtoOf .deal dealToDto (exDeal j)⟩

/-- The r-th attempt, which starts at `t` ms. -/
def kxAttempt (i j r : Nat) (t : Int) : List Ev :=
  [.main i, .prog (.runner r), .prog (.task 0), .prog (.runner r), .prog (.fwStep r), .prog (.tick (t - 55))] ++
  (if r = 0 then [.prog .latch] else []) ++
  [.prog (.tick (t - 5)), .prog (.fwStep r), .prog (.runner r), .prog (.net (kxDeal i j r)), .prog (.tick t), .prog (.fwStep r),
   .prog (.runner r), .prog (.runner r), .prog (.task 0), .prog (.cons (0, i)), .prog (.cons (0, i)), .prog (.cons (0, i)),
   .prog (.thread r), .prog (.thread r)] ++
  [25, 105, 185, 265, 295, 375, 455, 535].flatMap (fun d : Int =>
    [.prog (.tick (t + d)), .prog (.thread r), .prog (.tick (t + d + 5)), .prog (.thread r)]) ++
  [.prog (.tick (t + 570)), .prog (.thread r), .prog (.task 0), .prog (.task 0), .prog (.task 0), .prog (.task 0),
   .prog (.runner r), .main i, .main i, .main i, .check [(i : Int)]]

/-- Two attempts. -/
def kxHistory (i j : Nat) : List Ev := kxAttempt i j 0 100 ++ kxAttempt i j 1 1625

def kxCheck (i j : Nat) : Bool :=
  match Verif.KeyProgram.run (kxCfg i) (Verif.KeyProgram.init (kxCfg i)) (kxHistory i j) with
  | .ok s => decide (s.file = (sxCmd i).longterms) && s.file.isSome &&
    decide (s.prog.node.reg.objs.map Registry.Obj.key = [⟨0, i, kxId 0⟩, ⟨0, i, kxId 1⟩])
  | _ => false

theorem kxCheck_ok : kxCheck 0 1 = true ∧ kxCheck 1 0 = true := by
  constructor <;> decide +kernel

theorem kx_check {i : Nat} (hi : i < 2) : kxCheck i (1 - i) = true := by
  rcases (show i = 0 ∨ i = 1 by omega) with rfl | rfl
  exacts [kxCheck_ok.1, kxCheck_ok.2]

theorem kx_run {i : Nat} (hi : i < 2) : ∃ (s : Sys Unit) (f : GoMap Int DksDTO),
    Verif.KeyProgram.run (kxCfg i) (Verif.KeyProgram.init (kxCfg i)) (kxHistory i (1 - i)) = .ok s ∧ s.file = some f ∧
    (sxCmd i).longterms = some f ∧ s.prog.node.reg.objs.map Registry.Obj.key = [⟨0, i, kxId 0⟩, ⟨0, i, kxId 1⟩] := by
  have h := kx_check hi
  rw [kxCheck] at h
  cases hs : Verif.KeyProgram.run (kxCfg i) (Verif.KeyProgram.init (kxCfg i)) (kxHistory i (1 - i)) with
  | panic => rw [hs] at h; cases h
  | err => rw [hs] at h; cases h
  | ok s =>
    rw [hs] at h
    simp only [Bool.and_eq_true, decide_eq_true_eq] at h
    obtain ⟨⟨h1, h2⟩, h3⟩ := h
    obtain ⟨f, hf⟩ := Option.isSome_iff_exists.1 h2
    exact ⟨s, f, rfl, hf, by rw [← h1]; exact hf, h3⟩

theorem kx_start {i : Nat} (hi : i < 2) : start sxWorld (kxCmd i) = .ok (kxStarted i) := by
  rcases (show i = 0 ∨ i = 1 by omega) with rfl | rfl
  · have : loadSecrets (kxCmd 0).secdir (kxCmd 0).secnames = .ok [1] := sx_secrets0
    simp only [start, this]; decide +kernel
  · have : loadSecrets (kxCmd 1).secdir (kxCmd 1).secnames = .ok [2] := sx_secrets1
    simp only [start, this]; decide +kernel

theorem kx_canonical {i r : Nat} (hi : i < 2) (hr : r < 2) : CanonicalShare (kxShare i r).share := by
  rcases (show i = 0 ∨ i = 1 by omega) with rfl | rfl <;> rcases (show r = 0 ∨ r = 1 by omega) with rfl | rfl <;>
    (unfold CanonicalShare; decide +kernel)

/-- The shares of these histories are those of the polynomials. -/
theorem kx_deals {i : Nat} (hi : i < 2) : Deals (kxCfg i) (kxHistory i (1 - i)) kxPoly := by
  intro s k g share hrun ⟨r, u, q, ⟨⟨o, ho, hk⟩, _⟩, _, hs, _⟩
  obtain ⟨s', f, hrun', _, _, hkeys⟩ := kx_run hi
  have := Outcome.ok.inj (hrun.symm.trans hrun')
  subst this
  have hsh : share = kxShare i r := (Outcome.ok.inj hs).symm
  clear hs
  have hl : (s.prog.node.reg.objs.map Registry.Obj.key)[r]? = some o.key := by rw [List.getElem?_map, ho]; rfl
  rw [hkeys, hk] at hl
  have key : r < 2 ∧ g = i ∧ k = r := by
    match r with
    | 0 =>
      have e := Option.some.inj hl
      exact ⟨by omega, (congrArg RunKey.gidx e).symm,
        RunId.C74_own_attempts 100000000 1525000000 (by decide) (by decide) _ _ (congrArg RunKey.runId e).symm⟩
    | 1 =>
      have e := Option.some.inj hl
      exact ⟨by omega, (congrArg RunKey.gidx e).symm,
        RunId.C74_own_attempts 100000000 1525000000 (by decide) (by decide) _ _ (congrArg RunKey.runId e).symm⟩
    | r + 2 => cases hl
  obtain ⟨hr, rfl, rfl⟩ := key
  rw [hsh]
  refine ⟨kx_canonical hi hr, rfl, ?_⟩
  show (peval (kxPoly k) (i + 1) - peval (kxPoly k) ((i : Int).toNat + 1)) % _ = 0
  rw [Int.toNat_natCast, sub_self]; rfl

theorem kx_keygen {i : Nat} (hi : i < 2) : ∃ f, Keygen sxWorld (kxCmd i) (kxStarted i) (kxRest i) (kxHistory i (1 - i)) f ∧
    (sxCmd i).longterms = some f := by
  obtain ⟨s, f, h1, h2, h3, _⟩ := kx_run hi
  exact ⟨f, ⟨kx_start hi, by simp [kxStarted, sxStarted], by show (0 : Int) ≤ 100000000; decide, s, h1, h2⟩, h3⟩

/-- C86: member 0 has written a file, and not after the first attempt. -/
example : ∃ (s : Sys Unit) (f : GoMap Int DksDTO) (i : Nat) (lts : GoMap Int KeyShare),
    Verif.KeyProgram.run (kxCfg 0) (Verif.KeyProgram.init (kxCfg 0)) (kxHistory 0 1) = .ok s ∧ s.file = some f ∧
    saveLongterms lts = .ok f ∧ lts.keys = [0] ∧ i = 1 := by
  obtain ⟨s, f, h1, h2, _⟩ := kx_run (i := 0) (by omega)
  obtain ⟨i, lts, e1, e2, e3, e4⟩ := KeyProgram.C86_saved (kxCfg 0) (kxHistory 0 1) s h1 (List.nodup_singleton _)
    (by show (0 : Int) ≤ 100000000; decide) (by show (0 : Int) ≤ 1525000000; decide) f h2
  have hk : lts.keys = [0] := List.perm_singleton.1 e2
  refine ⟨s, f, i, lts, h1, h2, e1, hk, ?_⟩
  obtain ⟨sh, hsh⟩ : ∃ sh, lts.get? 0 = some sh := by
    rw [← Option.isSome_iff_exists, GoMap.get?_isSome_iff, hk]; exact List.mem_singleton.2 rfl
  have hg := (onChain_iff (kx_deals (i := 0) (by omega) s i 0 sh h1 (e3 0 sh hsh).2).2.1).1 (e3 0 sh hsh).1
  match i with
  | 0 => exact absurd (by decide) hg
  | 1 => rfl
  | i + 2 =>
    obtain ⟨share, f1, g, hg, f2⟩ := e4 1 (by omega)
    refine absurd ((onChain_iff (kx_deals (i := 0) (by omega) s 1 g _ h1 (f1 g hg)).2.1).2 ?_) f2
    show (5 : Nat) % _ ≠ 0
    decide

/-- C88: both processes can be started again with the files that they have written. -/
example {i : Nat} (hi : i < 2) : ∃ f k st, (sxCmd i).longterms = some f ∧ start sxWorld (signCmd (kxCmd i) f "_") = .ok st ∧
    SavedShares (signCmd (kxCmd i) f "_") (kxPoly k) ∧ st.guests = (kxStarted i).guests := by
  obtain ⟨f, hk, hf⟩ := kx_keygen hi
  obtain ⟨k, st, _, h1, h2, _, h3, _⟩ := C88_restarts sxWorld sxWorld exSort_contract ⟨rfl, rfl, rfl⟩ (kxCmd i) exHosts ⟨rfl, by decide⟩ _ _ _ f hk
    kxPoly (kx_deals hi) "_" (.inl rfl)
  exact ⟨f, k, st, hf, h1, h2, h3⟩

/-- C88: started again, they print the same signature for the request `0 _ 9`. -/
example : ∃ (f f' : GoMap Int DksDTO) (s s' : Program.Sys Unit) (b b' : Program.JobSt) (sig : Schnorr.Sig),
    Keygen sxWorld (kxCmd 0) (kxStarted 0) (kxRest 0) (kxHistory 0 1) f ∧ Keygen sxWorld (kxCmd 1) (kxStarted 1) (kxRest 1) (kxHistory 1 0) f' ∧
    start sxWorld (signCmd (kxCmd 0) f "t") = .ok (sxStarted 0) ∧ start sxWorld (signCmd (kxCmd 1) f' "t") = .ok (sxStarted 1) ∧
    Program.run (sxCfg 0) (Program.init (sxCfg 0)) (sxHistory 0 1) = .ok s ∧ Program.run (sxCfg 1) (Program.init (sxCfg 1)) (sxHistory 1 0) = .ok s' ∧
    b ∈ s.jobs ∧ b' ∈ s'.jobs ∧ (0, some sig) ∈ b.lines ∧ (1, some sig) ∈ b'.lines ∧
    Schnorr.verify sumHash (.pt (timesAdd base 5)) 9 sig = .ok () := by
  obtain ⟨f, k1, k2⟩ := kx_keygen (i := 0) (by omega)
  obtain ⟨f', k1', k2'⟩ := kx_keygen (i := 1) (by omega)
  have cmd : signCmd (kxCmd 0) f "t" = sxCmd 0 := by rw [signCmd, ← k2]; rfl
  have cmd' : signCmd (kxCmd 1) f' "t" = sxCmd 1 := by rw [signCmd, ← k2']; rfl
  obtain ⟨s, b, o, sig, h1, h2, h3, h4, h5, h6⟩ := sx_run sxCheck_ok.1
  obtain ⟨s', b', o', sig', h1', h2', h3', h4', h5', h6'⟩ := sx_run sxCheck_ok.2
  obtain ⟨i, e1, e2, key⟩ := C88_end_to_end sxWorld sxWorld exSort_contract exSort_contract (kxCmd 0) (kxCmd 1) exHosts exHosts
    ⟨rfl, by decide⟩ ⟨rfl, by decide⟩ _ _ (sx_keys 0) (sx_keys 1) (List.Perm.refl _) rfl _ _ _ _ _ _ f f' k1 k1' kxPoly
    (kx_deals (by omega)) (kx_deals (by omega))
  have hi : i = 1 := by
    match i with
    | 0 => exact absurd (by decide) e1
    | 1 => rfl
    | i + 2 => exact absurd (by show (5 : Nat) % _ ≠ 0; decide) (e2 1 (by omega))
  subst hi
  obtain ⟨e, hv⟩ := key sxWorld sxWorld exSort_contract exSort_contract "t" "t" (sxStarted 0) (sxStarted 1) (by rw [cmd]; exact sx_start0)
    (by rw [cmd']; exact sx_start1) (sxRest 0) (sxRest 1) rfl rfl (fun b => by simp [sxRest, sumHash]) (sxHistory 0 1) (sxHistory 1 0) s s' h1 h1'
    (List.nodup_singleton _) (List.nodup_singleton _) sxJob [11, 13] (sx_signs h5 (by rw [h6])) (sx_signs h5' (by rw [h6']))
    (by decide) ⟨by decide, by decide⟩ (by decide) (by decide) b b' h2 h2' h3 h3' 0 1 sig sig' h4 h4'
  subst e
  exact ⟨f, f', s, s', b, b', sig, k1, k1', by rw [cmd]; exact sx_start0, by rw [cmd']; exact sx_start1, h1, h1', h2, h2', h4, h4', hv⟩

/-- The generators of a member that finds only two members qualified, or that cannot compute its share. -/
def kxBad (short : Bool) : Cfg Unit :=
  keyCfg (kxStarted 0) { kxRest 0 with y := fun _ _ => if short then { exKyb with qual := fun _ => [0, 1] } else { exKyb with distKeyShare := fun _ => .err } }

/-- The first attempt up to the outputs. -/
def kxBadHistory : List Ev := (kxAttempt 0 1 0 100).take 61

def panics {α : Type} : Outcome α → Bool
  | .panic => true
  | _ => false

theorem eq_of_panics {α : Type} {x : Outcome α} (h : panics x = true) : x = .panic := by
  cases x with
  | panic => rfl
  | ok _ => cases h
  | err => cases h

def kxBadCheck (short : Bool) : Bool :=
  match Verif.KeyProgram.run (kxBad short) (Verif.KeyProgram.init (kxBad short)) kxBadHistory with
  | .ok s => decide (s.main.pc = .collecting) && decide (s.main.done = []) && panics (Verif.KeyProgram.step (kxBad short) s (.main 0))
  | _ => false

theorem kxBadCheck_ok (short : Bool) : kxBadCheck short = true := by
  cases short <;> decide +kernel

theorem kxBad_calm (short : Bool) (g : Int) (r : Nat) : Calm ((kxBad short).base.y g r) := by
  cases short <;> (refine ⟨?_, ?_, ?_, ?_, ?_, ?_, ?_, ?_, ?_⟩ <;> intros <;> simp [kxBad, keyCfg, programCfg, exKyb])

theorem kxBad_msgs (m : Message Dto) (hm : .prog (.net m) ∈ kxBadHistory) : Complete m.dto := by
  have : m = kxDeal 0 1 0 := by simpa [kxBadHistory, kxAttempt] using hm
  rw [this]
  unfold kxDeal dtoOf
  cases dealToDto (exDeal 1) <;> trivial

theorem kxBad_run (short : Bool) : ∃ s : Sys Unit, Verif.KeyProgram.run (kxBad short) (Verif.KeyProgram.init (kxBad short)) kxBadHistory = .ok s ∧
    s.main.pc = .collecting ∧ s.main.done = [] ∧ Verif.KeyProgram.step (kxBad short) s (.main 0) = .panic := by
  have h := kxBadCheck_ok short
  unfold kxBadCheck at h
  generalize Verif.KeyProgram.run (kxBad short) (Verif.KeyProgram.init (kxBad short)) kxBadHistory = x at h ⊢
  cases x with
  | panic => cases h
  | err => cases h
  | ok s =>
    dsimp only at h
    rw [Bool.and_eq_true, Bool.and_eq_true, decide_eq_true_eq, decide_eq_true_eq] at h
    exact ⟨s, rfl, h.1.1, h.1.2, eq_of_panics h.2⟩

/-- The hypotheses of C87 hold of both, and the tool panics. -/
example (short : Bool) : ∃ (s : Sys Unit) (r : Nat) (u : Prot.Run Dto Obj (Data Unit)),
    Verif.KeyProgram.run (kxBad short) (Verif.KeyProgram.init (kxBad short)) kxBadHistory = .ok s ∧
    Verif.KeyProgram.step (kxBad short) s (.main 0) = .panic ∧ RanTo (kxBad short) kxBadHistory s s.main.i 0 r u ∧
    NoKey (kxBad short).base.members u := by
  obtain ⟨s, hs, h1, h2, hp⟩ := kxBad_run short
  have a1 : (kxBad short).base.guests.Nodup := List.nodup_singleton _
  have a2 : 0 ≤ (kxBad short).start := by show (0 : Int) ≤ 100000000; decide
  have a3 : 0 ≤ (kxBad short).interval := by show (0 : Int) ≤ 1525000000; decide
  have a4 : (0 : Int) ∈ (kxBad short).base.guests := List.mem_singleton.2 rfl
  obtain ⟨r, u, e1, e2⟩ := KeyProgram.C87_gives_up (kxBad short) kxBadHistory s hs a1 a2 a3 (fun g _ r => kxBad_calm short g r) kxBad_msgs h1 0 a4
    (by rw [h2]; simp)
  exact ⟨s, r, u, hs, hp, e1, e2.1 hp⟩

end Verif.Props.KeyStart
