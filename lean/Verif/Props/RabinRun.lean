import Verif.Proofs.RabinStage
import Verif.Props.Dkg

/-!
Property C118: runs of one member with kyber's generator, among others that may send it anything. Of what the model of the generator leaves out (justifications,
complaints about commitments and about own deals, reconstructions; see `Model/Rabin`) nothing is shown.
-/
namespace Verif.Props.RabinRun
open Verif.Rabin Verif.Prot Verif.Spec.Prot Verif.Point Verif.Props Verif.Dkg Verif.Dto Verif.Dss Verif.Spec.Rabin
variable {S : Suite} {R : Choice} {i : Nat}

/-- C118 (key generation does not crash). Whatever others send, a run of the key generation with kyber's generator does not panic, if every received response
has its inner part and no commitments come in the name of the member itself. Nothing is assumed of the generator: C60 assumes that it never panics. -/
theorem C118_calm_dkg (h : Able S R i) {k0 : Gen} (h0 : newGen S (R.member i) = .ok k0) (id : String) (self t0 : Int) (hist : List (Ev Dto))
    (hm : ∀ m ∈ msgs hist, 0 ≤ m.op ∧ Foreign i m ∧ Complete m.dto) :
    exec (dkgConf (kyb S (R.member i)) id self R.keys.length) (newRun Dto Obj (newData k0) t0) hist ≠ .panic := by
  rw [newGen_able h] at h0
  cases h0
  refine (safe_exec (safe_of_tame h (dkg_held h id self) fun n s hs => ?_)
    ⟨⟨fun h => absurd h (by decide), fun h => absurd h (by decide)⟩, jst_new _ rfl⟩ hist hm).1
  have hs' : (dssStages (kyb S (R.member i)) (fun b => b) (fun _ => []) ⟨0, [], 0, none, none, 0⟩)[n]? = some s := by
    have hl : n < (dkgStages (kyb S (R.member i))).length := (List.getElem?_eq_some_iff.1 hs).1
    rw [dssStages, List.getElem?_append_left hl]
    exact hs
  obtain ⟨s', _, h2, h3⟩ := tame_alike (A := Fresh S R i) (B := Fit R i) n s hs'
  have hn : n < 9 := (List.getElem?_eq_some_iff.1 hs).1
  exact ⟨s', dkg_stage_safe (tame_calm h) R.keys.length n s' (h3 hn), h2⟩

/-- C118 (signing does not crash). The same of a run of the signing, if every received partial signature is complete too, and there are a document and a
long-term share with commitments in the group, to a key that is not zero. -/
theorem C118_calm_dss (h : Able S R i) {k0 : Gen} (h0 : newGen S (R.member i) = .ok k0) (H : List UInt8 → List UInt8) (SH : Share → List UInt8) (env : Env)
    (hl : ∃ long, env.long = some long ∧ Commits long.commits ∧ long.commits.headD null ≠ null) (hd : env.doc ≠ none)
    (hf : env.participants.length ≤ 2 ^ 63) (id : String) (self t0 : Int) (hist : List (Ev Dto))
    (hm : ∀ m ∈ msgs hist, 0 ≤ m.op ∧ Foreign i m ∧ Complete m.dto) :
    exec (dssConf (kyb S (R.member i)) H SH env id self R.keys.length) (newRun Dto Obj (newData k0) t0) hist ≠ .panic := by
  rw [newGen_able h] at h0
  cases h0
  refine (safe_exec (safe_of_tame h (dss_held h id self) fun n s hs => ?_)
    ⟨⟨fun h => absurd h (by decide), fun h => absurd h (by decide)⟩, jst_new _ rfl⟩ hist hm).1
  obtain ⟨s', h1, h2, _⟩ := tame_alike (A := Fresh S R i) (B := Fit R i) n s hs
  exact ⟨s', dss_stage_safe (tame_calm h) (tame_good hl hd hf) R.keys.length n s' h1, h2⟩

/-- A share of member `i` of a polynomial with `T` coefficients, and commitments to the coefficients. -/
def Proper (i T : Nat) (sh : KeyShare) : Prop :=
  sh.share.I = i ∧ ∃ ls : List Nat, sh.commits = ls.map (timesAdd base) ∧ ls.length = T ∧ (sh.share.V - peval ls (i + 1)) % secp256k1N = 0

/-- C118 (share). Whatever others send, except for commitments in the name of the member itself, what a key generation puts out is a share of a polynomial with exactly `T` coefficients, and the commitments to them.
In particular a run whose own deal is refused puts out nothing. -/
theorem C118_share (h : Able S R i) {k0 : Gen} (h0 : newGen S (R.member i) = .ok k0) {id : String} {self t0 : Int} {hist : List (Ev Dto)}
    {r : Run Dto Obj (Data Gen)} (hr : exec (dkgConf (kyb S (R.member i)) id self R.keys.length) (newRun Dto Obj (newData k0) t0) hist = .ok r)
    (hm : ∀ m ∈ msgs hist, Foreign i m) {sh : KeyShare} {q : List Int} (ho : .key sh q ∈ r.user.out) : Proper i R.T sh := by
  rw [newGen_able h] at h0
  cases h0
  obtain ⟨n, _, hj, _⟩ := held_exec (dkg_held h id self) (jst_new _ rfl) hm hr
  have hn : 8 ≤ n := by
    by_contra hn
    rw [hj.2.2 (by omega)] at ho
    cases ho
  rcases dkg_final hr with e | ⟨sh', q', e, _, hk, _⟩
  · rw [e] at ho; cases ho
  · rw [e, List.mem_singleton] at ho
    cases ho
    exact share_fits h (by omega) hj.1 hk

theorem head_ne {ls : List Nat} (h : (ls.map (timesAdd base)).headD null ≠ null) : ls.headD 0 % secp256k1N ≠ 0 := by
  cases ls with
  | nil => exact absurd rfl h
  | cons x ls =>
    intro e
    refine h ((log_base_nat x).unique_left ?_)
    have : ((x : Nat) : Fn) = 0 := (ZMod.natCast_eq_zero_iff _ _).2 (Nat.dvd_of_mod_eq_zero e)
    rw [this]
    exact log_null

/-- C118 (signatures). Let a member sign with a long-term share of its own. Whatever others send it, every signature that it puts out verifies for the
document under the public key that belongs to the share, if this is not zero. -/
theorem C118_signs (h2 : Able S R i) {k2 : Gen} (e2 : newGen S (R.member i) = .ok k2) {id2 : String} {self2 t2 : Int} {hist2 : List (Ev Dto)}
    {r2 : Run Dto Obj (Data Gen)} (H : List UInt8 → List UInt8) (hH : ∀ b, (H b).length = 32) (SH : Share → List UInt8) {env : Env}
    (hr2 : exec (dssConf (kyb S (R.member i)) H SH env id2 self2 R.keys.length) (newRun Dto Obj (newData k2) t2) hist2 = .ok r2)
    (hm2 : ∀ m ∈ msgs hist2, Foreign i m) {long : KeyShare} (hp : Proper i R.T long) {doc : Int} (hl : env.long = some long) (hdoc : env.doc = some doc)
    (hrange : 0 ≤ doc ∧ doc < 2 ^ 256) (hown : OwnIndex env i) (hthr : env.threshold = R.T) (hn : env.participants.length ≤ 2 ^ 63)
    (hkey : long.commits.headD null ≠ null) {sig : Schnorr.Sig} (hs : .sig sig ∈ r2.user.out) :
    Schnorr.verify H (.pt (long.commits.headD null)) doc sig = .ok () := by
  obtain ⟨_, ls, g1, g2, g3⟩ := hp
  have one : ∀ j, OwnIndex env j → j = i := by
    rintro j ⟨p, a1, a2⟩
    obtain ⟨p', b1, b2⟩ := hown
    rw [a1] at b1
    cases b1
    rw [a2] at b2
    exact Option.some.inj b2
  rw [newGen_able h2] at e2
  cases e2
  obtain ⟨n, _, hj, _⟩ := held_exec (dss_held h2 id2 self2) (jst_new _ rfl) hm2 hr2
  have h11 : 11 ≤ n := by
    by_contra hn
    exact hj.2.1 (by omega) sig hs
  refine C65_verifies_partial (kyb S (R.member i)) H hH SH env id2 self2 R.keys.length _ t2 hist2 r2 hr2 long doc hl hdoc hrange ls g1 ?_ ?_ hn ?_ ?_ sig hs
  · rw [g1] at hkey
    exact head_ne hkey
  · rw [g2, hthr]
  · intro j hj'
    rw [one j hj']
    exact g3
  · intro random hk
    obtain ⟨_, rs, f1, f2, f3⟩ := share_fits h2 (n := n) (by omega) hj.1 hk
    have := h2.low
    refine ⟨rs, fun e => ?_, f1, by rw [f2, hthr], fun j hj' => ?_⟩
    · rw [e] at f2
      exact absurd f2 (by simp only [List.length_nil]; omega)
    · rw [one j hj']
      exact f3

/-- C118 (both). Let a member have put out its long-term share in a key generation, and let it sign with it, with other random numbers. Whatever
others sent it in either run, every signature that it puts out verifies for the document under the public key it had got, if this is not zero. -/
theorem C118_verifies {R0 : Choice} (h1 : Able S R0 i) {k1 : Gen} (e1 : newGen S (R0.member i) = .ok k1) {id1 : String} {self1 t1 : Int}
    {hist1 : List (Ev Dto)} {r1 : Run Dto Obj (Data Gen)}
    (hr1 : exec (dkgConf (kyb S (R0.member i)) id1 self1 R0.keys.length) (newRun Dto Obj (newData k1) t1) hist1 = .ok r1)
    (hm1 : ∀ m ∈ msgs hist1, Foreign i m) {long : KeyShare} {q : List Int} (ho : .key long q ∈ r1.user.out)
    (h2 : Able S R i) {k2 : Gen} (e2 : newGen S (R.member i) = .ok k2) (hT : R0.T = R.T) {id2 : String} {self2 t2 : Int} {hist2 : List (Ev Dto)}
    {r2 : Run Dto Obj (Data Gen)} (H : List UInt8 → List UInt8) (hH : ∀ b, (H b).length = 32) (SH : Share → List UInt8) {env : Env}
    (hr2 : exec (dssConf (kyb S (R.member i)) H SH env id2 self2 R.keys.length) (newRun Dto Obj (newData k2) t2) hist2 = .ok r2)
    (hm2 : ∀ m ∈ msgs hist2, Foreign i m) {doc : Int} (hl : env.long = some long) (hdoc : env.doc = some doc) (hrange : 0 ≤ doc ∧ doc < 2 ^ 256)
    (hown : OwnIndex env i) (hthr : env.threshold = R.T) (hn : env.participants.length ≤ 2 ^ 63) (hkey : long.commits.headD null ≠ null)
    {sig : Schnorr.Sig} (hs : .sig sig ∈ r2.user.out) : Schnorr.verify H (.pt (long.commits.headD null)) doc sig = .ok () :=
  C118_signs h2 e2 H hH SH hr2 hm2 (hT ▸ C118_share h1 e1 hr1 hm1 ho) hl hdoc hrange hown hthr hn hkey hs

end Verif.Props.RabinRun
