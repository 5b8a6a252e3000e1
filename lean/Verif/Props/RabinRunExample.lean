import Verif.Props.RabinRun
import Verif.Props.RabinExample
import Verif.Props.SigningExample

/-! The hypotheses of C118 can be met: member 0 of three generates a key with member 2 and signs document 9 with it. -/
namespace Verif.Props.RabinRun
open Verif.Rabin Verif.Prot Verif.Spec.Prot Verif.Point Verif.Props Verif.Dkg Verif.Dto Verif.Dss Verif.Spec.Rabin Verif.Props.Rabin Verif.Spec.Generation

/-- Who does its part in C116 is able to. -/
theorem able {S : Suite} {R : Choice} {P : List Nat} (h : Spec.Rabin.Honest S R P) {i : Nat} (hi : i ∈ P) : Able S R i where
  mem := h.mem i hi
  low := h.low
  high := by
    have h1 : P.length ≤ R.keys.length := by
      have : P.Subperm (List.range R.keys.length) := h.once.subperm fun a ha => List.mem_range.2 (h.mem a ha)
      simpa using this.length_le
    exact h.high.trans h1
  few := h.few
  key := h.key i hi
  polys := h.polys i hi
  second := h.second
  encrypt := h.encrypt i hi i hi
  iter := h.iter i hi

theorem ex_able {i : Nat} (hi : i ∈ [2, 0]) : Able (exS true) exR i := able (ex_honest (by decide) (by decide) (by decide) (.inl rfl)) hi

/-- The environment of member `i`, with its share of the key. -/
def exEnvOf (i : Nat) : Env := ⟨exLong.getD i 0, exR.keys, 2, some ((net (exS true) exR [2, 0]).key i), some 9, 17⟩

/-- The run of the signing of member `i` after a history. -/
def signOf (i : Nat) (h : List (Ev Dto)) : Outcome (Run Dto Obj (Data Gen)) :=
  exec (dssConf (kyb (exS true) (exR.member i)) toyHash exSH (exEnvOf i) "run" i 3) (newRun Dto Obj (newData (first (exS true) exR i)) 0) h

/-- The partial signature that member 2 sends to member 0. -/
def partOf2 : List (Message Dto) :=
  match signOf 2 (exTo [2, 0] 2 10) with
  | .ok r => (sentOf 10 r.log).filter fun m => decide (m.rcpt = 0)
  | _ => []

/-- What happens at member 0. Somebody else sends it nonsense too, and a false response in the name of member 1. -/
def signHist : List (Ev Dto) :=
  [.msg ⟨2, 1, 0, "run", 10, .other⟩, .msg ⟨1, 1, 0, "run", 2, .response ⟨2, some ⟨[], 1, false, []⟩⟩⟩] ++ partOf2.map .msg ++ exTo [2, 0] 0 11 ++ [.tick 20000, .thread]

/-- Member 0 signs, and nothing came from itself. -/
def signCheck : Bool :=
  ((msgs signHist).all fun m => decide (0 ≤ m.op) && decide (m.sender ≠ 0)) &&
  match signOf 0 signHist with
  | .ok r => r.user.out.any fun o => match o with | .sig _ => true | _ => false
  | _ => false

theorem signCheck_ok : signCheck = true := by decide +kernel

/-- The key generation of member 0 puts out its share, and nothing came from itself. -/
def keyCheck : Bool :=
  ((msgs (exHist [2, 0] 0)).all fun m => decide (0 ≤ m.op) && decide (m.sender ≠ 0)) &&
  match Rabin.exRun [2, 0] 0 with
  | .ok r => r.user.out.any fun o => match o with | .key sh _ => decide (sh = (net (exS true) exR [2, 0]).key 0) | _ => false
  | _ => false

theorem keyCheck_ok : keyCheck = true := by decide +kernel

theorem key_facts : (∀ m ∈ msgs (exHist [2, 0] 0), 0 ≤ m.op ∧ m.sender ≠ (0 : Nat)) ∧ ∃ r q, Rabin.exRun [2, 0] 0 = .ok r ∧
    .key ((net (exS true) exR [2, 0]).key 0) q ∈ r.user.out := by
  have h := keyCheck_ok
  rw [keyCheck, Bool.and_eq_true] at h
  obtain ⟨h1, h2⟩ := h
  refine ⟨fun m hm => ?_, ?_⟩
  · have := List.all_eq_true.1 h1 m hm
    rw [Bool.and_eq_true] at this
    exact ⟨of_decide_eq_true this.1, of_decide_eq_true this.2⟩
  · cases hr : Rabin.exRun [2, 0] 0 with
    | panic => rw [hr] at h2; cases h2
    | err => rw [hr] at h2; cases h2
    | ok r =>
      rw [hr] at h2
      obtain ⟨o, ho, h3⟩ := List.any_eq_true.1 h2
      cases o with
      | sig _ => cases h3
      | key sh q =>
        have : sh = (net (exS true) exR [2, 0]).key 0 := of_decide_eq_true h3
        subst this
        exact ⟨r, q, rfl, ho⟩

theorem sign_facts : (∀ m ∈ msgs signHist, 0 ≤ m.op ∧ m.sender ≠ (0 : Nat)) ∧ ∃ r sig, signOf 0 signHist = .ok r ∧ .sig sig ∈ r.user.out := by
  have h := signCheck_ok
  rw [signCheck, Bool.and_eq_true] at h
  obtain ⟨h1, h2⟩ := h
  refine ⟨fun m hm => ?_, ?_⟩
  · have := List.all_eq_true.1 h1 m hm
    rw [Bool.and_eq_true] at this
    exact ⟨of_decide_eq_true this.1, of_decide_eq_true this.2⟩
  · cases hr : signOf 0 signHist with
    | panic => rw [hr] at h2; cases h2
    | err => rw [hr] at h2; cases h2
    | ok r =>
      rw [hr] at h2
      obtain ⟨o, ho, h3⟩ := List.any_eq_true.1 h2
      cases o with
      | key _ _ => cases h3
      | sig sig => exact ⟨r, sig, rfl, ho⟩

theorem own0 : OwnIndex (exEnvOf 0) 0 := ⟨timesAdd base 5, by decide +kernel, by decide +kernel⟩

theorem key0 : ((net (exS true) exR [2, 0]).key 0).commits.headD null ≠ null := by decide +kernel

attribute [local irreducible] Rabin.exRun exHist signOf signHist

/-- Member 0 generates its share and signs, and the signature verifies. -/
example : ∃ r1 q r2 sig, Rabin.exRun [2, 0] 0 = .ok r1 ∧ .key ((net (exS true) exR [2, 0]).key 0) q ∈ r1.user.out ∧
    Proper 0 2 ((net (exS true) exR [2, 0]).key 0) ∧ signOf 0 signHist = .ok r2 ∧ .sig sig ∈ r2.user.out ∧
    Schnorr.verify toyHash (.pt (((net (exS true) exR [2, 0]).key 0).commits.headD null)) 9 sig = .ok () := by
  obtain ⟨a1, r1, q, a2, a3⟩ := key_facts
  obtain ⟨b1, r2, sig, b2, b3⟩ := sign_facts
  have hr1 := (exRun_eq [2, 0] 0).symm.trans a2
  have hr2 : exec (dssConf (kyb (exS true) (exR.member 0)) toyHash exSH (exEnvOf 0) "run" (0 : Nat) 3)
      (newRun Dto Obj (newData (first (exS true) exR 0)) 0) signHist = .ok r2 := by rw [← b2, signOf]
  exact ⟨r1, q, r2, sig, a2, a3, C118_share (ex_able (by decide)) (newGen_able (ex_able (by decide))) hr1 (fun m hm _ _ => (a1 m hm).2) a3, b2, b3,
    C118_verifies (ex_able (by decide)) (newGen_able (ex_able (by decide))) hr1 (fun m hm _ _ => (a1 m hm).2) a3
      (ex_able (by decide)) (newGen_able (ex_able (by decide))) rfl toyHash (fun b => by simp [toyHash]) exSH hr2 (fun m hm _ _ => (b1 m hm).2) rfl rfl (by decide) own0 rfl
      (by decide) key0 b3⟩

/-- A member that gets what nobody should send: a deal and a response that name no member. -/
example : exec (exConf 0) (newRun Dto Obj (newData (first (exS true) exR 0)) 0)
    [.tick 0, .thread, .msg ⟨1, 0, 0, "run", 2, .response ⟨7, some ⟨[], 9, false, []⟩⟩⟩, .thread, .tick 1000, .thread] ≠ .panic :=
  C118_calm_dkg (ex_able (by decide)) (newGen_able (ex_able (by decide))) "run" 0 0 _ fun m hm => by
    have : m = ⟨1, 0, 0, "run", 2, .response ⟨7, some ⟨[], 9, false, []⟩⟩⟩ := by simpa [msgs] using hm
    subst this
    exact ⟨by decide, fun _ h => (by cases h), by simp [Complete]⟩

/-- The same in the signing, with the share of the key. -/
example : signOf 0 [.tick 0, .thread, .msg ⟨1, 0, 0, "run", 2, .response ⟨7, some ⟨[], 9, false, []⟩⟩⟩, .thread, .tick 1000, .thread] ≠ .panic := by
  rw [signOf]
  refine C118_calm_dss (ex_able (by decide)) (newGen_able (ex_able (by decide))) toyHash exSH (exEnvOf 0)
    ⟨_, rfl, ⟨by decide, isElt_commits (total exR [2, 0])⟩, key0⟩ (fun h => by cases h) (by decide) "run" 0 0 _ fun m hm => ?_
  have : m = ⟨1, 0, 0, "run", 2, .response ⟨7, some ⟨[], 9, false, []⟩⟩⟩ := by simpa [msgs] using hm
  subst this
  exact ⟨by decide, fun _ h => (by cases h), by simp [Complete]⟩

end Verif.Props.RabinRun
