import Verif.Props.Heard
import Verif.Props.RabinRunExample

/-! The hypotheses of C125 can be met: member 0 of three generates a key with member 2, and signs with it; without the commitments of member 2 neither of it is done. -/
namespace Verif.Props.Heard
open Verif.Rabin Verif.Prot Verif.Spec.Prot Verif.Point Verif.Props Verif.Dkg Verif.Dto Verif.Dss Verif.Spec.Rabin Verif.Props.Rabin Verif.Spec.Generation Verif.Props.RabinRun

/-- Commitments of member 2. -/
def fromTwo : Ev Dto → Bool
  | .msg m => decide (m.sender = 2) && (match m.dto with | .commits _ => true | _ => false)
  | _ => false

/-- What happens without the commitments of member 2. -/
def silent (h : List (Ev Dto)) : List (Ev Dto) := h.filter fun e => !fromTwo e

theorem mem_msgs {h : List (Ev Dto)} {x : Message Dto} (hx : x ∈ msgs h) : .msg x ∈ h := by
  induction h with
  | nil => cases hx
  | cons e h ih =>
    cases e with
    | msg m =>
      rcases List.mem_cons.1 hx with rfl | hx
      · exact List.mem_cons_self
      · exact List.mem_cons_of_mem _ (ih hx)
    | _ => exact List.mem_cons_of_mem _ (ih hx)

theorem silent_spec (h : List (Ev Dto)) : ∀ x ∈ msgs (silent h), x.sender = (2 : Nat) → ∀ y, x.dto ≠ .commits y := by
  intro x hx hs y hy
  have := (List.mem_filter.1 (mem_msgs hx)).2
  simp [fromTwo, hs, hy] at this

/-- Whether a message is `Plain`, for member 0. -/
def plain (x : Message Dto) : Bool := match x.dto with
  | .response y => decide (y.index ≠ 0) || (match y.response with | some w => w.approved | none => true)
  | .justification _ => false | .complCommits _ => false | .reconsCommits _ => false | _ => true

theorem plain_spec {x : Message Dto} (h : plain x = true) : Plain 0 x := by
  refine ⟨fun y e hy w hw => ?_, fun y e => ?_, fun y e => ?_, fun y e => ?_⟩
  · simpa [plain, e, hy, hw] using h
  all_goals simp [plain, e] at h

theorem plain_key : (msgs (exHist [2, 0] 0)).all plain = true := by decide +kernel
theorem plain_sig : (msgs signHist).all plain = true := by decide +kernel

theorem msgs_mem {h : List (Ev Dto)} {x : Message Dto} (hx : .msg x ∈ h) : x ∈ msgs h := by
  induction h with
  | nil => cases hx
  | cons e h ih =>
    rcases List.mem_cons.1 hx with rfl | hx'
    · exact List.mem_cons_self
    · cases e with
      | msg m => exact List.mem_cons_of_mem _ (ih hx')
      | _ => exact ih hx'

theorem plain_all {h : List (Ev Dto)} (hp : (msgs h).all plain = true) : ∀ x ∈ msgs h, Plain 0 x := fun x hx => plain_spec (List.all_eq_true.1 hp x hx)

theorem plain_silent {h : List (Ev Dto)} (hp : (msgs h).all plain = true) : ∀ x ∈ msgs (silent h), Plain 0 x := fun x hx =>
  plain_all hp x (msgs_mem (List.mem_filter.1 (mem_msgs hx)).1)

/-- Members 0 and 2 are qualified, and there is just one event less. -/
def vetoCheck (run : List (Ev Dto) → Outcome (Run Dto Obj (Data Gen))) (h : List (Ev Dto)) : Bool :=
  decide ((silent h).length + 1 = h.length) &&
  match run (silent h) with
  | .ok r => decide (r.user.qual = some [2, 0])
  | _ => false

/-- The run of the key generation of member 0. -/
def keyRun (h : List (Ev Dto)) : Outcome (Run Dto Obj (Data Gen)) := exec (exConf 0) (newRun Dto Obj (newData (first (exS true) exR 0)) 0) h

theorem vetoCheck_key : vetoCheck keyRun (exHist [2, 0] 0) = true := by decide +kernel
theorem vetoCheck_sig : vetoCheck (signOf 0) signHist = true := by decide +kernel

theorem vetoCheck_spec {run : List (Ev Dto) → Outcome (Run Dto Obj (Data Gen))} {h : List (Ev Dto)} (hc : vetoCheck run h = true) :
    (silent h).length + 1 = h.length ∧ ∃ r, run (silent h) = .ok r ∧ r.user.qual = some [2, 0] := by
  rw [vetoCheck, Bool.and_eq_true] at hc
  refine ⟨of_decide_eq_true hc.1, ?_⟩
  have hc := hc.2
  cases hr : run (silent h) with
  | panic => rw [hr] at hc; cases hc
  | err => rw [hr] at hc; cases hc
  | ok r => rw [hr] at hc; exact ⟨r, rfl, of_decide_eq_true hc⟩

attribute [local irreducible] Rabin.exRun exHist signOf signHist keyRun silent

/-- Member 0 generates a key with member 2, whose commitments it has got. -/
example : ∃ (r : Run Dto Obj (Data Gen)) (q : List Int) (cs : Nat → List Pt), Rabin.exRun [2, 0] 0 = .ok r ∧ .key ((net (exS true) exR [2, 0]).key 0) q ∈ r.user.out ∧ (0 : Int) ∈ q ∧
    (∀ j ∈ q, ∃ b : Nat, j = b ∧ (b = 0 ∨ Heard (msgs (exHist [2, 0] 0)) b (cs b))) ∧
    ((net (exS true) exR [2, 0]).key 0).commits.headD null = sumPts (q.map fun j => (cs j.toNat).headD null) := by
  obtain ⟨a1, r, q, a2, a3⟩ := key_facts
  obtain ⟨b1, cs, _, b2, b3⟩ := C125_key (ex_able (by decide)) (newGen_able (ex_able (by decide))) ((exRun_eq [2, 0] 0).symm.trans a2) (fun m hm _ _ => (a1 m hm).2) (plain_all plain_key) a3
  exact ⟨r, q, cs, a2, a3, b1, b2, b3⟩

/-- C125 (witness). Member 0 generates a key with member 2; with the same events except for the commitments of member 2, which is qualified all the same, it puts out nothing. -/
theorem C125_counterexample_key : (∃ r q, Rabin.exRun [2, 0] 0 = .ok r ∧ .key ((net (exS true) exR [2, 0]).key 0) q ∈ r.user.out) ∧
    (silent (exHist [2, 0] 0)).length + 1 = (exHist [2, 0] 0).length ∧ ∃ r, keyRun (silent (exHist [2, 0] 0)) = .ok r ∧ r.user.qual = some [2, 0] ∧ r.user.out = [] := by
  obtain ⟨h1, r, h2, h3⟩ := vetoCheck_spec vetoCheck_key
  refine ⟨key_facts.2, h1, r, h2, h3, ?_⟩
  rw [keyRun, exConf] at h2
  exact C125_veto_key (newGen_able (ex_able (i := 0) (by decide))) (by decide) h2 h3 (j := 2) (by decide) (by decide) (silent_spec _) (plain_silent plain_key)

/-- C125 (witness). The same of the signing. -/
theorem C125_counterexample_sig : (∃ r sig, signOf 0 signHist = .ok r ∧ .sig sig ∈ r.user.out) ∧
    (silent signHist).length + 1 = signHist.length ∧ ∃ r, signOf 0 (silent signHist) = .ok r ∧ r.user.qual = some [2, 0] ∧ ∀ sig, .sig sig ∉ r.user.out := by
  obtain ⟨h1, r, h2, h3⟩ := vetoCheck_spec vetoCheck_sig
  refine ⟨sign_facts.2, h1, r, h2, h3, ?_⟩
  rw [signOf] at h2
  exact C125_veto_sig (newGen_able (ex_able (i := 0) (by decide))) (by decide) h2 h3 (j := 2) (by decide) (by decide) (silent_spec _) (plain_silent plain_sig)

end Verif.Props.Heard
