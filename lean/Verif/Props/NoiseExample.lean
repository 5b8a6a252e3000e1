import Verif.Props.Noise
import Verif.Props.GenerationExample

/-! C106 is not vacuous: a run of `Verif.Props.GenerationExample` among forged messages. -/
namespace Verif.Props.Noise
open Verif.Prot Verif.Spec.Prot Verif.Spec.Noise Verif.Dkg Verif.Dto Verif.Dss Verif.Spec.Generation
open Verif.Props.Generation

/-- A message of no known type, the deal of member 1 from member 2, and a response from no member. -/
def forged : List (Message Dto) :=
  [⟨1, 0, 0, "run", 1, .other⟩, ⟨2, 0, 0, "run", 1, dtoOf .deal dealToDto ((toyNet [0, 1, 2] [11, 13]).deal 1 0)⟩,
   ⟨7, 0, 0, "run", 2, .response ((toyNet [0, 1, 2] [11, 13]).resp 1 7)⟩]

/-- They come in between the messages of the first stage. -/
def noisy : List (Ev Dto) := (toyHist [0, 1, 2] 0).take 8 ++ forged.map .msg ++ (toyHist [0, 1, 2] 0).drop 8

/-- The run of member 0. -/
def noisyRun : Outcome (Run Dto Obj (Data Toy)) := exec (toyConf [0, 1, 2] 0) (newRun Dto Obj (newData toy0) 0) noisy

/-- It gets to its share, and `_process_msg` was called with all that was forged. -/
def noisyCheck : Bool :=
  (match noisyRun with
    | .ok r => decide (r.user.out = [.key ((toyNet [0, 1, 2] [11, 13]).key 0) [0, 1, 2]]) && forged.all fun m => r.log.any fun e => match e with
      | .handled x => decide (x = m)
      | _ => false
    | _ => false) &&
  match dtoOf .deal dealToDto ((toyNet [0, 1, 2] [11, 13]).deal 1 0) with
  | .deal x => (match dtoToDeal x with
    | .ok o => decide (o.index ≠ 2)
    | _ => false)
  | _ => false

theorem noisyCheck_ok : noisyCheck = true := by decide +kernel

theorem noisyRun_eq : noisyRun = exec (toyConf [0, 1, 2] 0) (newRun Dto Obj (newData toy0) 0) noisy := rfl

attribute [local irreducible] noisyRun noisy toyConf

theorem deal_index {n : Nat} {m : Message Dto} (h : Plausible n m) {x : DealDTO} (hx : m.dto = .deal x) :
    ∃ o, dtoToDeal x = .ok o ∧ o.index = m.sender % 2 ^ 32 := by
  cases h <;> cases hx
  rename_i s _ _ _ o _ h2 h1
  exact ⟨o, h1, by rw [h2]; rfl⟩

theorem plausible_sender {n : Nat} {m : Message Dto} (h : Plausible n m) : m.sender < n := by
  cases h <;> exact Int.ofNat_lt.2 ‹_›

/-- What was forged is not plausible; it was handled, and the share is the one that the run gets without it. -/
example : ∃ r r', exec (toyConf [0, 1, 2] 0) (newRun Dto Obj (newData toy0) 0) noisy = .ok r ∧ (∀ m ∈ forged, ¬ Plausible 3 m ∧ .handled m ∈ r.log) ∧
    exec (toyConf [0, 1, 2] 0) (newRun Dto Obj (newData toy0) 0) (without (fun m => ¬ Plausible 3 m) noisy) = .ok r' ∧
    r'.user.out = [.key ((toyNet [0, 1, 2] [11, 13]).key 0) [0, 1, 2]] := by
  have h := noisyCheck_ok
  rw [noisyCheck, Bool.and_eq_true] at h
  obtain ⟨h1, h2⟩ := h
  cases hr : noisyRun with
  | panic => rw [hr] at h1; cases h1
  | err => rw [hr] at h1; cases h1
  | ok r =>
    rw [hr] at h1
    dsimp only at h1
    rw [Bool.and_eq_true] at h1
    have hx := noisyRun_eq.symm.trans hr
    obtain ⟨r', h3, h4, _⟩ := C106_noise (toyKyb [0, 1, 2] [11, 13] 3 0) (toyConf [0, 1, 2] 0) "run" 0 3 (.inl (by unfold toyConf; rfl)) toy0 0 noisy r hx
    refine ⟨r, r', hx, fun m hm => ⟨?_, ?_⟩, h3, h4.trans (of_decide_eq_true h1.1)⟩
    · simp only [forged, List.mem_cons, List.not_mem_nil, or_false] at hm
      rcases hm with rfl | rfl | rfl
      · exact Generation.other_implausible rfl
      · intro hp
        cases hd : dtoOf .deal dealToDto ((toyNet [0, 1, 2] [11, 13]).deal 1 0) with
        | deal x =>
          rw [hd] at h2
          obtain ⟨o, ho, e⟩ := deal_index hp hd
          dsimp only at h2
          rw [ho] at h2
          have h2 := of_decide_eq_true h2
          have e : (o.index : Int) = 2 := e
          omega
        | _ => rw [hd] at h2; cases h2
      · intro hp
        exact absurd (plausible_sender hp) (by decide)
    · have := List.all_eq_true.1 h1.2 m hm
      obtain ⟨e, he, h5⟩ := List.any_eq_true.1 this
      cases e with
      | handled x => rw [← of_decide_eq_true h5]; exact he
      | _ => cases h5

end Verif.Props.Noise
