import Verif.Spec.Prot

/-! What is said about messages that fail the checks. -/
namespace Verif.Spec.Noise
open Verif.Prot
variable {D A U : Type}

/-- The history without the arrival of these messages. -/
noncomputable def without (junk : Message D → Prop) (h : List (Ev D)) : List (Ev D) :=
  open Classical in h.filter fun e => match e with
    | .msg m => decide (¬ junk m)
    | _ => true

/-- What a run has done, except that it got these messages. -/
noncomputable def deeds (junk : Message D → Prop) (l : List (Entry D A)) : List (Entry D A) :=
  open Classical in l.filter fun e => match e with
    | .received m => decide (¬ junk m)
    | .handled m => decide (¬ junk m)
    | _ => true

end Verif.Spec.Noise
