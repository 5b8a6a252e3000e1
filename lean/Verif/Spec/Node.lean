import Verif.Model.Node

/-! What a history of node events says by itself. -/
namespace Verif.Spec.Node
open Verif.Node
variable {D : Type}

/-- The runs for which runners were started, in order. -/
def launched : List (Ev D) → List RunKey
  | [] => []
  | .launch k _ :: h => k :: launched h
  | _ :: h => launched h

theorem launched_append (h g : List (Ev D)) : launched (h ++ g) = launched h ++ launched g := by
  induction h with
  | nil => rfl
  | cons x h ih => cases x <;> simp [launched, ih]

end Verif.Spec.Node
