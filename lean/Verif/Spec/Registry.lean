import Verif.Model.Registry

/-! What the log of a registry says by itself. -/
namespace Verif.Spec.Registry
open Verif.Registry

/-- What one entry does to the run that exists for `k`. -/
def liveStep (k : RunKey) (o : Option Nat) : Entry → Option Nat
  | .created k' r => if k' = k then some r else o
  | .deleted k' => if k' = k then none else o
  | .started _ => o

/-- The run that exists for `k` according to a log: the last one created, unless it was deleted since. -/
def live (k : RunKey) (l : List Entry) : Option Nat := l.foldl (liveStep k) none

/-- The runs created, in order, with their keys. -/
def creations (l : List Entry) : List (RunKey × Nat) :=
  l.filterMap fun e => match e with
    | .created k r => some (k, r)
    | _ => none

/-- What a task has still to do with channel `c`, made for run `k`. -/
def Concerns (k : RunKey) (c : Nat) : Task → Prop
  | .look _ c' => c' = c
  | .read _ c' _ => c' = c
  | .update k' => k' = k
  | .notify cs => c ∈ cs
  | .closing c' cs => c' = c ∨ c ∈ cs
  | .start _ => False

theorem live_snoc (k : RunKey) (l : List Entry) (e : Entry) : live k (l ++ [e]) = liveStep k (live k l) e := by
  rw [live, List.foldl_append]; rfl

theorem creations_snoc (l : List Entry) (e : Entry) :
    creations (l ++ [e]) = creations l ++ match e with | .created k r => [(k, r)] | _ => [] := by
  rw [creations, List.filterMap_append]
  cases e <;> rfl

/-- After a creation and without a deletion, the run exists. -/
theorem live_of_created (k : RunKey) (r : Nat) (l1 l2 : List Entry) (hd : Entry.deleted k ∉ l2) :
    live k (l1 ++ .created k r :: l2) ≠ none := by
  have key : ∀ (l : List Entry) (o : Option Nat), o ≠ none → Entry.deleted k ∉ l → l.foldl (liveStep k) o ≠ none := by
    intro l
    induction l with
    | nil => intro o ho _; exact ho
    | cons e l ih =>
      intro o ho hd
      rw [List.mem_cons, not_or] at hd
      rw [List.foldl_cons]
      refine ih _ ?_ hd.2
      cases e with
      | created k' r' => rw [liveStep]; by_cases h : k' = k <;> simp [h, ho]
      | deleted k' =>
        rw [liveStep, if_neg]
        · exact ho
        · rintro rfl; exact hd.1 rfl
      | started r' => exact ho
  rw [live, List.foldl_append, List.foldl_cons]
  exact key l2 _ (by rw [liveStep, if_pos rfl]; simp) hd

end Verif.Spec.Registry
