import Verif.Model.Locks
import Mathlib.Logic.Function.Basic

/-!
What mutexes do, and what is asked of a program that uses them. A goroutine has the mutexes that it holds and what it still has to do. In
one step one goroutine goes on: taking a mutex is possible only if no goroutine holds it, giving one back only for the goroutine that
holds it. Goroutines may start at any time, and any number of each.
-/
namespace Verif.Locks

/-- A goroutine. -/
structure Thr where
  held : List Lock
  code : List Code

/-- All goroutines, by number. Those that have not been started, or have ended, have nothing to do. -/
abbrev Sys := Nat → Thr

/-- Nobody holds the mutex. -/
def Free (s : Sys) (l : Lock) : Prop := ∀ i, l ∉ (s i).held

/-- The steps that a goroutine can take without waiting for the world outside of the mutexes. -/
inductive Moves (s : Sys) (i : Nat) : Sys → Prop
  | acq {l k} (h : (s i).code = .act (.acq l) :: k) (free : Free s l) : Moves s i (Function.update s i ⟨l :: (s i).held, k⟩)
  | rel {l k} (h : (s i).code = .act (.rel l) :: k) (own : l ∈ (s i).held) : Moves s i (Function.update s i ⟨(s i).held.erase l, k⟩)
  | acc {w v k} (h : (s i).code = .act (.acc w v) :: k) : Moves s i (Function.update s i ⟨(s i).held, k⟩)
  | go {k} (h : (s i).code = .act .go :: k) : Moves s i (Function.update s i ⟨(s i).held, k⟩)
  | skip {k} (h : (s i).code = .skip :: k) : Moves s i (Function.update s i ⟨(s i).held, k⟩)
  | seq {a b k} (h : (s i).code = .seq a b :: k) : Moves s i (Function.update s i ⟨(s i).held, a :: b :: k⟩)
  | left {a b k} (h : (s i).code = .alt a b :: k) : Moves s i (Function.update s i ⟨(s i).held, a :: k⟩)
  | right {a b k} (h : (s i).code = .alt a b :: k) : Moves s i (Function.update s i ⟨(s i).held, b :: k⟩)
  | leave {a k} (h : (s i).code = .loop a :: k) : Moves s i (Function.update s i ⟨(s i).held, k⟩)
  | again {a k} (h : (s i).code = .loop a :: k) : Moves s i (Function.update s i ⟨(s i).held, a :: .loop a :: k⟩)
  | pick {f k} (n : Nat) (h : (s i).code = .any f :: k) : Moves s i (Function.update s i ⟨(s i).held, f n :: k⟩)

/-- What the program comes to. -/
inductive Reach : Sys → Prop
  | init : Reach fun _ => ⟨[], []⟩
  | start {s} (i : Nat) (t : Thread) (h : Reach s) (idle : (s i).code = []) : Reach (Function.update s i ⟨(s i).held, [t.code]⟩)
  | move {s s'} (i : Nat) (h : Reach s) (m : Moves s i s') : Reach s'
  | wait {s k} (i : Nat) (h : Reach s) (w : (s i).code = .act .wait :: k) : Reach (Function.update s i ⟨(s i).held, k⟩)

/-- Steps one after the other, none of which waits for the world outside of the mutexes and none of which starts a goroutine. -/
inductive Run : Sys → Sys → Prop
  | nil {s} : Run s s
  | cons {s s' s''} (i : Nat) (m : Moves s i s') (r : Run s' s'') : Run s s''

/-- Two goroutines are about to access the same data, and one of them to write it. -/
def Race (s : Sys) (v : Var) : Prop :=
  ∃ i j w w' k k', i ≠ j ∧ (w = true ∨ w' = true) ∧ (s i).code = .act (.acc w v) :: k ∧ (s j).code = .act (.acc w' v) :: k'

end Verif.Locks
