/-!
Shared vocabulary of the model: outcomes of Go calls.
-/
namespace Verif

/-- Outcome of a Go call: a value, a returned error, or a panic. -/
inductive Outcome (α : Type) where
  | ok (a : α)
  | err
  | panic
  deriving DecidableEq, Repr

namespace Outcome
/-- Sequencing: an error is returned to the caller at once, a panic unwinds. -/
def bind {α β : Type} (x : Outcome α) (f : α → Outcome β) : Outcome β :=
  match x with
  | ok a => f a
  | err => err
  | panic => panic

/-- A nil result turned into an error return. -/
def ofOption {α : Type} : Option α → Outcome α
  | none => err
  | some a => ok a

/-- Calls whose error or panic makes the caller panic. -/
def orPanic {α : Type} : Outcome α → Outcome α
  | ok a => ok a
  | _ => panic

/-- `if !b { return error }`. -/
def require (b : Bool) : Outcome Unit := if b then ok () else err

@[simp] theorem require_true : require true = ok () := rfl
@[simp] theorem require_false : require false = err := rfl
theorem require_eq_ok (b : Bool) (u : Unit) : require b = ok u ↔ b = true := by cases b <;> simp [require]

/-- The call returned without error. -/
def isOk {α : Type} : Outcome α → Bool
  | ok _ => true
  | _ => false

theorem isOk_iff {α : Type} (x : Outcome α) : x.isOk = true ↔ ∃ a, x = ok a := by
  cases x <;> simp [isOk]

@[simp] theorem ofOption_none {α : Type} : (ofOption (none : Option α)) = err := rfl
@[simp] theorem ofOption_some {α : Type} (a : α) : ofOption (some a) = ok a := rfl
@[simp] theorem orPanic_ok {α : Type} (a : α) : orPanic (ok a) = ok a := rfl
@[simp] theorem orPanic_err {α : Type} : (orPanic (err : Outcome α)) = panic := rfl
@[simp] theorem orPanic_panic {α : Type} : (orPanic (panic : Outcome α)) = panic := rfl

instance : Monad Outcome where
  pure := ok
  bind := bind

@[simp] theorem bind_ok {α β : Type} (a : α) (f : α → Outcome β) : (ok a >>= f) = f a := rfl
@[simp] theorem bind_err {α β : Type} (f : α → Outcome β) : (err >>= f) = err := rfl
@[simp] theorem bind_panic {α β : Type} (f : α → Outcome β) : (panic >>= f) = panic := rfl
@[simp] theorem pure_eq {α : Type} (a : α) : (pure a : Outcome α) = ok a := rfl

theorem bind_eq_ok {α β : Type} (x : Outcome α) (f : α → Outcome β) (b : β) :
    (x >>= f) = ok b ↔ ∃ a, x = ok a ∧ f a = ok b := by
  cases x <;> simp

theorem bind_ne_panic {α β : Type} (x : Outcome α) (f : α → Outcome β) :
    (x >>= f) ≠ panic ↔ x ≠ panic ∧ ∀ a, x = ok a → f a ≠ panic := by
  cases x <;> simp

theorem ofOption_eq_ok {α : Type} (x : Option α) (a : α) : ofOption x = ok a ↔ x = some a := by
  cases x <;> simp

theorem ofOption_ne_panic {α : Type} (x : Option α) : ofOption x ≠ panic := by
  cases x <;> simp
end Outcome

end Verif
