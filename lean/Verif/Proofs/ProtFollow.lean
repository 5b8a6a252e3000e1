import Verif.Proofs.ProtTrail

/-! What holds of the data of a run in each stage, given the messages handled so far. -/
namespace Verif.Prot
open Verif.Spec.Prot
variable {D A U : Type}

/-- `J n ms` holds of the data in stage `n` after the messages `ms` were handled, and giving up is possible only in the cases
`G`. -/
structure Follow (c : Conf D A U) (J : Int → List (Message D) → U → Prop) (G : Int → List (Message D) → Prop) : Prop where
  skip : ∀ n s ms u, c.stage? n = some s → s.step = none → J (n - 1) ms u → J n ms u
  step : ∀ n s f ms u u' as, c.stage? n = some s → s.step = some f → J (n - 1) ms u → f u = .ok (u', as) →
    (Act.abandon ∉ as → J n ms u') ∧ (Act.abandon ∈ as → G n ms)
  reject : ∀ m ms u, J m.op ms u → (¬ ∃ a, Accepts c m a) → J m.op (ms ++ [m]) u
  proc : ∀ s f m a ms u u' as, c.stage? m.op = some s → s.proc = some f → Accepts c m a → J m.op ms u → f u a = .ok (u', as) →
    (Act.abandon ∉ as → J m.op (ms ++ [m]) u') ∧ (Act.abandon ∈ as → G m.op (ms ++ [m]))

/-- The property of runs. -/
structure Followed (J : Int → List (Message D) → U → Prop) (G : Int → List (Message D) → Prop) (r : Run D A U) : Prop where
  stage : stageOf r.log = r.state
  data : r.abandon = false → J r.state (handledAll r.log) r.user
  gave : r.abandon = true → ∃ l1 l2, r.log = l1 ++ .abandoned :: l2 ∧ Entry.abandoned ∉ l1 ∧
    G (stageOf l1) (handledAll l1)

/-- Follows the data of a run through its stages. -/
theorem follow_exec {c : Conf D A U} {J : Int → List (Message D) → U → Prop} {G : Int → List (Message D) → Prop} (k : Follow c J G)
    {u : U} (hu : J (-1) [] u) {t0 : Int} {h : List (Ev D)} {r : Run D A U} (hr : exec c (newRun D A u t0) h = .ok r) :
    Followed J G r := by
  have f := trail_exec (J := fun n ms _ u => J n ms u) (G := fun n ms _ => G n ms)
    ⟨fun n s ms _ u => k.skip n s ms u, fun n s f ms _ u u' as => k.step n s f ms u u' as, fun m ms _ u => k.reject m ms u,
      fun s f m a ms _ u u' as => k.proc s f m a ms u u' as⟩ hu hr
  exact ⟨f.stage, f.data, f.gave⟩

end Verif.Prot
