import Verif.Model.ScalarHeap
import Verif.Props.Scalar

/-!
Property C69 (and the program form of C01/C02): scalar method calls with arbitrary aliasing refine register
machines over the field Z/nZ.
-/
namespace Verif.Props
open Verif.Scalar Verif.ScalarHeap

/-- Specification: the same calls on variables holding elements of Z/nZ. Only the receiver is assigned, with
the field operation on the old operand values; `none` is division by zero. -/
def specCall (v : Ptr → Fn) : Call → Option (Ptr → Fn)
  | .set s a => some fun p => if p = s then v a else v p
  | .setInt64 s k => some fun p => if p = s then (k : Fn) else v p
  | .setBytes s b => some fun p => if p = s then ((beNat b : Nat) : Fn) else v p
  | .add s a b => some fun p => if p = s then v a + v b else v p
  | .sub s a b => some fun p => if p = s then v a - v b else v p
  | .neg s a => some fun p => if p = s then - v a else v p
  | .mul s a b => some fun p => if p = s then v a * v b else v p
  | .div s a b => if v b = 0 then none else some fun p => if p = s then v a / v b else v p
  | .inv s a => if v a = 0 then none else some fun p => if p = s then (v a)⁻¹ else v p
  | .marshal _ => some v
  | .unmarshal s b => some fun p => if p = s ∧ b.length = 32 then ((beNat b : Nat) : Fn) else v p

/-- Specification of a program. -/
def specRun : (Ptr → Fn) → List Call → Option (Ptr → Fn)
  | v, [] => some v
  | v, c :: cs => (specCall v c).bind fun v' => specRun v' cs

/-- Every scalar in the heap is reduced. -/
def Canonical (h : Heap) : Prop := ∀ p, 0 ≤ h p ∧ h p < GroupOrder

/-- The field elements held by the heap. -/
def values (h : Heap) : Ptr → Fn := fun p => (h p : Fn)

theorem store_modG (h : Heap) (s : Ptr) (w : Int) :
    modGAt (store h s w) s = store h s (modG w) := by
  funext p
  by_cases hp : p = s
  · subst hp; simp [modGAt, store, modG]
  · simp [modGAt, store, hp]

theorem canonical_store {h : Heap} (hc : Canonical h) (s : Ptr) (w : Int) (hw : 0 ≤ w ∧ w < GroupOrder) :
    Canonical (store h s w) := by
  intro p
  by_cases hp : p = s
  · subst hp; simpa [store] using hw
  · simpa [store, hp] using hc p

theorem values_store (h : Heap) (s : Ptr) (w : Int) :
    values (store h s w) = fun p => if p = s then (w : Fn) else values h p := by
  funext p
  by_cases hp : p = s
  · subst hp; simp [values, store]
  · simp [values, store, hp]

theorem cast_ne_zero_of_canonical {h : Heap} (hc : Canonical h) (p : Ptr) :
    (h p : Fn) = 0 ↔ h p = 0 := by
  constructor
  · intro e
    have : ((h p : Int) : Fn) = ((0 : Int) : Fn) := by simpa using e
    rwa [cast_eq_iff, modG_of_range (hc p).1 (hc p).2, modG_of_range (le_refl 0) order_pos] at this
  · intro e; simp [e]

/-- One call refines its specification. -/
theorem exec_refines {h : Heap} (hc : Canonical h) (c : Call) :
    (exec h c).map values = specCall (values h) c ∧ (∀ h', exec h c = some h' → Canonical h') := by
  have mr := fun w => (modG_range w)
  have key : ∀ s w, (some (modGAt (store h s w) s)).map values =
      some (fun p => if p = s then (w : Fn) else values h p) ∧
      ∀ h', some (modGAt (store h s w) s) = some h' → Canonical h' := by
    intro s w
    rw [store_modG]
    refine ⟨by simp [values_store, cast_modG], ?_⟩
    intro h' e; cases e
    exact canonical_store hc _ _ (mr w)
  cases c with
  | set s a =>
    have := key s (h a)
    rw [store_modG] at this
    exact this
  | setInt64 s k => simpa [exec, specCall] using key s k
  | setBytes s b => simpa [exec, specCall, BigInt.setBytes_eq] using key s (BigInt.setBytes b)
  | add s a b => simpa [exec, specCall, values] using key s (h a + h b)
  | sub s a b => simpa [exec, specCall, values] using key s (h a - h b)
  | neg s a => simpa [exec, specCall, values] using key s (-(h a))
  | mul s a b => simpa [exec, specCall, values] using key s (h a * h b)
  | div s a b =>
    simp only [exec, specCall]
    by_cases hb : h b = 0
    · simp [hb, values]
    · have hb' : (h b : Fn) ≠ 0 := fun e => hb ((cast_ne_zero_of_canonical hc b).1 e)
      obtain ⟨i, hi, hr⟩ := modInverse_isSome hb'
      have hk := key s (h a * i)
      rw [if_neg hb, hi, if_neg (show ¬ values h b = 0 from hb')]
      dsimp only
      refine ⟨?_, hk.2⟩
      rw [hk.1]
      push_cast
      rw [hr.2.2]
      simp [values, div_eq_mul_inv]
  | inv s a =>
    simp only [exec, specCall]
    by_cases ha : h a = 0
    · simp [ha, values]
    · have ha' : (h a : Fn) ≠ 0 := fun e => ha ((cast_ne_zero_of_canonical hc a).1 e)
      obtain ⟨i, hi, hr⟩ := modInverse_isSome ha'
      rw [if_neg ha, hi, if_neg (show ¬ values h a = 0 from ha')]
      dsimp only
      refine ⟨?_, ?_⟩
      · simp [values_store, hr.2.2, values]
      · intro h' e; cases e
        exact canonical_store hc _ _ ⟨hr.1, hr.2.1⟩
  | marshal s =>
    have e : modGAt h s = h := by
      funext p
      by_cases hp : p = s
      · subst hp; simp only [modGAt, store, Function.update_self]; exact modG_of_range (hc p).1 (hc p).2
      · simp [modGAt, store, hp]
    simp only [exec, specCall, e]
    exact ⟨rfl, fun h' e => by cases e; exact hc⟩
  | unmarshal s b =>
    simp only [exec, specCall]
    by_cases hl : b.length = 32
    · rw [if_neg (show ¬ b.length ≠ marshalSize from fun e => e hl)]
      have hk := key s (BigInt.setBytes b)
      refine ⟨?_, hk.2⟩
      have h1 := hk.1
      simp only [hl, and_true]
      rw [show ((BigInt.setBytes b : Int) : Fn) = ((beNat b : Nat) : Fn) from by
        rw [BigInt.setBytes_eq, Int.cast_natCast]] at h1
      exact h1
    · rw [if_pos (show b.length ≠ marshalSize from hl)]
      exact ⟨by simp [hl], fun h' e => by cases e; exact hc⟩

/-- C69. For every program of scalar method calls, with any aliasing between receivers and operands, running
it on a heap of reduced scalars gives exactly the values of the register machine over Z/nZ (in particular a
call changes no variable but its receiver), panics exactly when that divides by zero, and keeps all scalars
reduced. -/
theorem C69_programs_refine_field (cs : List Call) (h : Heap) (hc : Canonical h) :
    (run h cs).map values = specRun (values h) cs ∧ (∀ h', run h cs = some h' → Canonical h') := by
  induction cs generalizing h with
  | nil => exact ⟨rfl, fun h' e => by cases e; exact hc⟩
  | cons c cs ih =>
    obtain ⟨h1, h2⟩ := exec_refines hc c
    simp only [run, specRun]
    rw [← h1]
    cases he : exec h c with
    | none => exact ⟨rfl, fun h' e => by cases e⟩
    | some h' => exact ih h' (h2 h' he)

/-- The pointer a call writes through. -/
def receiver : Call → Ptr
  | .set s _ | .setInt64 s _ | .setBytes s _ | .add s _ _ | .sub s _ _ | .neg s _ | .mul s _ _
  | .div s _ _ | .inv s _ | .marshal s | .unmarshal s _ => s

/-- C69 (frame), on arbitrary heaps, reduced or not: a call leaves the backing integer of every other variable
exactly as it was. -/
theorem C69_frame (h h' : Heap) (c : Call) (p : Ptr) (hp : p ≠ receiver c) (he : exec h c = some h') :
    h' p = h p := by
  cases c <;> simp only [receiver] at hp <;> simp only [exec] at he
  case div s a b =>
    split at he
    · cases he
    · split at he
      · cases he
      · cases he; simp [modGAt, store, hp]
  case inv s a =>
    split at he
    · cases he
    · split at he
      · cases he; rfl
      · cases he; simp [store, hp]
  case unmarshal s b =>
    split at he
    · cases he; rfl
    · cases he; simp [store, hp]
  all_goals (cases he; simp [modGAt, store, hp])

/-- Non-vacuity: with receiver = both operands, squaring 3 in place gives 9 and leaves others alone. -/
example : ∃ h', run (fun p => if p = 0 then 3 else 5) [.mul 0 0 0, .sub 1 1 0] = some h' ∧
    h' 0 = 9 ∧ h' 1 = GroupOrder - 4 ∧ h' 2 = 5 := ⟨_, rfl, by decide +kernel⟩
example : Canonical (fun p => if p = 0 then 3 else 5) := by
  intro p; dsimp only; split
  · exact ⟨by decide, by decide +kernel⟩
  · exact ⟨by decide, by decide +kernel⟩

end Verif.Props
