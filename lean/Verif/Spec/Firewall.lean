import Verif.Model.Firewall

/-!
What a history of firewall events says by itself, without running the model. The thread started by an allowance has
four sections: it reads its times, starts buffering, flushes and starts forwarding, and stops.
-/
namespace Verif.Spec.Firewall
open Verif.Firewall
variable {D : Type}

/-- The clock after a history that started at `t0`. -/
def clock (t0 : Int) : List (Ev D) → Int
  | [] => t0
  | .tick t :: h => clock t h
  | _ :: h => clock t0 h

/-- The arguments of the calls of `fw_set_allowance`, in order. -/
def allows : List (Ev D) → List (RunKey × Allowance)
  | [] => []
  | .allow k a :: h => (k, a) :: allows h
  | _ :: h => allows h

/-- How many sections the thread of the i-th call has finished. -/
def steps (i : Nat) : List (Ev D) → Nat
  | [] => 0
  | .step j :: h => (if j = i then 1 else 0) + steps i h
  | _ :: h => steps i h

/-- The firewall has left its initial dropping phase. -/
def latched (open0 : Bool) : List (Ev D) → Bool
  | [] => open0
  | .latch :: _ => true
  | _ :: h => latched open0 h

/-- The messages received at moments when the history so far and the message satisfy `P`, in order of arrival. -/
def receivedWhen (P : List (Ev D) → Message D → Bool) (h : List (Ev D)) : List (Message D) :=
  (List.range h.length).filterMap fun (p : Nat) =>
    match (h[p]? : Option (Ev D)) with
    | some (.msg m) => if P (h.take p) m then some m else none
    | _ => none

/-- The messages for `k` received after initialisation and after the i-th thread finished exactly `n` sections. -/
def receivedIn (open0 : Bool) (k : RunKey) (i n : Nat) (h : List (Ev D)) : List (Message D) :=
  receivedWhen (fun pre m => latched open0 pre && decide (m.key = k) && decide (steps i pre = n)) h

/-- What the i-th call lets through for `k`: the first 2048 messages received while buffering, once flushed, and then
those received while forwarding. -/
def passed (open0 : Bool) (k : RunKey) (h : List (Ev D)) (i : Nat) : List (Message D) :=
  (if 3 ≤ steps i h then (receivedIn open0 k i 2 h).take 2048 else []) ++ receivedIn open0 k i 3 h

/-- What all calls for `k` let through. -/
def passedAll (open0 : Bool) (k : RunKey) (h : List (Ev D)) : List (Message D) :=
  (List.range (allows h).length).flatMap fun i =>
    if ((allows h)[i]?).map Prod.fst = some k then passed open0 k h i else []

theorem clock_append (t0 : Int) (h : List (Ev D)) (e : Ev D) :
    clock t0 (h ++ [e]) = match e with | .tick t => t | _ => clock t0 h := by
  induction h generalizing t0 with
  | nil => cases e <;> rfl
  | cons x h ih => cases x <;> simp only [List.cons_append, clock, ih]

theorem allows_append (h g : List (Ev D)) : allows (h ++ g) = allows h ++ allows g := by
  induction h with
  | nil => rfl
  | cons x h ih => cases x <;> simp [allows, ih]

theorem steps_append (i : Nat) (h g : List (Ev D)) : steps i (h ++ g) = steps i h + steps i g := by
  induction h with
  | nil => simp [steps]
  | cons x h ih => cases x <;> simp [steps, ih, Nat.add_assoc]

theorem latched_append (b : Bool) (h : List (Ev D)) (e : Ev D) :
    latched b (h ++ [e]) = match e with | .latch => true | _ => latched b h := by
  induction h with
  | nil => cases e <;> rfl
  | cons x h ih => cases x <;> cases e <;> simp_all [latched]

theorem receivedWhen_append (P : List (Ev D) → Message D → Bool) (h : List (Ev D)) (e : Ev D) :
    receivedWhen P (h ++ [e]) = receivedWhen P h ++ match e with | .msg m => if P h m then [m] else [] | _ => [] := by
  rw [receivedWhen, List.length_append, List.length_singleton, List.range_succ, List.filterMap_append]
  congr 1
  · rw [receivedWhen]
    apply List.filterMap_congr
    intro p hp
    rw [List.mem_range] at hp
    rw [List.getElem?_append_left hp, List.take_append_of_le_length (by omega)]
  · have e1 : (h ++ [e])[h.length]? = some e := by simp
    have e2 : (h ++ [e]).take h.length = h := by simp
    rw [List.filterMap_cons, e1, e2]
    cases e with
    | msg m => by_cases hp : P h m = true <;> simp [hp]
    | _ => rfl

/-- A received message was received at some moment. -/
theorem mem_receivedWhen {P : List (Ev D) → Message D → Bool} {h : List (Ev D)} {m : Message D}
    (hm : m ∈ receivedWhen P h) : ∃ h1 h2, h = h1 ++ .msg m :: h2 ∧ P h1 m = true := by
  rw [receivedWhen, List.mem_filterMap] at hm
  obtain ⟨p, hp, he⟩ := hm
  rw [List.mem_range] at hp
  rw [List.getElem?_eq_getElem hp] at he
  cases hx : h[p] with
  | msg m' =>
    rw [hx] at he
    simp only at he
    by_cases hP : P (h.take p) m' = true
    · rw [if_pos hP] at he
      have := Option.some.inj he
      subst this
      refine ⟨h.take p, h.drop (p + 1), ?_, hP⟩
      rw [← hx, List.getElem_cons_drop, List.take_append_drop]
    · rw [if_neg hP] at he; cases he
  | _ => rw [hx] at he; cases he

/-- Nothing is received in a section that the thread has not reached. -/
theorem receivedIn_nil (b : Bool) (k : RunKey) (i n : Nat) (h : List (Ev D)) (hn : steps i h < n) :
    receivedIn b k i n h = [] := by
  by_contra hc
  obtain ⟨m, hm⟩ := List.exists_mem_of_ne_nil _ hc
  obtain ⟨h1, h2, rfl, hP⟩ := mem_receivedWhen hm
  rw [steps_append] at hn
  simp only [Bool.and_eq_true, decide_eq_true_eq] at hP
  omega

end Verif.Spec.Firewall
