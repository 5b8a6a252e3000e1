/-!
Go maps as association lists with one entry per key. A range loop visits the entries in an unspecified order; loops
whose result depends on it are modelled as relations.
-/
namespace Verif

/-- A Go map. -/
abbrev GoMap (K V : Type) := List (K × V)

namespace GoMap
variable {K V : Type} [DecidableEq K]

/-- `m[k]` with the presence flag. -/
def get? (m : GoMap K V) (k : K) : Option V := (m.find? fun p => decide (p.1 = k)).map Prod.snd

/-- `m[k] = v`. -/
def set (m : GoMap K V) (k : K) (v : V) : GoMap K V := (k, v) :: m.filter fun p => decide (p.1 ≠ k)

/-- `delete(m, k)`. -/
def delete (m : GoMap K V) (k : K) : GoMap K V := m.filter fun p => decide (p.1 ≠ k)

/-- The keys. -/
def keys (m : GoMap K V) : List K := m.map Prod.fst

@[simp] theorem get?_nil (k : K) : get? ([] : GoMap K V) k = none := rfl

theorem get?_cons (p : K × V) (m : GoMap K V) (k : K) : get? (p :: m) k = if p.1 = k then some p.2 else get? m k := by
  rw [get?, List.find?_cons]
  by_cases h : p.1 = k
  · simp [h]
  · simp only [h, decide_false, if_false]; rfl

theorem get?_delete (m : GoMap K V) (k k' : K) : get? (delete m k) k' = if k = k' then none else get? m k' := by
  induction m with
  | nil => simp [delete]
  | cons p m ih =>
    rw [delete, List.filter_cons]
    by_cases h : p.1 = k
    · simp only [h, ne_eq, not_true, decide_false]
      change get? (delete m k) k' = _
      rw [ih, get?_cons]
      by_cases h2 : k = k'
      · simp [h2]
      · simp [h2, h]
    · simp only [h, ne_eq, not_false_eq_true, decide_true, if_true]
      rw [get?_cons]
      change (if p.1 = k' then some p.2 else get? (delete m k) k') = _
      rw [ih, get?_cons]
      by_cases h2 : k = k'
      · subst h2; simp [h]
      · simp [h2]

theorem get?_set (m : GoMap K V) (k : K) (v : V) (k' : K) : get? (set m k v) k' = if k = k' then some v else get? m k' := by
  rw [set, get?_cons]
  change (if k = k' then some v else get? (delete m k) k') = _
  rw [get?_delete]
  by_cases h : k = k' <;> simp [h]

theorem get?_isSome_iff (m : GoMap K V) (k : K) : (get? m k).isSome = true ↔ k ∈ keys m := by
  induction m with
  | nil => simp [keys]
  | cons p m ih =>
    rw [get?_cons, keys, List.map_cons, List.mem_cons]
    by_cases h : p.1 = k
    · simp [h]
    · rw [if_neg h, ih]
      constructor
      · exact .inr
      · rintro (rfl | h2)
        · exact absurd rfl h
        · exact h2

theorem nodup_delete {m : GoMap K V} (h : (keys m).Nodup) (k : K) : (keys (delete m k)).Nodup :=
  h.sublist (List.Sublist.map _ List.filter_sublist)

theorem nodup_set {m : GoMap K V} (h : (keys m).Nodup) (k : K) (v : V) : (keys (set m k v)).Nodup := by
  rw [keys, set, List.map_cons, List.nodup_cons]
  refine ⟨?_, nodup_delete h k⟩
  rw [List.mem_map]
  rintro ⟨p, hp, e⟩
  rw [List.mem_filter, decide_eq_true_eq] at hp
  exact hp.2 e

theorem mem_iff_get? {m : GoMap K V} (h : (keys m).Nodup) (k : K) (v : V) : (k, v) ∈ m ↔ get? m k = some v := by
  induction m with
  | nil => simp
  | cons p m ih =>
    rw [keys, List.map_cons, List.nodup_cons] at h
    rw [List.mem_cons, get?_cons, ih h.2]
    by_cases hp : p.1 = k
    · subst hp
      rw [if_pos rfl]
      constructor
      · rintro (e | e)
        · rw [← e]
        · have : (p.1, v) ∈ m := (ih h.2).2 e
          exact absurd (List.mem_map_of_mem (f := Prod.fst) this) h.1
      · intro e
        left
        cases p; cases e; rfl
    · rw [if_neg hp]
      constructor
      · rintro (rfl | e)
        · exact absurd rfl hp
        · exact e
      · exact .inr
end GoMap

end Verif
