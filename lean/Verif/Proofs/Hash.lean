import Verif.Model.Hash
import Mathlib.Tactic.Linarith

/-!
The hash object gives the hash of all bytes written.
-/
namespace Verif.Hash
open Verif.Spec.Keccak

theorem xorIn_block (a : List Nat) (b : List UInt8) : keccakF (xorIn a b) = block a b := rfl

attribute [local irreducible] keccakF

theorem absorb_append (k : Nat) : ∀ (m x : List UInt8) (a : List Nat), 136 * k ≤ m.length → absorb k (m ++ x) a = absorb k m a := by
  induction k with
  | zero => intro m x a _; rfl
  | succ k ih =>
    intro m x a h
    have h1 : Spec.Keccak.rate ≤ m.length := by unfold Spec.Keccak.rate; omega
    unfold absorb
    rw [List.drop_append_of_le_length h1, List.take_append_of_le_length h1, ih]
    rw [List.length_drop]; unfold Spec.Keccak.rate; omega

theorem absorb_succ (k : Nat) : ∀ (m : List UInt8) (a : List Nat),
    absorb (k + 1) m a = block (absorb k m a) ((m.drop (136 * k)).take 136) := by
  induction k with
  | zero => intro m a; rfl
  | succ k ih =>
    intro m a
    rw [absorb, ih, absorb, List.drop_drop]
    congr 3
    unfold Spec.Keccak.rate; omega

/-- The state of an object to which the bytes `m` have been written. -/
structure Fed (d : Obj) (m : List UInt8) : Prop where
  a : d.a = absorb (m.length / 136) m (List.replicate 25 0)
  buf : d.buf = m.drop (136 * (m.length / 136))

theorem Fed.new : Fed new [] := ⟨rfl, rfl⟩

theorem Fed.len {d : Obj} {m : List UInt8} (h : Fed d m) : d.buf.length = m.length % 136 := by
  rw [h.buf, List.length_drop]; omega

/-- Bytes that do not fill the block. -/
theorem Fed.short {d : Obj} {m : List UInt8} (h : Fed d m) (x : List UInt8) (hx : d.buf.length + x.length < 136) :
    Fed ⟨d.a, d.buf ++ x⟩ (m ++ x) := by
  have hl := h.len
  have hq : (m ++ x).length / 136 = m.length / 136 := by rw [List.length_append]; omega
  refine ⟨?_, ?_⟩
  · show d.a = _
    rw [hq, absorb_append _ _ _ _ (by omega), h.a]
  · show d.buf ++ x = _
    rw [hq, List.drop_append_of_le_length (by omega), h.buf]

/-- Bytes that fill it. -/
theorem Fed.full {d : Obj} {m : List UInt8} (h : Fed d m) (x : List UInt8) (hx : d.buf.length + x.length = 136) :
    Fed (permute ⟨d.a, d.buf ++ x⟩) (m ++ x) := by
  have hl := h.len
  have hq : (m ++ x).length / 136 = m.length / 136 + 1 := by rw [List.length_append]; omega
  have hb : (m ++ x).drop (136 * (m.length / 136)) = d.buf ++ x := by
    rw [List.drop_append_of_le_length (by omega), h.buf]
  refine ⟨?_, ?_⟩
  · show keccakF (xorIn d.a (d.buf ++ x)) = _
    rw [hq, absorb_succ, absorb_append _ _ _ _ (by omega), ← h.a, hb, xorIn_block,
      List.take_of_length_le (by rw [List.length_append]; omega)]
  · show [] = _
    rw [hq, List.drop_eq_nil_of_le]
    rw [List.length_append]; omega

theorem Fed.loop (n : Nat) : ∀ {d : Obj} {m : List UInt8} (p : List UInt8), Fed d m → p.length ≤ n → Fed (writeLoop n d p) (m ++ p) := by
  induction n with
  | zero =>
    intro d m p h hp
    have : p = [] := List.eq_nil_of_length_eq_zero (by omega)
    subst this
    rw [List.append_nil]; exact h
  | succ n ih =>
    intro d m p h hp
    have hl := h.len
    unfold writeLoop
    split
    · next h0 =>
      have : p = [] := List.eq_nil_of_length_eq_zero h0
      subst this
      rw [List.append_nil]; exact h
    · next h0 =>
      split
      · next h1 =>
        obtain ⟨h1, h2⟩ := h1
        unfold rate at h2
        have hb : d.buf = [] := List.eq_nil_of_length_eq_zero h1
        have hf := h.full (p.take 136) (by rw [List.length_take]; omega)
        rw [hb] at hf
        have := ih (p.drop 136) hf (by rw [List.length_drop]; omega)
        rw [List.append_assoc, List.take_append_drop] at this
        rw [hb]
        exact this
      · next h1 =>
        have hlt : d.buf.length < 136 := by omega
        show Fed (writeLoop n (if (d.buf ++ p.take (min (136 - d.buf.length) p.length)).length = 136 then
          permute ⟨d.a, d.buf ++ p.take (min (136 - d.buf.length) p.length)⟩ else
          ⟨d.a, d.buf ++ p.take (min (136 - d.buf.length) p.length)⟩) (p.drop (min (136 - d.buf.length) p.length))) (m ++ p)
        generalize ht : min (136 - d.buf.length) p.length = t
        have hx : (p.take t).length = t := by rw [List.length_take]; omega
        have hf : Fed (if (d.buf ++ p.take t).length = 136 then permute ⟨d.a, d.buf ++ p.take t⟩ else ⟨d.a, d.buf ++ p.take t⟩)
            (m ++ p.take t) := by
          rw [List.length_append, hx]
          split
          · exact h.full _ (by omega)
          · exact h.short _ (by omega)
        have := ih (p.drop t) hf (by rw [List.length_drop]; omega)
        rw [List.append_assoc, List.take_append_drop] at this
        exact this

theorem Fed.write {d : Obj} {m : List UInt8} (h : Fed d m) (p : List UInt8) : Fed (write d p) (m ++ p) := h.loop _ p (Nat.le_refl _)

theorem set_last (l : List UInt8) (x y : UInt8) (n : Nat) (h : l.length = n) : (l ++ [x]).set n y = l ++ [y] := by
  subst h; rw [List.set_append_right _ _ (Nat.le_refl _), Nat.sub_self]; rfl

theorem getD_last (l : List UInt8) (x y : UInt8) (n : Nat) (h : l.length = n) : (l ++ [x]).getD n y = x := by
  subst h; simp [List.getD]

/-- The padded message: its full blocks, and the last one. -/
theorem pad_eq (m : List UInt8) : pad m = m.take (136 * (m.length / 136)) ++ lastBlock (m.drop (136 * (m.length / 136))) := by
  generalize hb : m.drop (136 * (m.length / 136)) = b
  have hm : m = m.take (136 * (m.length / 136)) ++ b := by rw [← hb, List.take_append_drop]
  have hl : b.length = m.length % 136 := by rw [← hb, List.length_drop]; omega
  unfold pad lastBlock Hash.rate Spec.Keccak.rate
  dsimp only
  rw [← hl]
  have hlt : b.length < 136 := by omega
  split
  · next h1 =>
    have h135 : b.length = 135 := by omega
    have he : List.replicate (136 - (b ++ [(0x01 : UInt8)]).length) (0 : UInt8) = [] := by
      rw [List.length_append, h135]; rfl
    rw [he, List.append_nil, set_last b _ _ _ h135, getD_last b _ _ _ h135, ← List.append_assoc, ← hm]
    rfl
  · next h1 =>
    have he : List.replicate (136 - (b ++ [(0x01 : UInt8)]).length) (0 : UInt8) = List.replicate (136 - b.length - 2) 0 ++ [0] := by
      rw [← List.replicate_succ']
      congr 1
      rw [List.length_append, List.length_singleton]; omega
    have h2 : (b ++ [(0x01 : UInt8)] ++ List.replicate (136 - b.length - 2) 0).length = 135 := by
      rw [List.length_append, List.length_append, List.length_replicate, List.length_singleton]; omega
    rw [he, ← List.append_assoc, set_last _ _ _ _ h2, getD_last _ _ _ _ h2]
    conv => lhs; rw [hm]
    simp only [List.append_assoc]
    rfl

theorem lastBlock_length (b : List UInt8) (h : b.length < 136) : (lastBlock b).length = 136 := by
  unfold lastBlock Hash.rate
  dsimp only
  rw [List.length_set, List.length_append, List.length_replicate, List.length_append, List.length_singleton]
  omega

theorem pad_length (m : List UInt8) : (pad m).length = 136 * (m.length / 136 + 1) := by
  rw [pad_eq, List.length_append, List.length_take, lastBlock_length _ (by rw [List.length_drop]; omega)]
  omega

theorem round_length (a : List Nat) (k : Nat) : (round a k).length = 25 := by
  simp [Spec.Keccak.round, state]

attribute [local irreducible] round

theorem foldl_length (l : List Nat) : ∀ a : List Nat, a.length = 25 → (l.foldl round a).length = 25 := by
  induction l with
  | nil => intro a h; exact h
  | cons k l ih => intro a _; exact ih _ (round_length a k)

theorem keccakF_length (a : List Nat) (h : a.length = 25) : (keccakF a).length = 25 := by
  rw [keccakF]
  exact foldl_length rc a h

theorem block_length (a : List Nat) (b : List UInt8) (h : a.length = 25) : (block a b).length = 25 := by
  unfold block
  apply keccakF_length
  rw [List.length_mapIdx]; exact h

theorem absorb_length (k : Nat) : ∀ (m : List UInt8) (a : List Nat), a.length = 25 → (absorb k m a).length = 25 := by
  induction k with
  | zero => intro m a h; exact h
  | succ k ih => intro m a h; exact ih _ _ (block_length a _ h)

theorem unword_length (n : Nat) : (unword n).length = 8 := by simp [unword]

theorem take_flatMap (l : List Nat) (n : Nat) : (l.flatMap unword).take (8 * n) = (l.take n).flatMap unword := by
  induction l generalizing n with
  | nil => simp
  | cons x l ih =>
    cases n with
    | zero => simp
    | succ n =>
      rw [List.flatMap_cons, List.take_succ_cons, List.flatMap_cons, List.take_append, unword_length,
        List.take_of_length_le (by rw [unword_length]; omega), show 8 * (n + 1) - 8 = 8 * n by omega, ih]

theorem flatMap_length (l : List Nat) : (l.flatMap unword).length = 8 * l.length := by
  induction l with
  | nil => rfl
  | cons x l ih => rw [List.flatMap_cons, List.length_append, unword_length, ih, List.length_cons]; omega

theorem keccak256_length (m : List UInt8) : (Spec.Keccak.keccak256 m).length = 32 := by
  unfold Spec.Keccak.keccak256
  dsimp only
  rw [flatMap_length, List.length_take, absorb_length _ _ _ (by simp)]
  omega

/-- `Sum` gives the hash of what has been written. -/
theorem Fed.sum {d : Obj} {m : List UInt8} (h : Fed d m) (i : List UInt8) : sum d i = i ++ Spec.Keccak.keccak256 m := by
  unfold Hash.sum Spec.Keccak.keccak256
  dsimp only
  congr 1
  rw [show (32 : Nat) = 8 * 4 from rfl, take_flatMap, pad_length]
  congr 2
  have hd : 136 * (m.length / 136 + 1) / Spec.Keccak.rate = m.length / 136 + 1 := by
    unfold Spec.Keccak.rate; omega
  have hk : (m.take (136 * (m.length / 136))).length = 136 * (m.length / 136) := by rw [List.length_take]; omega
  have hlb : (lastBlock (m.drop (136 * (m.length / 136)))).length = 136 :=
    lastBlock_length _ (by rw [List.length_drop]; omega)
  have ha : absorb (m.length / 136) (m.take (136 * (m.length / 136))) (List.replicate 25 0) = d.a := by
    rw [h.a]
    conv => rhs; rw [← List.take_append_drop (136 * (m.length / 136)) m, absorb_append _ _ _ _ (by rw [List.take_append_drop]; omega)]
    rw [List.take_append_drop]
  rw [hd, absorb_succ, pad_eq, xorIn_block, absorb_append _ _ _ _ (by omega), ha, List.drop_left' hk,
    List.take_of_length_le (Nat.le_of_eq hlb), h.buf]

theorem zeros_inj (j : Nat) : ∀ (j' : Nat) (l l' : List UInt8), List.replicate j (0 : UInt8) ++ 1 :: l = List.replicate j' 0 ++ 1 :: l' →
    l = l' := by
  induction j with
  | zero =>
    intro j' l l' h
    cases j' with
    | zero => simpa using h
    | succ j' => simp [List.replicate_succ] at h
  | succ j ih =>
    intro j' l l' h
    cases j' with
    | zero => simp [List.replicate_succ] at h
    | succ j' => exact ih j' l l' (by simpa [List.replicate_succ] using h)

theorem pad_inj (m m' : List UInt8) (h : pad m = pad m') : m = m' := by
  have h' := congrArg List.reverse h
  unfold pad at h'
  dsimp only at h'
  split at h' <;> split at h'
  · simpa using h'
  · simp at h'
  · simp at h'
  · have := zeros_inj _ _ m.reverse m'.reverse (by simpa using h')
    simpa using this

end Verif.Hash
