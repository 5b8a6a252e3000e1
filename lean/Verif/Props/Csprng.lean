import Verif.Model.Csprng
import Mathlib.Tactic.Ring

/-! Properties C27, C28: csprng.go. -/
namespace Verif.Props
open Verif.Csprng
variable (keys : Nat → Nat → UInt8)

/-- The ideal byte stream: the first MiB of each key stream, one after the other. -/
def idealByte (j : Nat) : UInt8 := keys (j / 1048576) (j % 1048576)

/-- After `t` bytes have been drawn. -/
def Drawn (c : St) (t : Nat) : Prop :=
  (c.renewals = 0 ∧ c.rem = 0 ∧ t = 0) ∨
  (0 < c.renewals ∧ c.pos + c.rem = 1048576 ∧ t = (c.renewals - 1) * 1048576 + c.pos)

theorem drawn_init : Drawn init 0 := .inl ⟨rfl, rfl, rfl⟩

theorem drawn_renew {c : St} {t : Nat} (h : Drawn c t) :
    ∃ c', (if c.rem = 0 then renew c else c) = c' ∧ Drawn c' t ∧ 0 < c'.rem ∧ 0 < c'.renewals := by
  by_cases h0 : c.rem = 0
  · refine ⟨renew c, by rw [if_pos h0], .inr ⟨Nat.succ_pos _, by simp [renew, mebi], ?_⟩,
      by simp [renew, mebi], Nat.succ_pos _⟩
    rcases h with ⟨h1, h2, h3⟩ | ⟨h1, h2, h3⟩
    · simp [renew, h1, h3]
    · simp only [renew, Nat.add_sub_cancel, Nat.add_zero]
      have : c.pos = 1048576 := by omega
      have e : c.renewals = c.renewals - 1 + 1 := by omega
      rw [h3, this]
      conv_rhs => rw [e]
      ring
  · refine ⟨c, by rw [if_neg h0], h, by omega, ?_⟩
    rcases h with ⟨h1, h2, h3⟩ | ⟨h1, h2, h3⟩
    · omega
    · exact h1

theorem loop_spec (f : Nat) : ∀ (c : St) (t L : Nat), L < f → Drawn c t →
    (loop keys f c (List.replicate L 0)).2 = (List.range L).map (fun j => idealByte keys (t + j)) ∧
    Drawn (loop keys f c (List.replicate L 0)).1 (t + L) := by
  induction f with
  | zero => intro c t L h; omega
  | succ f ih =>
    intro c t L hL h
    by_cases h0 : L = 0
    · subst h0; exact ⟨rfl, h⟩
    obtain ⟨c', hc', hd, hrem, hren⟩ := drawn_renew h
    rw [loop, if_neg (by rw [List.length_replicate]; exact h0), hc']
    dsimp only
    rw [List.length_replicate, List.take_replicate, List.drop_replicate]
    obtain ⟨n, hn⟩ : ∃ n, min L c'.rem = n := ⟨_, rfl⟩
    rw [hn]
    have hn0 : 0 < n := by omega
    have hnL : n ≤ L := by omega
    have hmin : min n L = n := by omega
    rcases hd with ⟨h1, h2, h3⟩ | ⟨h1, h2, h3⟩
    · omega
    have hd' : Drawn ⟨c'.rem - n, c'.renewals, c'.pos + n⟩ (t + n) := by
      refine .inr ⟨h1, ?_, ?_⟩
      · change c'.pos + n + (c'.rem - n) = _; omega
      · change _ = (c'.renewals - 1) * 1048576 + (c'.pos + n); omega
    obtain ⟨e1, e2⟩ := ih _ (t + n) (L - n) (by omega) hd'
    rw [e1]
    refine ⟨?_, ?_⟩
    · have hx : xorKey keys c' (List.replicate (min n L) 0) = (List.range n).map (fun j => idealByte keys (t + j)) := by
        rw [hmin, xorKey]
        apply List.ext_getElem
        · simp
        · intro i hi1 hi2
          simp only [List.length_mapIdx, List.length_replicate] at hi1
          simp only [List.getElem_mapIdx, List.getElem_replicate, List.getElem_map, List.getElem_range, UInt8.zero_xor,
            idealByte]
          have : c'.pos + i < 1048576 := by omega
          have e3 : t + i = (c'.renewals - 1) * 1048576 + (c'.pos + i) := by omega
          rw [e3, Nat.mul_comm, Nat.mul_add_div (by decide), Nat.mul_add_mod, Nat.div_eq_of_lt this,
            Nat.mod_eq_of_lt this, Nat.add_zero]
      rw [hx]
      have : L = n + (L - n) := by omega
      conv_rhs => rw [this, List.range_add, List.map_append, List.map_map]
      congr 1
      apply List.map_congr_left
      intro j _
      simp [Nat.add_assoc]
    · have : t + L = t + n + (L - n) := by omega
      rw [this]; exact e2

theorem fill_spec (c : St) (t : Nat) (h : Drawn c t) (d : List UInt8) :
    (fill keys c d).2 = (List.range d.length).map (fun j => idealByte keys (t + j)) ∧
    Drawn (fill keys c d).1 (t + d.length) := by
  have e : d.map (fun _ => (0 : UInt8)) = List.replicate d.length 0 := by
    simp
  rw [fill, e]
  exact loop_spec keys _ c t d.length (by omega) h

/-- C27. For any sequence of `Fill` calls with any buffers from the initial state, the concatenated output is exactly
the prefix, of the total length, of the first MiB of the successive key streams: no byte reused, skipped, or taken from
beyond a MiB of a key. Each call fills exactly its buffer. -/
theorem C27_fills_are_prefix (ds : List (List UInt8)) :
    (fills keys init ds).2.flatten =
      (List.range (ds.map List.length).sum).map (fun j => keys (j / 1048576) (j % 1048576)) ∧
    (fills keys init ds).2.map List.length = ds.map List.length := by
  have gen : ∀ (ds : List (List UInt8)) (c : St) (t : Nat), Drawn c t →
      (fills keys c ds).2.flatten = (List.range (ds.map List.length).sum).map (fun j => idealByte keys (t + j)) ∧
      (fills keys c ds).2.map List.length = ds.map List.length := by
    intro ds
    induction ds with
    | nil => intro c t _; exact ⟨rfl, rfl⟩
    | cons d ds ih =>
      intro c t h
      obtain ⟨e1, e2⟩ := fill_spec keys c t h d
      obtain ⟨e3, e4⟩ := ih _ _ e2
      rw [fills]
      dsimp only
      rw [List.flatten_cons, e3, e1, List.map_cons, List.sum_cons, List.range_add, List.map_append, List.map_map,
        List.map_cons, e4]
      refine ⟨?_, by simp⟩
      congr 1
      apply List.map_congr_left
      intro j _
      simp [Nat.add_assoc]
  have := gen ds init 0 drawn_init
  simpa [idealByte] using this

example : (fills (fun k i => UInt8.ofNat (k + i)) init [[9, 9], [], [7]]).2 = [[0, 1], [], [2]] := by decide

/-- C28. `XORKeyStream` panics exactly when the lengths differ; otherwise every byte of `dst` is replaced by the next
stream byte, whatever was in `dst` and `src`, and exactly that many bytes are consumed. -/
theorem C28_xorKeyStream (c : St) (t : Nat) (hc : Drawn c t) (dst src : List UInt8) :
    (xorKeyStream keys c dst src = .panic ↔ dst.length ≠ src.length) ∧
    (dst.length = src.length → ∃ c', Drawn c' (t + src.length) ∧
      xorKeyStream keys c dst src = .ok (c', (List.range src.length).map (fun j => idealByte keys (t + j)))) := by
  have key : dst.length = src.length → ∃ c', Drawn c' (t + src.length) ∧
      xorKeyStream keys c dst src = .ok (c', (List.range src.length).map (fun j => idealByte keys (t + j))) := by
    intro h
    obtain ⟨e1, e2⟩ := fill_spec keys c t hc (dst.take src.length)
    rw [← h, List.take_length] at e1 e2
    refine ⟨(fill keys c dst).1, by rw [← h]; exact e2, ?_⟩
    rw [xorKeyStream]
    dsimp only
    rw [if_neg (by omega), if_neg (by omega), ← h, List.take_length, List.drop_length, List.append_nil, e1]
  refine ⟨⟨?_, ?_⟩, key⟩
  · intro h e
    obtain ⟨c', _, h2⟩ := key e
    rw [h2] at h; cases h
  · intro h
    rw [xorKeyStream]
    dsimp only
    by_cases h1 : dst.length < src.length
    · rw [if_pos h1]
    · rw [if_neg h1, if_pos (by omega)]

/-- C28 (independence). The result depends on the buffers only through their lengths, in every state. -/
theorem C28_independent (c : St) (dst dst' src src' : List UInt8) (h : dst.length = dst'.length)
    (h' : src.length = src'.length) : xorKeyStream keys c dst src = .panic ∨
      xorKeyStream keys c dst src = xorKeyStream keys c dst' src' := by
  by_cases e : dst.length = src.length
  · right
    have m : dst.map (fun _ => (0 : UInt8)) = dst'.map (fun _ => 0) := by simp [h]
    simp only [xorKeyStream]
    rw [if_neg (by omega), if_neg (by omega), if_neg (by omega), if_neg (by omega), ← e, List.take_length,
      List.drop_length, ← h', ← e, h, List.take_length, List.drop_length, fill, fill, m, h]
  · left
    simp only [xorKeyStream]
    by_cases h1 : dst.length < src.length
    · rw [if_pos h1]
    · rw [if_neg h1, if_pos (by omega)]

example : xorKeyStream (fun k i => UInt8.ofNat (k + i)) init [1, 2] [3] = .panic ∧
    xorKeyStream (fun k i => UInt8.ofNat (k + i)) init [1, 2] [3, 4] = .ok (⟨1048574, 1, 2⟩, [0, 1]) := by decide

/-- The generator as the random stream of the other packages (`Get`, csprng.go:58), after any number of bytes: it is a
`CStream`, so the theorems about `Pick`, `Embed`, `Generate` and `Sign` apply to it. -/
def csprngStream : CStream where
  State := { p : St × Nat // Drawn p.1 p.2 }
  xor := fun c src => (⟨((fill keys c.1.1 src).1, c.1.2 + src.length), (fill_spec keys c.1.1 c.1.2 c.2 src).2⟩,
    (fill keys c.1.1 src).2)
  xor_length := by
    intro c src
    rw [(fill_spec keys c.1.1 c.1.2 c.2 src).1]; simp

end Verif.Props
