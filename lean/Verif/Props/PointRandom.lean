import Verif.Props.Point
import Verif.Proofs.PointRandom

/-! Properties C12, C13: Embed, Data, Pick, Generate of point.go, for every random stream. -/
namespace Verif.Props
open Verif.Point Verif.Field

theorem bytes_setBytes_small (x : List UInt8) (hl : x.length = 32) (h : beNat x < fieldPrime.toNat) :
    Field.bytes (Field.setBytes x) = .ok x ∧ Field.setBytes x = (beNat x : Int) := by
  have e : fieldPrime.toNat = q.toNat := by rw [fieldPrime_eq]
  have hv : modQ (beNat x : Int) = (beNat x : Int) := modQ_of_range (Int.natCast_nonneg _) (by have := q_pos; omega)
  have h2 : Field.setBytes x = (beNat x : Int) := by rw [Field.setBytes, BigInt.setBytes_eq, hv]
  obtain ⟨bs, h3, h4, h5⟩ := Field.bytes_spec (Field.setBytes x)
  rw [h2, hv] at h5
  rw [h3, beNat_injective (h4.trans hl.symm) (by exact_mod_cast h5)]
  exact ⟨rfl, h2⟩

/-- C12. For at most 29 bytes of data and any random stream, whatever `Embed` returns is a curve point from which
`Data` reads back exactly the data. -/
theorem C12_embed_data (R : CStream) (d : List UInt8) (hd : d.length ≤ 29) (s s' : R.State) (P : Pt)
    (h : embed R d s = (s', .ok P)) :
    OnCurve P.X P.Y ∧ Reduced P.X P.Y ∧ data P = .ok d := by
  rw [embed, if_neg (show ¬ embedLen < d.length by rw [embedLen]; omega)] at h
  have hx : (UInt8.ofNat d.length :: d ++ List.replicate (31 - d.length) 0).length = 32 := by
    simp; omega
  obtain ⟨x', h1, h2, h3, h4, h5⟩ := embedLoop_ok R _ (by omega) _ _ _ _ _ hx h
  have h6 : x'.take (1 + d.length) = UInt8.ofNat d.length :: d := by
    rw [h2, List.take_left' (by simp; omega)]
  obtain ⟨b, x'', rfl⟩ : ∃ b x'', x' = b :: x'' := by
    cases x' with
    | nil => simp at h1
    | cons b x'' => exact ⟨b, x'', rfl⟩
  rw [Nat.add_comm 1, List.take_succ_cons, List.cons.injEq] at h6
  have hb : b.toNat = d.length := by rw [h6.1]; simp; omega
  have hlt : beNat (b :: x'') < fieldPrime.toNat := by
    rw [beNat_cons, hb]
    have e := beNat_lt x''
    simp only [List.length_cons] at h1
    have h31 : x''.length = 31 := by omega
    rw [h31] at e ⊢
    have : fieldPrime.toNat = 2 ^ 256 - 2 ^ 32 - 977 := by decide +kernel
    rw [this]
    omega
  obtain ⟨h7, h8⟩ := bytes_setBytes_small _ h1 hlt
  have hX : (0 ≤ P.X ∧ P.X < q) := by rw [h3]; exact modQ_range _
  refine ⟨(onCurve_iff _ _).2 h4, by rw [Reduced, fieldPrime_eq]; exact ⟨hX, h5⟩, ?_⟩
  rw [data, h3, h7]
  simp only [Outcome.bind_ok, List.getD_cons_zero, hb]
  rw [if_neg (show ¬ embedLen < d.length by rw [embedLen]; omega), List.drop_one, List.tail_cons, h6.2]

/-- C12 (too much data). More than 29 bytes panic. -/
theorem C12_embed_too_long (R : CStream) (d : List UInt8) (hd : 29 < d.length) (s : R.State) :
    (embed R d s).2 = .panic := by
  rw [embed, if_pos (show embedLen < d.length by rw [embedLen]; omega)]

/-- C12 (`Data` on any point): it returns at most 29 bytes and never panics. -/
theorem C12_data_bounded (P : Pt) : data P ≠ .panic ∧ ∀ d, data P = .ok d → d.length ≤ 29 := by
  obtain ⟨bs, h1, h2, _⟩ := Field.bytes_spec P.X
  rw [data, h1]
  simp only [Outcome.bind_ok]
  by_cases h : embedLen < (bs.getD 0 0).toNat
  · rw [if_pos h]; simp
  · rw [if_neg h]
    refine ⟨by simp, ?_⟩
    intro d hd
    cases hd
    rw [List.length_take]
    rw [embedLen] at h; omega

/-- A stream of constant bytes, for examples. -/
def constStream (b : UInt8) : CStream where
  State := Unit
  xor := fun s src => (s, src.map fun _ => b)
  xor_length := by simp

/-- A stream returning a counter in every byte. -/
def countStream : CStream where
  State := Nat
  xor := fun s src => (s + 1, src.map fun _ => UInt8.ofNat s)
  xor_length := by simp

example : ∃ s P, embed countStream [1, 2, 3] (0 : Nat) = (s, .ok P) ∧ data P = .ok [1, 2, 3] := by
  have h : (embed countStream [1, 2, 3] (0 : Nat)).2.isOk = true := by decide +kernel
  rcases he : embed countStream [1, 2, 3] (0 : Nat) with ⟨s, P | _ | _⟩
  · exact ⟨s, P, rfl, (C12_embed_data countStream [1, 2, 3] (by simp) _ _ P he).2.2⟩
  · rw [he] at h; cases h
  · rw [he] at h; cases h

/-- C13 (`Pick`). If `Pick` returns, the point is a reduced, valid curve point. -/
theorem C13_pick (R : CStream) (fuel : Nat) (s s' : R.State) (P : Pt) (h : pick R fuel s = some (s', P)) :
    OnCurve P.X P.Y ∧ Reduced P.X P.Y ∧ validPublicKey (.pt P) = true := by
  obtain ⟨h1, h2⟩ := pick_ok R fuel s s' P h
  refine ⟨(onCurve_iff _ _).2 h2, by rw [Reduced, fieldPrime_eq]; exact h1, (validPublicKey_pt P).2 h2⟩

/-- C13 (`Generate`). If `Generate` returns it is without error; the private key is in `(0, n)`, the public key is
`private·Base` and valid. -/
theorem C13_generate (R : CStream) (fuel : Nat) (s : R.State) (o : Outcome (R.State × Int × Pt))
    (h : generate R fuel s = some o) :
    ∃ s' k P, o = .ok (s', k, P) ∧ 0 < k ∧ k < Scalar.GroupOrder ∧ mulBase k = .ok P ∧ IsElt P ∧
      OnCurve P.X P.Y ∧ validPublicKey (.pt P) = true := by
  cases fuel with
  | zero => cases h
  | succ f =>
    rw [generate, Option.bind_eq_some_iff] at h
    obtain ⟨⟨s1, k⟩, h1, h2⟩ := h
    have hr := scalarPick_range R _ _ _ _ h1
    obtain ⟨P, h3, h4⟩ := mulBase_spec k
    have hv := mulBase_valid hr h3
    dsimp only at h2
    rw [h3] at h2
    dsimp only at h2
    rw [if_pos hv] at h2
    cases h2
    exact ⟨s1, k, P, rfl, hr.1, hr.2, h3, (groupElt_iff _).2 ⟨_, h4⟩,
      (onCurve_iff _ _).2 ((validPublicKey_pt P).1 hv), hv⟩

/-- C13 (one draw is enough). `Generate` returns as soon as the first scalar has been drawn: it never loops. -/
theorem C13_generate_first_draw (R : CStream) (fuel : Nat) (s s1 : R.State) (k : Int)
    (h : scalarPick R (fuel + 1) s = some (s1, k)) : ∃ P, generate R (fuel + 1) s = some (.ok (s1, k, P)) := by
  obtain ⟨P, h3, _⟩ := mulBase_spec k
  refine ⟨P, ?_⟩
  rw [generate, h, Option.bind_some]
  dsimp only
  rw [h3]
  dsimp only
  rw [if_pos (mulBase_valid (scalarPick_range R _ _ _ _ h) h3)]

example : ∃ s k P, generate (constStream 5) 3 () = some (.ok (s, k, P)) ∧ 0 < k := by
  have h : (scalarPick (constStream 5) 3 ()).isSome = true := by decide +kernel
  obtain ⟨⟨s1, k⟩, h⟩ := Option.isSome_iff_exists.1 h
  obtain ⟨P, hP⟩ := C13_generate_first_draw _ 2 _ _ _ h
  exact ⟨_, _, P, hP, (scalarPick_range _ _ _ _ _ h).1⟩

end Verif.Props
