import Verif.Model.Text
import Verif.Props.Scalar
import Verif.Props.Point

/-! C97: text forms, sizes and conversions of scalars and points. -/
namespace Verif.Props.Text
open Verif.Point Verif.Field Verif.Text Verif.PublicKey

/-- The value of a hexadecimal digit. -/
def digit (c : Char) : Nat := if c.isDigit then c.toNat - 48 else c.toNat - 87

/-- The number that digits stand for. -/
def value (l : List Char) : Nat := l.foldl (fun a c => a * 16 + digit c) 0

theorem digit_char : ∀ n < 16, digit (Nat.digitChar n) = n ∧ Nat.digitChar n ≠ '}' ∧ Nat.digitChar n ≠ '-' := by decide +kernel

theorem value_digits (n : Nat) : value (Nat.toDigits 16 n) = n ∧ ∀ c ∈ Nat.toDigits 16 n, c ≠ '}' ∧ c ≠ '-' := by
  induction n using Nat.strongRecOn with
  | ind n ih =>
    rw [Nat.toDigits_eq_if (by decide)]
    by_cases h : n < 16
    · rw [if_pos h]
      obtain ⟨h1, h2⟩ := digit_char n h
      refine ⟨?_, fun c hc => by rw [List.mem_singleton.1 hc]; exact h2⟩
      rw [value, List.foldl_cons, List.foldl_nil, h1]; omega
    · rw [if_neg h]
      obtain ⟨h1, h2⟩ := digit_char (n % 16) (Nat.mod_lt _ (by decide))
      obtain ⟨h3, h4⟩ := ih (n / 16) (Nat.div_lt_self (by omega) (by decide))
      refine ⟨?_, fun c hc => ?_⟩
      · rw [value, List.foldl_append, ← value, h3, List.foldl_cons, List.foldl_nil, h1]; omega
      · rcases List.mem_append.1 hc with hc | hc
        · exact h4 c hc
        · rw [List.mem_singleton.1 hc]; exact h2

theorem hex_inj {a b : Int} (h : hex a = hex b) : a = b := by
  have one : ∀ n m : Nat, '-' :: Nat.toDigits 16 n ≠ Nat.toDigits 16 m := fun n m e =>
    ((value_digits m).2 '-' (by rw [← e]; exact List.mem_cons_self ..)).2 rfl
  have two : ∀ n m : Nat, Nat.toDigits 16 n = Nat.toDigits 16 m → n = m := fun n m e => by
    have := congrArg value e
    rwa [(value_digits n).1, (value_digits m).1] at this
  rw [hex, hex] at h
  by_cases ha : a < 0
  · rw [if_pos ha] at h
    by_cases hb : b < 0
    · rw [if_pos hb] at h
      have := two _ _ (List.cons.inj h).2
      omega
    · rw [if_neg hb] at h; exact absurd h (one _ _)
  · rw [if_neg ha] at h
    by_cases hb : b < 0
    · rw [if_pos hb] at h; exact absurd h.symm (one _ _)
    · rw [if_neg hb] at h
      have := two _ _ h
      omega

theorem hex_brace (a : Int) : '}' ∉ hex a := by
  rw [hex]
  have := fun c h => ((value_digits a.natAbs).2 c h).1
  by_cases ha : a < 0
  · rw [if_pos ha]
    intro h
    rcases List.mem_cons.1 h with h | h
    · cases h
    · exact this _ h rfl
  · rw [if_neg ha]
    exact fun h => this _ h rfl

theorem cut {ch : Char} : ∀ {a b r r' : List Char}, ch ∉ a → ch ∉ b → a ++ ch :: r = b ++ ch :: r' → a = b ∧ r = r'
  | [], [], _, _, _, _, h => ⟨rfl, (List.cons.inj h).2⟩
  | [], y :: b, _, _, _, hb, h => absurd (List.cons.inj h).1 fun e => hb (by rw [e]; exact List.mem_cons_self ..)
  | x :: a, [], _, _, ha, _, h => absurd (List.cons.inj h).1 fun e => ha (by rw [← e]; exact List.mem_cons_self ..)
  | x :: a, y :: b, _, _, ha, hb, h => by
    obtain ⟨e, h⟩ := List.cons.inj h
    obtain ⟨h1, h2⟩ := cut (fun x => ha (List.mem_cons_of_mem _ x)) (fun x => hb (List.mem_cons_of_mem _ x)) h
    exact ⟨by rw [e, h1], h2⟩

theorem field_cut {a b : Int} {r r' : List Char} (h : fieldText a ++ r = fieldText b ++ r') : a = b ∧ r = r' := by
  rw [fieldText, fieldText, List.append_assoc, List.append_assoc, List.append_assoc, List.append_assoc] at h
  obtain ⟨h1, h2⟩ := cut (ch := '}') (hex_brace a) (hex_brace b) (List.append_cancel_left h)
  exact ⟨hex_inj h1, h2⟩

/-- C97 (text of scalars). Reduced scalars print the same exactly if they are equal; the digits are those of the number. -/
theorem C97_scalar_text (s s' : Int) (h : 0 ≤ s ∧ s < secp256k1N) (h' : 0 ≤ s' ∧ s' < secp256k1N) :
    (scalarText s = scalarText s' ↔ Scalar.equal s s' = true) ∧
    ∃ d, scalarText s = "scalar{".toList ++ d ++ ['}'] ∧ ((value d : Nat) : Int) = s := by
  constructor
  · rw [Scalar.equal_iff, Scalar.cast_eq_iff, Scalar.modG_of_range h.1 h.2, Scalar.modG_of_range h'.1 h'.2]
    constructor
    · intro e
      rw [scalarText, scalarText, List.append_assoc, List.append_assoc] at e
      exact hex_inj (List.append_cancel_right (List.append_cancel_left e))
    · rintro rfl; rfl
  · refine ⟨_, rfl, ?_⟩
    rw [hex, if_neg (by omega), (value_digits _).1]
    omega

/-- C97 (text of points). Points with reduced coordinates print the same exactly if they are equal. -/
theorem C97_point_text (P Q : Pt) (hP : Reduced P.X P.Y) (hQ : Reduced Q.X Q.Y) :
    pointText P = pointText Q ↔ Point.equal P Q = true := by
  rw [equal_iff_eq hP hQ]
  constructor
  · intro e
    rw [pointText, pointText] at e
    simp only [List.append_assoc] at e
    obtain ⟨h1, e⟩ := field_cut (List.append_cancel_left e)
    obtain ⟨h2, _⟩ := field_cut (List.append_cancel_left e)
    cases P; cases Q
    dsimp only at h1 h2
    rw [h1, h2]
  · rintro rfl; rfl

/-- What happens to a number that is not reduced: equal scalars print differently. -/
theorem C97_unreduced_text : Scalar.equal 0 secp256k1N = true ∧ scalarText 0 ≠ scalarText secp256k1N := by
  refine ⟨by decide +kernel, fun e => ?_⟩
  rw [scalarText, scalarText, List.append_assoc, List.append_assoc] at e
  have := hex_inj (List.append_cancel_right (List.append_cancel_left e))
  exact absurd this (by decide +kernel)

/-- C97 (sizes). Every encoding of a scalar or point has the length that `ScalarLen` and `PointLen` give, and it is that of a public key;
nothing else can be decoded. The start of the program checks out. -/
theorem C97_sizes :
    (∀ s b, Scalar.marshalBinary s = .ok b → b.length = scalarLen) ∧ (∀ b s, Scalar.unmarshalBinary b = .ok s → b.length = scalarLen) ∧
    (∀ P b, marshalBinary P = .ok b → b.length = pointLen) ∧ (∀ b P, unmarshalBinary b = .ok P → b.length = pointLen) ∧
    initCheck = .ok () ∧ ∀ k l : List UInt8, k.length = pointLen → l.length = pointLen → pkSet k l = .ok l := by
  refine ⟨fun s b h => ?_, fun b s h => ?_, fun P b h => ?_, fun b P h => ?_, rfl, fun k l hk hl => ?_⟩
  · obtain ⟨bs, h1, h2, _⟩ := C03_roundtrip s
    rw [h1] at h
    rw [← Outcome.ok.inj h]; exact h2
  · by_contra hn
    have := (C03_unmarshal b).2 hn
    rw [this] at h; cases h
  · obtain ⟨_, xb, h1, h2⟩ := (marshalBinary_ok_iff P b).1 h
    obtain ⟨xb', h3, h4, _⟩ := Field.bytes_spec P.X
    rw [h3] at h1
    rw [h2, List.length_append, ← Outcome.ok.inj h1, h4]; rfl
  · obtain ⟨xb, c, e1, e2, _⟩ := (C08_unmarshal_accepts b).1.1 ⟨P, h⟩
    rw [e1, List.length_append, e2]; rfl
  · rw [pkSet]
    rw [hk, hl, if_neg (by decide)]
    rw [List.take_of_length_le (by rw [hl]; decide), List.drop_of_length_le (by rw [hk]; decide), List.append_nil]

/-- C97 (`ScalarToHash`). The hash of a reduced scalar is its encoding. Of any number the hash is its absolute value in the last 256 bits. -/
theorem C97_hash (s : Int) : (0 ≤ s ∧ s < secp256k1N → Scalar.marshalBinary s = .ok (scalarToHash s)) ∧
    (scalarToHash s).length = 32 ∧ beNat (scalarToHash s) = s.natAbs % 2 ^ 256 := by
  have hb := BigInt.beNat_bytes s
  have key : (scalarToHash s).length = 32 ∧ beNat (scalarToHash s) = s.natAbs % 2 ^ 256 := by
    rw [scalarToHash, rightAlign]
    by_cases h : 32 < (BigInt.bytes s).length
    · rw [if_pos h]
      have hl : ((BigInt.bytes s).drop ((BigInt.bytes s).length - 32)).length = 32 := by rw [List.length_drop]; omega
      refine ⟨hl, ?_⟩
      have hs := beNat_append ((BigInt.bytes s).take ((BigInt.bytes s).length - 32)) ((BigInt.bytes s).drop ((BigInt.bytes s).length - 32))
      rw [List.take_append_drop, hb, hl] at hs
      have hlt := beNat_lt ((BigInt.bytes s).drop ((BigInt.bytes s).length - 32))
      rw [hl] at hlt
      rw [hs, show (256 : Nat) ^ 32 = 2 ^ 256 by norm_num, Nat.mul_add_mod_self_right, Nat.mod_eq_of_lt (by rw [show (2 : Nat) ^ 256 = 256 ^ 32 by norm_num]; exact hlt)]
    · rw [if_neg h]
      have hlt := beNat_lt (BigInt.bytes s)
      rw [hb] at hlt
      refine ⟨by rw [List.length_append, List.length_replicate]; omega, ?_⟩
      rw [beNat_replicate_zero, hb, Nat.mod_eq_of_lt]
      calc s.natAbs < 256 ^ (BigInt.bytes s).length := hlt
        _ ≤ 256 ^ 32 := Nat.pow_le_pow_right (by norm_num) (by omega)
        _ = 2 ^ 256 := by norm_num
  refine ⟨fun h => ?_, key⟩
  obtain ⟨bs, h1, h2, h3⟩ := Scalar.marshalBinary_spec s
  rw [h1, beNat_injective (h2.trans key.1.symm)]
  rw [Scalar.modG_of_range h.1 h.2] at h3
  rw [key.2, Nat.mod_eq_of_lt]
  · omega
  · have := Scalar.order_lt
    have h4 := h.2
    have : s.natAbs < 256 ^ 32 := Scalar.natAbs_lt_of_range h.1 h4
    calc s.natAbs < 256 ^ 32 := this
      _ = 2 ^ 256 := by norm_num

/-- C97 (`Coordinates`). A point is got back from its coordinates if it is on the curve; otherwise there is a panic. -/
theorem C97_coordinates (P : Pt) (hP : Reduced P.X P.Y) :
    (OnCurve P.X P.Y → setCoordinates (coordinates P).1 (coordinates P).2 = .ok P) ∧
    (¬ OnCurve P.X P.Y → setCoordinates (coordinates P).1 (coordinates P).2 = .panic) := by
  obtain ⟨h1, h2⟩ := C09_setCoordinates P.X P.Y
  refine ⟨fun h => ?_, h2⟩
  rw [coordinates, h1 h, Int.emod_eq_of_lt hP.1.1 hP.1.2, Int.emod_eq_of_lt hP.2.1 hP.2.2]

/-- C97 (types). The tests tell scalars and points of the package from all else; the one for scalars leaves an equal scalar, reduced, and
nothing else changes. -/
theorem C97_types (v : Value) : (isSecp256k1Point v = true ↔ ∃ P, v = .point P) ∧ ((isSecp256k1Scalar v).1 = true ↔ ∃ s, v = .scalar s) ∧
    (∀ s, v = .scalar s → ∃ s', (isSecp256k1Scalar v).2 = .scalar s' ∧ Scalar.equal s s' = true ∧ 0 ≤ s' ∧ s' < secp256k1N) ∧
    ((∀ s, v ≠ .scalar s) → (isSecp256k1Scalar v).2 = v) := by
  cases v with
  | scalar s =>
    refine ⟨⟨nofun, nofun⟩, ⟨fun _ => ⟨s, rfl⟩, fun _ => rfl⟩, ?_, fun h => absurd rfl (h s)⟩
    rintro _ ⟨⟩
    refine ⟨_, rfl, ?_, Scalar.modG_range s⟩
    rw [Scalar.equal_iff, Scalar.cast_eq_iff, Scalar.modG_idem]
  | point P => exact ⟨⟨fun _ => ⟨P, rfl⟩, fun _ => rfl⟩, ⟨nofun, nofun⟩, nofun, fun _ => rfl⟩
  | other => exact ⟨⟨nofun, nofun⟩, ⟨nofun, nofun⟩, nofun, fun _ => rfl⟩

example : scalarText 255 = "scalar{ff}".toList := by decide +kernel
example : pointText ⟨10, 4095⟩ = "Secp256k1{X: fieldElt{a}, Y: fieldElt{fff}}".toList := by decide +kernel
example : scalarToHash 258 = List.replicate 30 0 ++ [1, 2] ∧ Scalar.marshalBinary 258 = .ok (List.replicate 30 0 ++ [1, 2]) := by decide +kernel
example : OnCurve base.X base.Y ∧ setCoordinates base.X base.Y = .ok base := by
  have : OnCurve base.X base.Y := by unfold OnCurve; decide +kernel
  refine ⟨this, (C97_coordinates base ?_).1 this⟩
  rw [Reduced]; decide +kernel
example : isSecp256k1Scalar (.scalar (secp256k1N + 3)) = (true, .scalar 3) := by decide +kernel
example : allowVarTime false = .panic ∧ scalarId ≠ pointId := by decide +kernel

end Verif.Props.Text
