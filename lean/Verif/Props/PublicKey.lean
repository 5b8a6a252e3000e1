import Verif.Model.PublicKey
import Verif.Proofs.Schnorr
import Verif.Props.Point

/-! Properties C61, C62: public_key.go. -/
namespace Verif.Props
open Verif.Point Verif.PublicKey

/-- A hexadecimal digit, in either case. -/
def IsHexDigit (c : UInt8) : Prop :=
  c ∈ [48, 49, 50, 51, 52, 53, 54, 55, 56, 57, 97, 98, 99, 100, 101, 102, 65, 66, 67, 68, 69, 70]

instance : DecidablePred IsHexDigit := fun _ => inferInstanceAs (Decidable (_ ∈ _))

theorem forall_uint8 {p : UInt8 → Prop} [DecidablePred p] (h : ∀ n : Fin 256, p (UInt8.ofNat n.val)) (c : UInt8) : p c := by
  have := h ⟨c.toNat, c.toNat_lt⟩
  simpa using this

theorem fromHexChar_isSome (c : UInt8) : (fromHexChar c).isSome = true ↔ IsHexDigit c := by
  revert c
  apply forall_uint8
  decide +kernel

theorem hex_byte (v : UInt8) : fromHexChar (hexChar (v >>> 4)) = some (v >>> 4) ∧
    fromHexChar (hexChar (v &&& 15)) = some (v &&& 15) ∧ ((v >>> 4) <<< 4 ||| (v &&& 15)) = v := by
  revert v
  apply forall_uint8
  decide +kernel

theorem hexDecode_encode (b : List UInt8) :
    hexDecodeString (b.flatMap fun (v : UInt8) => [hexChar (v >>> 4), hexChar (v &&& 15)]) = some b := by
  induction b with
  | nil => rfl
  | cons v b ih =>
    obtain ⟨h1, h2, h3⟩ := hex_byte v
    rw [List.flatMap_cons, List.cons_append, List.cons_append, List.nil_append, hexDecodeString, h1, h2, ih]
    simp [h3]

theorem hexDecodeString_isSome (s : List UInt8) :
    (∃ b, hexDecodeString s = some b ∧ 2 * b.length = s.length) ↔ s.length % 2 = 0 ∧ ∀ c ∈ s, IsHexDigit c := by
  induction s using hexDecodeString.induct with
  | case1 => simp [hexDecodeString]
  | case2 => simp [hexDecodeString]
  | case3 a b rest ih =>
    have ha := fromHexChar_isSome a
    have hb := fromHexChar_isSome b
    have hlen : (a :: b :: rest).length = rest.length + 2 := rfl
    rw [hlen]
    constructor
    · rintro ⟨r, h, hl⟩
      rw [hexDecodeString] at h
      cases hx : fromHexChar a with
      | none => rw [hx] at h; cases h
      | some x =>
        cases hy : fromHexChar b with
        | none => rw [hx, hy] at h; cases h
        | some y =>
          cases hr : hexDecodeString rest with
          | none => rw [hx, hy, hr] at h; cases h
          | some r' =>
            rw [hx, hy, hr] at h
            cases h
            rw [List.length_cons] at hl
            rw [hx] at ha; rw [hy] at hb
            obtain ⟨h1, h2⟩ := ih.1 ⟨r', hr, by omega⟩
            refine ⟨by omega, ?_⟩
            intro c hc
            rcases List.mem_cons.1 hc with rfl | hc
            · exact ha.1 rfl
            · rcases List.mem_cons.1 hc with rfl | hc
              · exact hb.1 rfl
              · exact h2 c hc
    · rintro ⟨h1, h2⟩
      obtain ⟨r', hr, hl⟩ := ih.2 ⟨by omega, fun c hc => h2 c (by simp [hc])⟩
      obtain ⟨x, hx⟩ := Option.isSome_iff_exists.1 (ha.2 (h2 a (by simp)))
      obtain ⟨y, hy⟩ := Option.isSome_iff_exists.1 (hb.2 (h2 b (by simp)))
      refine ⟨(x <<< 4 ||| y) :: r', ?_, by rw [List.length_cons]; omega⟩
      rw [hexDecodeString, hx, hy, hr]; rfl

theorem hexDecodeString_length {s b : List UInt8} (h : hexDecodeString s = some b) : 2 * b.length = s.length := by
  induction s using hexDecodeString.induct generalizing b with
  | case1 => cases h; rfl
  | case2 => cases h
  | case3 a c rest ih =>
    rw [hexDecodeString] at h
    cases hx : fromHexChar a with
    | none => rw [hx] at h; cases h
    | some x =>
      cases hy : fromHexChar c with
      | none => rw [hx, hy] at h; cases h
      | some y =>
        cases hr : hexDecodeString rest with
        | none => rw [hx, hy, hr] at h; cases h
        | some r' =>
          rw [hx, hy, hr] at h
          cases h
          have := ih hr
          simp only [List.length_cons]; omega

/-- C61 (round trips). Whatever the old receiver `k0`, parsing the text or database form of a 33-byte key gives the key
back without error. -/
theorem C61_roundtrip (k0 k : List UInt8) (hk : k.length = 33) :
    setFromHex k0 (string k) = (k, true) ∧ unmarshalText k0 (marshalText k) = (k, true) ∧
    scan k0 (value k) = (k, true) := by
  have h : setFromHex k0 (string k) = (k, true) := by
    have h1 : newPublicKeyFromHex (string k) = .ok k := by
      rw [newPublicKeyFromHex, string, hexutilEncode, hexutilDecode, if_pos (Or.inl rfl), hexDecode_encode]
      rw [Outcome.ofOption_some, Outcome.bind_ok, newPublicKeyFromBytes, if_neg (fun h => h hk)]
    rw [setFromHex, h1]
  exact ⟨h, h, h⟩

/-- C61 (acceptance). Parsing succeeds exactly on 0x (or 0X) followed by 66 hexadecimal digits; otherwise the receiver
is unchanged. Other database types are refused. -/
theorem C61_accepts (k0 s : List UInt8) :
    ((setFromHex k0 s).2 = true ↔
      ∃ x ds, s = 48 :: x :: ds ∧ (x = 120 ∨ x = 88) ∧ ds.length = 66 ∧ ∀ c ∈ ds, IsHexDigit c) ∧
    ((setFromHex k0 s).2 = false → (setFromHex k0 s).1 = k0) ∧
    ((setFromHex k0 s).2 = true → (setFromHex k0 s).1.length = 33) ∧
    scan k0 .other = (k0, false) := by
  refine ⟨⟨?_, ?_⟩, ?_, ?_, rfl⟩
  · intro h
    rw [setFromHex] at h
    cases hk : newPublicKeyFromHex s with
    | err => rw [hk] at h; cases h
    | panic => rw [hk] at h; cases h
    | ok nk =>
      rw [newPublicKeyFromHex, Outcome.bind_eq_ok] at hk
      obtain ⟨raw, h1, h2⟩ := hk
      rw [newPublicKeyFromBytes, compressedLength] at h2
      by_cases hl : raw.length = 33
      swap
      · rw [if_pos (by exact hl)] at h2; cases h2
      unfold hexutilDecode at h1
      split at h1
      · rename_i x rest
        by_cases hx : x = 120 ∨ x = 88
        · rw [if_pos hx, Outcome.ofOption_eq_ok] at h1
          have hlen := hexDecodeString_length h1
          have := (hexDecodeString_isSome rest).1 ⟨raw, h1, hlen⟩
          exact ⟨x, rest, rfl, hx, by omega, this.2⟩
        · rw [if_neg hx] at h1; cases h1
      · cases h1
  · rintro ⟨x, ds, rfl, hx, hl, hd⟩
    obtain ⟨b, h1, h2⟩ := (hexDecodeString_isSome ds).2 ⟨by omega, hd⟩
    have h3 : newPublicKeyFromHex (48 :: x :: ds) = .ok b := by
      rw [newPublicKeyFromHex, hexutilDecode, if_pos hx, h1, Outcome.ofOption_some, Outcome.bind_ok,
        newPublicKeyFromBytes, if_neg (show ¬ b.length ≠ compressedLength by rw [compressedLength]; omega)]
    rw [setFromHex, h3]
  · intro h
    rw [setFromHex] at h ⊢
    cases hk : newPublicKeyFromHex s with
    | ok nk => rw [hk] at h; cases h
    | err => rfl
    | panic => rfl
  · intro h
    rw [setFromHex] at h ⊢
    cases hk : newPublicKeyFromHex s with
    | err => rw [hk] at h; cases h
    | panic => rw [hk] at h; cases h
    | ok nk =>
      rw [newPublicKeyFromHex, Outcome.bind_eq_ok] at hk
      obtain ⟨raw, h1, h2⟩ := hk
      rw [newPublicKeyFromBytes, compressedLength] at h2
      by_cases hl : raw.length = 33
      · rw [if_neg (fun h => h hl)] at h2; cases h2; exact hl
      · rw [if_pos (by exact hl)] at h2; cases h2

example : (setFromHex [] (48 :: 120 :: List.replicate 66 97)).1 = List.replicate 33 0xaa ∧
    (setFromHex [7] (48 :: 120 :: List.replicate 65 97)) = ([7], false) ∧
    (setFromHex [7] (List.replicate 68 48)) = ([7], false) := by decide +kernel

/-- C62. A key which decodes has the Ethereum address of its point (for every hash with 32-byte values), any other key
the zero address; the zero key never decodes; `Address` and `Hash` never panic. -/
theorem C62_address (H : List UInt8 → List UInt8) (hH : ∀ b, (H b).length = 32) (k : List UInt8) :
    (∀ P, unmarshalBinary k = .ok P → address H k = Spec.address H P.X P.Y ∧ ethereumAddress H P = .ok (address H k) ∧
      mustHash H k = .ok (H (Spec.toBE 32 P.X.toNat ++ Spec.toBE 32 P.Y.toNat))) ∧
    ((∀ P, unmarshalBinary k ≠ .ok P) → address H k = List.replicate 20 0 ∧ mustHash H k = .panic) ∧
    (isZero k = true → ∀ P, unmarshalBinary k ≠ .ok P) ∧ hash H k ≠ .panic := by
  refine ⟨?_, ?_, ?_, ?_⟩
  · intro P hP
    have hr := (C08_unmarshal_result k P hP).1
    rw [Reduced, fieldPrime_eq] at hr
    have hl := hH (Spec.toBE 32 P.X.toNat ++ Spec.toBE 32 P.Y.toNat)
    have hh : hash H k = .ok (H (Spec.toBE 32 P.X.toNat ++ Spec.toBE 32 P.Y.toNat)) := by
      rw [PublicKey.hash, point, hP, Outcome.bind_ok, longMarshal, Spec.field_bytes_eq hr.1, Spec.field_bytes_eq hr.2]
      simp [rightAlign, hl]
    have ha : address H k = Spec.address H P.X P.Y := by
      rw [address, hh]
      simp only [rightAlign, List.length_drop, hl, Spec.address]
      simp
    refine ⟨ha, ?_, by rw [mustHash, hh]; rfl⟩
    rw [Schnorr.ethereumAddress_eq, Schnorr.addrOf_spec H hH hr, ha]
  · intro h
    have hh : hash H k = .err := by
      cases hu : unmarshalBinary k with
      | ok P => exact absurd hu (h P)
      | err => rw [PublicKey.hash, point, hu]; rfl
      | panic => exact absurd hu (unmarshalBinary_ne_panic k)
    rw [address, mustHash, hh]
    exact ⟨rfl, rfl⟩
  · intro hz P hP
    rw [isZero, beq_iff_eq] at hz
    rw [hz] at hP
    have : unmarshalBinary (List.replicate compressedLength 0) = .err := by decide +kernel
    rw [this] at hP; cases hP
  · rw [PublicKey.hash, Outcome.bind_ne_panic]
    refine ⟨unmarshalBinary_ne_panic k, ?_⟩
    intro P _
    rw [longMarshal, Spec.field_bytes_eq', Spec.field_bytes_eq']
    simp

example : (∃ P, unmarshalBinary (List.replicate 31 0 ++ [1, 0]) = .ok P) ∧ isZero (List.replicate 33 0) = true := by
  refine ⟨?_, by decide⟩
  rw [← Outcome.isOk_iff]; decide +kernel

/-- C61 (uncompressed text). `StringUncompressed` of a key which decodes is 0x and the 128 digits of both
coordinates, which `LongUnmarshal` maps back to the point. -/
theorem C61_uncompressed (k : List UInt8) (P : Pt) (h : unmarshalBinary k = .ok P) :
    ∃ t m, stringUncompressed k = .ok t ∧ hexutilDecode t = .ok m ∧ longUnmarshal m = .ok P := by
  obtain ⟨hr, hc, _⟩ := C08_unmarshal_result k P h
  obtain ⟨m, h1, _, h2⟩ := C09_roundtrip P hr hc
  refine ⟨hexutilEncode m, m, ?_, ?_, h2⟩
  · rw [stringUncompressed, point, h, Outcome.bind_ok, h1]; rfl
  · rw [hexutilEncode, hexutilDecode, if_pos (Or.inl rfl), hexDecode_encode]; rfl

end Verif.Props
