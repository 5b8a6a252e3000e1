import Verif.Proofs.Point

/-! Properties C06-C11: point.go. -/
namespace Verif.Props
open Verif.Point Verif.Field

/-- The base point has the coordinates of SEC 2 and lies on the curve. -/
example : base = ⟨Btcec.gx, Btcec.gy⟩ ∧ OnCurve base.X base.Y ∧ Reduced base.X base.Y := by
  unfold OnCurve Reduced; decide +kernel

/-- C06. `ValidPublicKey` accepts exactly the non-nil points of this package which satisfy the affine curve
equation; in particular not the identity. -/
theorem C06_validPublicKey (k : KPoint) :
    (validPublicKey k = true ↔ ∃ P, k = .pt P ∧ OnCurve P.X P.Y) ∧ validPublicKey (.pt null) = false := by
  constructor
  · cases k with
    | nil => simp [validPublicKey]
    | «foreign» => simp [validPublicKey]
    | pt P =>
      rw [validPublicKey_pt, ← onCurve_iff]
      constructor
      · intro h; exact ⟨P, rfl, h⟩
      · rintro ⟨P', e, h⟩; cases e; exact h
  · cases h : validPublicKey (.pt null) with
    | false => rfl
    | true =>
      rw [validPublicKey_pt, ← onCurve_iff] at h
      exact absurd h (by unfold OnCurve; decide +kernel)

example : validPublicKey (.pt base) = true ∧ validPublicKey (.pt ⟨1, 1⟩) = false := by decide +kernel

/-- C07 (round trip). Every reduced curve point is encoded in 33 bytes and decoded to itself. -/
theorem C07_roundtrip (P : Pt) (hr : Reduced P.X P.Y) (hc : OnCurve P.X P.Y) :
    ∃ bs, marshalBinary P = .ok bs ∧ bs.length = 33 ∧ unmarshalBinary bs = .ok P := by
  rw [Reduced, fieldPrime_eq] at hr
  exact unmarshal_marshal hr.1 hr.2 ((onCurve_iff _ _).1 hc)

/-- C07 (failure). `MarshalBinary` returns an error exactly off the curve, whatever the coordinates, and so for
the identity; it never panics. -/
theorem C07_marshal_fails_iff (P : Pt) :
    (marshalBinary P = .err ↔ ¬ OnCurve P.X P.Y) ∧ marshalBinary P ≠ .panic ∧ marshalBinary null = .err := by
  refine ⟨by rw [marshalBinary_err_iff, onCurve_iff], ?_, ?_⟩
  · intro h
    by_cases hc : (P.Y : Fq) ^ 2 = (P.X : Fq) ^ 3 + 7
    · obtain ⟨xb, h1, _, _⟩ := Field.bytes_spec P.X
      have := (marshalBinary_ok_iff P _).2 ⟨hc, xb, h1, rfl⟩
      rw [h] at this; cases this
    · rw [(marshalBinary_err_iff P).2 hc] at h; cases h
  · rw [marshalBinary_err_iff, ← onCurve_iff]; unfold OnCurve; decide +kernel

/-- `Equal` is equality of residues. -/
theorem equal_iff_eq {P Q : Pt} (hP : Reduced P.X P.Y) (hQ : Reduced Q.X Q.Y) : equal P Q = true ↔ P = Q := by
  rw [Reduced, fieldPrime_eq] at hP hQ
  rw [Point.equal_iff, cast_inj_of_range hP.1 hQ.1, cast_inj_of_range hP.2 hQ.2]
  cases P; cases Q; simp

/-- C07 (canonical). Curve points are `Equal` iff their encodings are the same bytes. -/
theorem C07_equal_iff_bytes (P Q : Pt) (hP : Reduced P.X P.Y) (hQ : Reduced Q.X Q.Y)
    (cP : OnCurve P.X P.Y) (cQ : OnCurve Q.X Q.Y) :
    equal P Q = true ↔ marshalBinary P = marshalBinary Q := by
  rw [equal_iff_eq hP hQ]
  constructor
  · rintro rfl; rfl
  · intro h
    obtain ⟨bs, h1, _, h3⟩ := C07_roundtrip P hP cP
    obtain ⟨bs', h1', _, h3'⟩ := C07_roundtrip Q hQ cQ
    rw [h1, h1'] at h
    cases h
    rw [h3] at h3'
    exact Outcome.ok.inj h3'

example : marshalBinary base = .ok
    [0x79, 0xBE, 0x66, 0x7E, 0xF9, 0xDC, 0xBB, 0xAC, 0x55, 0xA0, 0x62, 0x95, 0xCE, 0x87, 0x0B, 0x07,
     0x02, 0x9B, 0xFC, 0xDB, 0x2D, 0xCE, 0x28, 0xD9, 0x59, 0xF2, 0x81, 0x5B, 0x16, 0xF8, 0x17, 0x98, 0] := by
  decide +kernel

/-- C08. Decoding succeeds iff the buffer is 32 bytes whose big-endian value is congruent to the x ordinate of a
curve point, followed by a byte 0 or 1; it never panics. -/
theorem C08_unmarshal_accepts (buf : List UInt8) :
    ((∃ P, unmarshalBinary buf = .ok P) ↔
      ∃ xb b, buf = xb ++ [b] ∧ xb.length = 32 ∧ (b = 0 ∨ b = 1) ∧ ∃ y : Int, OnCurve (beNat xb : Nat) y) ∧
    unmarshalBinary buf ≠ .panic := by
  refine ⟨⟨?_, ?_⟩, unmarshalBinary_ne_panic buf⟩
  · rintro ⟨P, h⟩
    obtain ⟨xb, b, e, hl, hb, hX, hc, _⟩ := unmarshalBinary_ok h
    refine ⟨xb, b, e, hl, hb, P.Y, ?_⟩
    rw [onCurve_iff, hc, hX, Field.setBytes, cast_modQ, BigInt.setBytes_eq]
  · rintro ⟨xb, b, rfl, hl, hb, y, hy⟩
    exact unmarshalBinary_complete xb b hl hb ⟨y, by simpa using (onCurve_iff _ _).1 hy⟩

/-- C08 (result). A decoded point is reduced, on the curve, has the encoded x mod q, and its y has the encoded
parity. -/
theorem C08_unmarshal_result (buf : List UInt8) (P : Pt) (h : unmarshalBinary buf = .ok P) :
    Reduced P.X P.Y ∧ OnCurve P.X P.Y ∧ P.X = (beNat (buf.take 32) : Int) % fieldPrime ∧
    (P.Y % 2 = 0 ↔ buf.getLast? = some 0) ∧ (P.Y % 2 = 1 ↔ buf.getLast? = some 1) := by
  obtain ⟨xb, b, e, hl, hb, hX, hc, hyr, hev⟩ := unmarshalBinary_ok h
  have hXr := modQ_range (BigInt.setBytes xb)
  have ht : buf.take 32 = xb := by rw [e, ← hl, List.take_left]
  have hlast : buf.getLast? = some b := by rw [e]; simp
  rw [isEven, beq_iff_eq, BigInt.mod] at hev
  rw [Reduced, fieldPrime_eq]
  refine ⟨⟨by rw [hX]; exact hXr, hyr⟩, (onCurve_iff _ _).2 hc, ?_, ?_, ?_⟩
  · rw [hX, ht, Field.setBytes, modQ_eq]; rfl
  · rw [hlast, hev]; simp
  · rw [hlast, Option.some.injEq]
    have : P.Y % 2 = 1 ↔ ¬ P.Y % 2 = 0 := by omega
    rw [this, hev]
    rcases hb with rfl | rfl <;> simp

example : unmarshalBinary (List.replicate 32 0 ++ [0]) = .err ∧
    unmarshalBinary (List.replicate 31 0 ++ [1, 0]) ≠ .err ∧
    unmarshalBinary (List.replicate 31 0 ++ [1, 2]) = .err := by decide +kernel

/-- A finding on C08: x ordinates are reduced, so an encoding need not be the canonical one: the strings for `1`
and for `q + 1` decode to the same point. -/
theorem C08_noncanonical_accepted : ∃ b1 b2 P, b1 ≠ b2 ∧ unmarshalBinary b1 = .ok P ∧ unmarshalBinary b2 = .ok P := by
  obtain ⟨P, hP⟩ : ∃ P, unmarshalBinary (List.replicate 31 0 ++ [1, 0]) = .ok P := by
    cases h : unmarshalBinary (List.replicate 31 0 ++ [1, 0]) with
    | ok P => exact ⟨P, rfl⟩
    | err => exact absurd h (by decide +kernel)
    | panic => exact absurd h (unmarshalBinary_ne_panic _)
  refine ⟨List.replicate 31 0 ++ [1, 0],
    List.replicate 27 0xff ++ [0xfe, 0xff, 0xff, 0xfc, 0x30, 0], P, by decide, hP, ?_⟩
  rw [← hP]; decide +kernel

/-- C09. The uncompressed encoding of a reduced curve point is 64 bytes and decodes to it. -/
theorem C09_roundtrip (P : Pt) (hr : Reduced P.X P.Y) (hc : OnCurve P.X P.Y) :
    ∃ m, longMarshal P = .ok m ∧ m.length = 64 ∧ longUnmarshal m = .ok P := by
  rw [Reduced, fieldPrime_eq] at hr
  obtain ⟨xb, hx1, hx2, hx3⟩ := Field.bytes_spec P.X
  obtain ⟨yb, hy1, hy2, hy3⟩ := Field.bytes_spec P.Y
  rw [modQ_of_range hr.1.1 hr.1.2] at hx3
  rw [modQ_of_range hr.2.1 hr.2.2] at hy3
  have hl : (xb ++ yb).length = 64 := by simp [hx2, hy2]
  refine ⟨xb ++ yb, by rw [longMarshal, hx1, hy1]; rfl, hl, ?_⟩
  have h1 : (xb ++ yb).take 32 = xb := by rw [← hx2, List.take_left]
  have h2 : (xb ++ yb).drop 32 = yb := by rw [← hx2, List.drop_left]
  have e : (⟨setInt (BigInt.setBytes xb), setInt (BigInt.setBytes yb)⟩ : Pt) = P := by
    rw [BigInt.setBytes_eq, BigInt.setBytes_eq, hx3, hy3, setInt, setInt, modQ_of_range hr.1.1 hr.1.2,
      modQ_of_range hr.2.1 hr.2.2]
  rw [longUnmarshal, if_neg (fun e => e hl), h1, h2]
  dsimp only
  rw [e, (validPublicKey_pt P).2 ((onCurve_iff _ _).1 hc)]; rfl

/-- C09 (acceptance). `LongUnmarshal` succeeds exactly on 64-byte strings whose halves satisfy the curve equation,
giving the halves reduced; it never panics. -/
theorem C09_accepts (m : List UInt8) :
    (∀ P, longUnmarshal m = .ok P ↔ m.length = 64 ∧ OnCurve (beNat (m.take 32) : Nat) (beNat (m.drop 32) : Nat) ∧
      P = ⟨(beNat (m.take 32) : Int) % fieldPrime, (beNat (m.drop 32) : Int) % fieldPrime⟩) ∧
    longUnmarshal m ≠ .panic := by
  by_cases hl : m.length = 64
  swap
  · rw [longUnmarshal, if_pos hl]; simp [hl]
  have e : longUnmarshal m = if (!validPublicKey (.pt ⟨modQ (BigInt.setBytes (m.take 32)),
      modQ (BigInt.setBytes (m.drop 32))⟩)) = true then .err
      else .ok ⟨modQ (BigInt.setBytes (m.take 32)), modQ (BigInt.setBytes (m.drop 32))⟩ := by
    rw [longUnmarshal, if_neg (fun e => e hl)]; rfl
  rw [e]
  have hv := validPublicKey_pt ⟨setInt (BigInt.setBytes (m.take 32)), setInt (BigInt.setBytes (m.drop 32))⟩
  simp only [setInt, cast_modQ] at hv
  rw [← onCurve_iff] at hv
  rw [fieldPrime_eq]
  by_cases hc : OnCurve (BigInt.setBytes (m.take 32)) (BigInt.setBytes (m.drop 32))
  · rw [hv.2 hc]
    refine ⟨fun P => ?_, by simp⟩
    rw [modQ_eq, modQ_eq]
    simp only [Bool.not_true, Bool.false_eq_true, if_false, Outcome.ok.injEq]
    constructor
    · rintro rfl; exact ⟨hl, hc, rfl⟩
    · rintro ⟨_, _, rfl⟩; rfl
  · have : validPublicKey (.pt ⟨modQ (BigInt.setBytes (m.take 32)), modQ (BigInt.setBytes (m.drop 32))⟩) = false := by
      rw [← Bool.not_eq_true, hv]; exact hc
    rw [this]
    refine ⟨fun P => ?_, by simp⟩
    simp only [Bool.not_false, if_true]
    constructor
    · intro h; cases h
    · rintro ⟨_, h, _⟩; exact absurd h hc

/-- C09 (`SetCoordinates`): returns the reduced coordinates iff they are on the curve, otherwise panics. -/
theorem C09_setCoordinates (x y : Int) :
    (OnCurve x y → setCoordinates x y = .ok ⟨x % fieldPrime, y % fieldPrime⟩) ∧
    (¬ OnCurve x y → setCoordinates x y = .panic) := by
  have hv := validPublicKey_pt ⟨setInt x, setInt y⟩
  simp only [setInt, cast_modQ] at hv
  rw [← onCurve_iff] at hv
  have e : setCoordinates x y = if (!validPublicKey (.pt ⟨modQ x, modQ y⟩)) = true then .panic
      else .ok ⟨modQ x, modQ y⟩ := rfl
  rw [e, fieldPrime_eq]
  constructor
  · intro h; rw [hv.2 h, modQ_eq, modQ_eq]; rfl
  · intro h
    have : validPublicKey (.pt ⟨modQ x, modQ y⟩) = false := by rw [← Bool.not_eq_true, hv]; exact h
    rw [this]; rfl

example : (∃ m, longMarshal base = .ok m ∧ longUnmarshal m = .ok base) ∧
    longUnmarshal (List.replicate 64 0) = .err ∧ setCoordinates 0 0 = .panic := by
  refine ⟨?_, by decide +kernel, by decide +kernel⟩
  obtain ⟨m, h1, _, h2⟩ := C09_roundtrip base (by unfold Reduced; decide +kernel) (by unfold OnCurve; decide +kernel)
  exact ⟨m, h1, h2⟩

/-- A group element of the model: reduced coordinates of a curve point, or (0,0). -/
abbrev IsElt (a : Pt) : Prop := GroupElt a.X a.Y

/-- C10 (closure). The operations map group elements to group elements. -/
theorem C10_closure (a b : Pt) (ha : IsElt a) (hb : IsElt b) :
    IsElt null ∧ IsElt base ∧ IsElt (add a b) ∧ IsElt (sub a b) ∧ IsElt (neg a) ∧
    ∀ s r, (mul s a = .ok r → IsElt r) ∧ (mulBase s = .ok r → IsElt r) := by
  rw [IsElt, groupElt_iff] at ha hb
  obtain ⟨A, hA⟩ := ha
  obtain ⟨B, hB⟩ := hb
  simp only [IsElt, groupElt_iff]
  refine ⟨⟨_, denotes_null⟩, ⟨_, denotes_base⟩, ⟨_, denotes_add hA hB⟩, ⟨_, denotes_sub hA hB⟩,
    ⟨_, denotes_neg hA⟩, ?_⟩
  intro s r
  obtain ⟨r1, h1, h2⟩ := mul_spec hA s
  obtain ⟨r2, h3, h4⟩ := mulBase_spec s
  constructor
  · intro h; rw [h1] at h; cases h; exact ⟨_, h2⟩
  · intro h; rw [h3] at h; cases h; exact ⟨_, h4⟩

/-- C10 (group laws). On group elements `Add` is associative and commutative with identity `Null` and inverses
`Neg`; `Sub` is adding the inverse. Equalities are of coordinates. -/
theorem C10_group_laws (a b c : Pt) (ha : IsElt a) (hb : IsElt b) (hc : IsElt c) :
    add (add a b) c = add a (add b c) ∧ add a b = add b a ∧ add null a = a ∧ add a null = a ∧
    add a (neg a) = null ∧ sub a b = add a (neg b) ∧ sub a a = null ∧ add (sub a b) b = a ∧ neg (neg a) = a := by
  rw [IsElt, groupElt_iff] at ha hb hc
  obtain ⟨A, hA⟩ := ha
  obtain ⟨B, hB⟩ := hb
  obtain ⟨C, hC⟩ := hc
  have hN := denotes_null
  refine ⟨?_, ?_, ?_, ?_, ?_, ?_, ?_, ?_, ?_⟩
  · rw [(denotes_add (denotes_add hA hB) hC).eq_iff (denotes_add hA (denotes_add hB hC)), add_assoc]
  · rw [(denotes_add hA hB).eq_iff (denotes_add hB hA), add_comm]
  · rw [(denotes_add hN hA).eq_iff hA, zero_add]
  · rw [(denotes_add hA hN).eq_iff hA, add_zero]
  · rw [(denotes_add hA (denotes_neg hA)).eq_iff hN, add_neg_cancel]
  · rw [(denotes_sub hA hB).eq_iff (denotes_add hA (denotes_neg hB)), sub_eq_add_neg]
  · rw [(denotes_sub hA hA).eq_iff hN, sub_self]
  · rw [(denotes_add (denotes_sub hA hB) hB).eq_iff hA, sub_add_cancel]
  · rw [(denotes_neg (denotes_neg hA)).eq_iff hA, neg_neg]

/-- The `k`-fold sum of `a`, by repeated addition. -/
def timesAdd (a : Pt) : Nat → Pt
  | 0 => null
  | k + 1 => add (timesAdd a k) a

theorem denotes_timesAdd {a : Pt} {A : SecpPoint} (h : Denotes a A) (k : Nat) :
    Denotes (timesAdd a k) (k • A) := by
  induction k with
  | zero => exact (zero_nsmul A).symm ▸ denotes_null
  | succ k ih => rw [succ_nsmul]; exact denotes_add ih h

/-- C10 (multiplication). For every scalar `s ≥ 0` and group element `a`, `Mul(s, a)` is the `s`-fold sum of `a`,
and `Mul(s, nil)` the `s`-fold sum of the base point; `Mul` never fails. -/
theorem C10_mul (s : Nat) (a : Pt) (ha : IsElt a) :
    mul s a = .ok (timesAdd a s) ∧ mulBase s = .ok (timesAdd base s) := by
  rw [IsElt, groupElt_iff] at ha
  obtain ⟨A, hA⟩ := ha
  have hmod : (Scalar.modG (s : Int)).toNat = s % secp256k1N := by
    have h1 := toNat_modG (s : Int)
    have h2 : Scalar.modG (s : Int) = ((s % secp256k1N : Nat) : Int) := by
      rw [Scalar.modG, BigInt.mod, Scalar.order_eq]; rfl
    rw [h2]; rfl
  obtain ⟨r1, h1, h2⟩ := mul_spec hA (s : Int)
  obtain ⟨r2, h3, h4⟩ := mulBase_spec (s : Int)
  rw [hmod, nsmul_mod] at h2 h4
  rw [h1, h3, h2.unique_left (denotes_timesAdd hA s), h4.unique_left (denotes_timesAdd denotes_base s)]
  exact ⟨rfl, rfl⟩

/-- C10 (multiplication by any representative): `Mul` depends only on the scalar mod n, so a negative scalar -s
gives the inverse. -/
theorem C10_mul_neg (s : Nat) (a : Pt) (ha : IsElt a) :
    mul (-(s : Int)) a = .ok (neg (timesAdd a s)) := by
  rw [IsElt, groupElt_iff] at ha
  obtain ⟨A, hA⟩ := ha
  obtain ⟨r1, h1, h2⟩ := mul_spec hA (-(s : Int))
  rw [h1]
  congr 1
  refine (h2.eq_iff (denotes_neg (denotes_timesAdd hA s))).2 ?_
  rw [eq_neg_iff_add_eq_zero, ← add_smul]
  have h3 := toNat_modG (-(s : Int))
  have hd : secp256k1N ∣ (Scalar.modG (-(s : Int))).toNat + s := by
    have : ((secp256k1N : Nat) : Int) ∣ (((Scalar.modG (-(s : Int))).toNat + s : Nat) : Int) := by
      push_cast; rw [h3, Scalar.modG, BigInt.mod, Scalar.order_eq]
      have := Int.emod_add_mul_ediv (-(s : Int)) (secp256k1N : Nat)
      exact ⟨-(-(s : Int) / (secp256k1N : Nat)), by linear_combination this⟩
    exact_mod_cast this
  obtain ⟨c, hc⟩ := hd
  rw [hc, mul_comm, mul_smul, n_smul_eq_zero]; exact nsmul_zero c

example : IsElt base ∧ add base base = timesAdd base 2 ∧
    mul 2 base = .ok (add base base) ∧ add base (neg base) = null ∧ base ≠ null := by
  refine ⟨by unfold IsElt GroupElt Reduced OnCurve; decide +kernel, by decide +kernel, by decide +kernel,
    by decide +kernel, by decide +kernel⟩

/-- C11. Every group element is killed by the group order, is `x·Base` for exactly one scalar `x` in `[0, n)`, and
non-identity elements have order exactly `n`: multiples coincide iff the scalars are congruent mod n. -/
theorem C11_cyclic_of_order_n (a : Pt) (ha : IsElt a) :
    timesAdd a secp256k1N = null ∧
    (∃! x : Int, (0 ≤ x ∧ x < Scalar.GroupOrder) ∧ mulBase x = .ok a) ∧
    (a ≠ null → ∀ j k : Nat, timesAdd a j = timesAdd a k ↔ j % secp256k1N = k % secp256k1N) ∧
    Nat.Prime secp256k1N := by
  rw [IsElt, groupElt_iff] at ha
  obtain ⟨A, hA⟩ := ha
  refine ⟨?_, ?_, ?_, Fact.out⟩
  · exact ((denotes_timesAdd hA _).eq_iff denotes_null).2 (n_smul_eq_zero A)
  · obtain ⟨k, hk, rfl⟩ := exists_nsmul_secpG A
    refine ⟨(k : Int), ⟨⟨Int.natCast_nonneg _, by rw [Scalar.order_eq]; exact_mod_cast hk⟩, ?_⟩, ?_⟩
    · rw [(C10_mul k base ((groupElt_iff _).2 ⟨_, denotes_base⟩)).2]
      congr 1
      exact (denotes_timesAdd denotes_base k).unique_left hA
    · rintro x ⟨⟨h0, h1⟩, h2⟩
      obtain ⟨r, h3, h4⟩ := mulBase_spec x
      rw [h2] at h3
      cases h3
      have := hA.unique_right h4
      rw [Scalar.modG_of_range h0 h1] at this
      rw [nsmul_inj_mod secpG_ne_zero, Nat.mod_eq_of_lt hk, Nat.mod_eq_of_lt] at this
      · omega
      · rw [Scalar.order_eq] at h1; omega
  · intro hne j k
    have hA0 : A ≠ 0 := fun e => hne ((hA.eq_iff denotes_null).2 e)
    rw [(denotes_timesAdd hA j).eq_iff (denotes_timesAdd hA k), nsmul_inj_mod hA0]

/-- C11 (distributivity): scalars act as the field Z/nZ. -/
theorem C11_scalar_action (s t : Int) (a : Pt) (ha : IsElt a) :
    ∃ sa ta, mul s a = .ok sa ∧ mul t a = .ok ta ∧ mul (Scalar.add s t) a = .ok (add sa ta) ∧
      mul (Scalar.mul s t) a = mul s ta ∧ (Scalar.equal s t = true → sa = ta) ∧
      (a ≠ null → sa = ta → Scalar.equal s t = true) := by
  rw [IsElt, groupElt_iff] at ha
  obtain ⟨A, hA⟩ := ha
  obtain ⟨sa, h1, h2⟩ := mul_spec hA s
  obtain ⟨ta, h3, h4⟩ := mul_spec hA t
  obtain ⟨r, h5, h6⟩ := mul_spec hA (Scalar.add s t)
  obtain ⟨r', h7, h8⟩ := mul_spec hA (Scalar.mul s t)
  obtain ⟨r'', h9, h10⟩ := mul_spec h4 s
  have castN : ∀ v : Int, ((((Scalar.modG v).toNat : Nat)) : Fn) = (v : Fn) := by
    intro v
    have : ((((Scalar.modG v).toNat : Nat)) : Fn) = ((((Scalar.modG v).toNat : Nat) : Int) : Fn) := (Int.cast_natCast _).symm
    rw [this, toNat_modG, Scalar.cast_modG]
  have congr' : ∀ j k : Nat, ((j : Fn) = (k : Fn)) → j • A = k • A := fun j k h =>
    nsmul_congr ((ZMod.natCast_eq_natCast_iff' _ _ _).1 h) A
  refine ⟨sa, ta, h1, h3, ?_, ?_, ?_, ?_⟩
  · rw [h5]; congr 1
    refine (h6.eq_iff (denotes_add h2 h4)).2 ?_
    rw [← add_smul]
    apply congr'
    push_cast
    rw [castN, castN, castN, Scalar.add, Scalar.cast_modG]; push_cast; rfl
  · rw [h7, h9]; congr 1
    refine (h8.eq_iff h10).2 ?_
    rw [← mul_smul]
    apply congr'
    push_cast
    rw [castN, castN, castN, Scalar.mul, Scalar.cast_modG]; push_cast; rfl
  · intro he
    refine (h2.eq_iff h4).2 (congr' _ _ ?_)
    rw [castN, castN]; exact (Scalar.equal_iff _ _).1 he
  · intro hne he
    have hA0 : A ≠ 0 := fun e => hne ((hA.eq_iff denotes_null).2 e)
    have := (h2.eq_iff h4).1 he
    rw [nsmul_inj_mod hA0, ← ZMod.natCast_eq_natCast_iff', castN, castN] at this
    exact (Scalar.equal_iff _ _).2 this

example : IsElt base ∧ base ≠ null := by
  refine ⟨by unfold IsElt GroupElt Reduced OnCurve; decide +kernel, by decide +kernel⟩

end Verif.Props
