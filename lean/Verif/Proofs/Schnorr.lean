import Verif.Model.Schnorr
import Verif.Proofs.Dlog
import Verif.Proofs.SpecBytes
import Verif.Proofs.PointRandom

/-! Lemmas about ethschnorr.go. -/
namespace Verif.Schnorr
open Verif.Point
variable (H : List UInt8 → List UInt8)

theorem validSignature_iff (s : Int) : validSignature s = true ↔ 0 ≤ s ∧ s < Scalar.GroupOrder := by
  rw [validSignature, Bool.and_eq_true, beq_iff_eq, bne_iff_ne, ne_eq, BigInt.cmp_eq_neg_one, BigInt.cmp_eq_neg_one]
  constructor <;> rintro ⟨h1, h2⟩ <;> exact ⟨by omega, by omega⟩

theorem maxUint256_eq : maxUint256 = 2 ^ 256 - 1 := rfl

theorem msg_test (m : Int) : (BigInt.cmp m 0 == -1 || BigInt.cmp m maxUint256 == 1) = true ↔ ¬ (0 ≤ m ∧ m < 2 ^ 256) := by
  rw [Bool.or_eq_true, beq_iff_eq, beq_iff_eq, BigInt.cmp_eq_neg_one, BigInt.cmp_eq_one, maxUint256_eq]
  omega

/-- The address of a model point. -/
def addrOf (P : Pt) : List UInt8 :=
  copyInto 20 ((H (Spec.toBE 32 (Field.modQ P.X).toNat ++ Spec.toBE 32 (Field.modQ P.Y).toNat)).drop 12)

theorem ethereumAddress_eq (P : Pt) : ethereumAddress H P = .ok (addrOf H P) := by
  rw [ethereumAddress, longMarshal, Spec.field_bytes_eq', Spec.field_bytes_eq']; rfl

theorem addrOf_spec (hH : ∀ b, (H b).length = 32) {P : Pt}
    (hr : (0 ≤ P.X ∧ P.X < Field.q) ∧ (0 ≤ P.Y ∧ P.Y < Field.q)) : addrOf H P = Spec.address H P.X P.Y := by
  rw [addrOf, Field.modQ_of_range hr.1.1 hr.1.2, Field.modQ_of_range hr.2.1 hr.2.2, copyInto, Spec.address]
  have hl := hH (Spec.toBE 32 P.X.toNat ++ Spec.toBE 32 P.Y.toNat)
  rw [List.length_drop, hl, List.take_of_length_le (by rw [List.length_drop, hl])]
  simp

theorem length_addrOf (P : Pt) : (addrOf H P).length = 20 := by
  rw [addrOf, copyInto, List.length_append, List.length_take, List.length_replicate]; omega

/-- The challenge of the code for a curve point. -/
def chalOf (P : Pt) (addr : List UInt8) (msg : Int) : Int :=
  Scalar.setBytes (H (Spec.toBE 32 (Field.modQ P.X).toNat ++ [if Field.isEven P.Y then 0 else 1] ++
    BigInt.bytes msg ++ addr))

theorem challengeHash_eq {P : Pt} (hc : OnCurve P.X P.Y) (addr : List UInt8) (msg : Int) :
    challengeHash H P addr msg = .ok (chalOf H P addr msg) := by
  have : marshalBinary P = .ok (Spec.toBE 32 (Field.modQ P.X).toNat ++ [if Field.isEven P.Y then 0 else 1]) :=
    (marshalBinary_ok_iff P _).2 ⟨(Point.onCurve_iff _ _).1 hc, _, Spec.field_bytes_eq' _, rfl⟩
  rw [challengeHash, this]; rfl

theorem challengeHash_err {P : Pt} (hc : ¬ OnCurve P.X P.Y) (addr : List UInt8) (msg : Int) :
    challengeHash H P addr msg = .err := by
  rw [challengeHash, (marshalBinary_err_iff P).2 (fun h => hc ((Point.onCurve_iff _ _).2 h))]; rfl

theorem chalOf_range (P : Pt) (addr : List UInt8) (msg : Int) :
    0 ≤ chalOf H P addr msg ∧ chalOf H P addr msg < Scalar.GroupOrder := Scalar.modG_range _

theorem sign_byte (y : Int) : (if Field.isEven y then (0 : UInt8) else 1) = if y % 2 = 0 then 0 else 1 := by
  by_cases h : y % 2 = 0
  · rw [if_pos h, if_pos]; rw [Field.isEven, beq_iff_eq]; exact h
  · rw [if_neg h, if_neg]; rw [Field.isEven, beq_iff_eq]; exact h

theorem chalOf_spec {P : Pt} (hr : (0 ≤ P.X ∧ P.X < Field.q)) (addr : List UInt8) {msg : Int} (hm : 0 ≤ msg) :
    chalOf H P addr msg = (Spec.challenge H P.X P.Y addr msg.toNat : Nat) := by
  have e := sign_byte P.Y
  have h2 : msg.natAbs = msg.toNat := by omega
  rw [chalOf, Field.modQ_of_range hr.1 hr.2, e, Spec.bytes_eq, h2, Spec.challenge, Spec.challengeBytes, Spec.compressed,
    Scalar.setBytes, Scalar.modG, BigInt.mod, BigInt.setBytes_eq, Scalar.order_eq]
  push_cast; rfl

/-- `Verify` in exponents. -/
theorem verify_iff {P : Pt} {x : Fn} (hx : Log P x) (msg : Int) (sig : Sig) :
    verify H (.pt P) msg sig = .ok () ↔
      (0 ≤ sig.s ∧ sig.s < Scalar.GroupOrder) ∧ x ≠ 0 ∧ (0 ≤ msg ∧ msg < 2 ^ 256) ∧
      addrOf H (ofLog ((sig.s : Fn) + (chalOf H P sig.addr msg : Fn) * x)) = sig.addr := by
  rw [verify, verifyFull]
  by_cases hs : validSignature sig.s = true
  swap
  · rw [Bool.not_eq_true] at hs
    rw [hs]
    have := validSignature_iff sig.s
    rw [hs] at this
    constructor
    · intro h; cases h
    · rintro ⟨h1, _⟩; exact absurd (this.2 h1) (by simp)
  rw [hs]
  have hs' := (validSignature_iff _).1 hs
  simp only [Bool.not_true, Bool.false_eq_true, if_false]
  by_cases hv : validPublicKey (.pt P) = true
  swap
  · have hx0 := fun h => hv (hx.valid_iff.2 h)
    rw [Bool.not_eq_true] at hv
    rw [hv]
    constructor
    · intro h; cases h
    · rintro ⟨_, h, _⟩; exact absurd h hx0
  rw [hv]
  have hx0 := hx.valid_iff.1 hv
  simp only [Bool.not_true, Bool.false_eq_true, if_false]
  by_cases hm : 0 ≤ msg ∧ msg < 2 ^ 256
  swap
  · rw [if_pos ((msg_test msg).2 hm)]
    constructor
    · intro h; cases h
    · rintro ⟨_, _, h, _⟩; exact absurd h hm
  rw [if_neg (fun h => (msg_test msg).1 h hm)]
  obtain ⟨r1, h1, h2⟩ := log_mulBase (Scalar.intToScalar sig.s)
  obtain ⟨r2, h3, h4⟩ := hx.mul (chalOf H P sig.addr msg)
  have e : (Scalar.intToScalar sig.s : Fn) = (sig.s : Fn) := Scalar.cast_modG _
  have h5 : add r1 r2 = ofLog ((sig.s : Fn) + (chalOf H P sig.addr msg : Fn) * x) :=
    (h2.add h4).unique_left (by rw [e]; exact log_ofLog _)
  rw [challengeHash_eq H (hx.onCurve_iff.2 hx0)]
  dsimp only
  rw [Outcome.bind_ok, h1, Outcome.bind_ok, h3, Outcome.bind_ok, ethereumAddress_eq, Outcome.bind_ok, h5]
  by_cases ha : sig.addr = addrOf H (ofLog ((sig.s : Fn) + (chalOf H P sig.addr msg : Fn) * x))
  · rw [if_neg (fun h => h ha)]
    exact ⟨fun _ => ⟨hs', hx0, hm, ha.symm⟩, fun _ => rfl⟩
  · rw [if_pos ha]
    constructor
    · intro h; cases h
    · rintro ⟨_, _, _, h⟩; exact absurd h.symm ha

theorem verifyFull_snd (pub : KPoint) (msg : Int) (sig : Sig) : (verifyFull H pub msg sig).2 = sig.s := by
  rw [verifyFull.eq_def]
  by_cases hs : validSignature sig.s = true
  swap
  · rw [Bool.not_eq_true] at hs; rw [hs]; rfl
  rw [hs]
  have hs' := (validSignature_iff _).1 hs
  simp only [Bool.not_true, Bool.false_eq_true, if_false]
  cases pub with
  | nil => rfl
  | «foreign» => rfl
  | pt P =>
    dsimp only
    by_cases hv : validPublicKey (.pt P) = true
    swap
    · rw [Bool.not_eq_true] at hv; rw [hv]; rfl
    rw [hv]
    simp only [Bool.not_true, Bool.false_eq_true, if_false]
    by_cases hm : (BigInt.cmp msg 0 == -1 || BigInt.cmp msg maxUint256 == 1) = true
    · rw [if_pos hm]
    · rw [if_neg hm, Scalar.intToScalar, Scalar.modG_of_range hs'.1 hs'.2, ite_self]

theorem marshalBinary_ne_panic (P : Pt) : marshalBinary P ≠ .panic := by
  intro h
  by_cases hc : (P.Y : Fq) ^ 2 = (P.X : Fq) ^ 3 + 7
  · have := (marshalBinary_ok_iff P _).2 ⟨hc, _, Spec.field_bytes_eq' _, rfl⟩
    rw [h] at this; cases this
  · rw [(marshalBinary_err_iff P).2 hc] at h; cases h

theorem challengeHash_ne_panic (P : Pt) (addr : List UInt8) (msg : Int) : challengeHash H P addr msg ≠ .panic := by
  rw [challengeHash, Outcome.bind_ne_panic]
  refine ⟨marshalBinary_ne_panic P, ?_⟩
  intro a _ h; cases h

theorem mul_isOk (s : Int) (P : Pt) : ∃ r, mul s P = .ok r := by
  obtain ⟨bs, h1, _⟩ := Scalar.marshalBinary_spec s
  rw [mul, h1]; exact ⟨_, rfl⟩

theorem verify_ne_panic (pub : KPoint) (msg : Int) (sig : Sig) : verify H pub msg sig ≠ .panic := by
  rw [verify, verifyFull.eq_def]
  by_cases hs : validSignature sig.s = true
  swap
  · rw [Bool.not_eq_true] at hs; rw [hs]; intro h; cases h
  rw [hs]
  simp only [Bool.not_true, Bool.false_eq_true, if_false]
  cases pub with
  | nil => intro h; cases h
  | «foreign» => intro h; cases h
  | pt P =>
    dsimp only
    by_cases hv : validPublicKey (.pt P) = true
    swap
    · rw [Bool.not_eq_true] at hv; rw [hv]; intro h; cases h
    rw [hv]
    simp only [Bool.not_true, Bool.false_eq_true, if_false]
    by_cases hm : (BigInt.cmp msg 0 == -1 || BigInt.cmp msg maxUint256 == 1) = true
    · rw [if_pos hm]; intro h; cases h
    · rw [if_neg hm]
      dsimp only
      rw [Outcome.bind_ne_panic]
      refine ⟨challengeHash_ne_panic H P sig.addr msg, ?_⟩
      intro e _
      obtain ⟨r1, h1, _⟩ := log_mulBase (Scalar.intToScalar sig.s)
      obtain ⟨r2, h2⟩ := mul_isOk e P
      rw [h1, Outcome.bind_ok, h2, Outcome.bind_ok, ethereumAddress_eq, Outcome.bind_ok]
      by_cases hc : sig.addr ≠ addrOf H (add r1 r2)
      · rw [if_pos hc]; intro h; cases h
      · rw [if_neg hc]; intro h; cases h

/-- `Sign` in exponents. -/
theorem signWith_eq {k priv : Int} (hp : (priv : Fn) ≠ 0) (msg : Int) :
    signWith H k priv msg = .ok ⟨addrOf H (ofLog (k : Fn)),
      Scalar.sub k (Scalar.mul (Scalar.modG priv) (chalOf H (ofLog (priv : Fn)) (addrOf H (ofLog (k : Fn))) msg))⟩ := by
  obtain ⟨r1, h1, h2⟩ := log_mulBase k
  obtain ⟨r2, h3, h4⟩ := log_mulBase (Scalar.modG priv)
  rw [Scalar.cast_modG] at h4
  rw [h2.unique_left (log_ofLog _)] at h1
  rw [h4.unique_left (log_ofLog _)] at h3
  rw [signWith]
  dsimp only
  rw [h1, Outcome.bind_ok, ethereumAddress_eq, Outcome.bind_ok, h3, Outcome.bind_ok,
    challengeHash_eq H ((log_ofLog _).onCurve_iff.2 hp), Outcome.bind_ok]
  rfl

theorem signWith_err {k priv : Int} (hp : (priv : Fn) = 0) (msg : Int) : signWith H k priv msg = .err := by
  obtain ⟨r1, h1, h2⟩ := log_mulBase k
  obtain ⟨r2, h3, h4⟩ := log_mulBase (Scalar.modG priv)
  rw [Scalar.cast_modG] at h4
  rw [signWith]
  dsimp only
  rw [h1, Outcome.bind_ok, ethereumAddress_eq, Outcome.bind_ok, h3, Outcome.bind_ok,
    challengeHash_err H (fun h => h4.onCurve_iff.1 h hp), Outcome.bind_err]

end Verif.Schnorr
