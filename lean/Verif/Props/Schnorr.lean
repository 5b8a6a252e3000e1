import Verif.Proofs.Schnorr
import Verif.Props.PointRandom
import Verif.Props.Scalar

/-! Properties C14-C19: ethschnorr.go, for every hash function `H`. -/
namespace Verif.Props
open Verif.Point Verif.Schnorr
variable (H : List UInt8 → List UInt8)

/-- A hash for the examples: 32 bytes, the last one of which is one more than the sum of the input. -/
def toyHash (b : List UInt8) : List UInt8 := List.replicate 31 0 ++ [b.foldl (· + ·) 1]

/-- C14. For every private key not divisible by n, every message in [0, 2^256) and every nonce, signing succeeds
and verification under `private·Base` accepts. -/
theorem C14_sign_verifies (k priv msg : Int) (hp : priv % Scalar.GroupOrder ≠ 0) (hm : 0 ≤ msg ∧ msg < 2 ^ 256) :
    ∃ sig P, signWith H k priv msg = .ok sig ∧ mulBase priv = .ok P ∧ verify H (.pt P) msg sig = .ok () := by
  have hp' : (priv : Fn) ≠ 0 := by
    rw [← Scalar.cast_modG]
    intro h
    apply hp
    have h0 := (Scalar.modG_range priv)
    have : ((Scalar.modG priv : Int) : Fn) = ((0 : Int) : Fn) := by rw [h]; simp
    rw [ZMod.intCast_eq_intCast_iff'] at this
    rw [Scalar.order_eq] at h0
    rw [Int.emod_eq_of_lt h0.1 h0.2] at this
    simpa [Scalar.modG, BigInt.mod] using this
  obtain ⟨P, h1, h2⟩ := log_mulBase priv
  refine ⟨_, P, signWith_eq H hp' msg, h1, ?_⟩
  rw [verify_iff H h2]
  refine ⟨Scalar.modG_range _, hp', hm, ?_⟩
  have : P = ofLog (priv : Fn) := h2.unique_left (log_ofLog _)
  rw [this]
  congr 2
  rw [Scalar.sub, Scalar.mul, Scalar.cast_modG]
  push_cast
  rw [Scalar.cast_modG]
  push_cast
  rw [Scalar.cast_modG]
  ring

/-- C14 (with the random stream): whenever `Sign` returns, it returns a signature which verifies. -/
theorem C14_sign_stream (R : CStream) (fuel : Nat) (st st' : R.State) (priv msg : Int) (o : Outcome Sig)
    (hp : priv % Scalar.GroupOrder ≠ 0) (hm : 0 ≤ msg ∧ msg < 2 ^ 256)
    (h : sign H R fuel st priv msg = some (st', o)) :
    ∃ sig P, o = .ok sig ∧ mulBase priv = .ok P ∧ verify H (.pt P) msg sig = .ok () := by
  rw [sign, Option.map_eq_some_iff] at h
  obtain ⟨⟨s1, k⟩, _, h2⟩ := h
  cases h2
  exact C14_sign_verifies H k priv msg hp hm

example : ∃ sig P, signWith toyHash 5 7 11 = .ok sig ∧ mulBase 7 = .ok P ∧ verify toyHash (.pt P) 11 sig = .ok () :=
  C14_sign_verifies toyHash 5 7 11 (by decide +kernel) (by decide)

/-- `Verify` tells keys apart: the same signature is refused under another key. -/
example : ((signWith toyHash 5 7 11).bind fun sig => verify toyHash (.pt base) 11 sig) = .err := by decide +kernel

theorem reduced_log {P : Pt} (hr : Reduced P.X P.Y) (hc : OnCurve P.X P.Y) : ∃ x : Fn, Log P x ∧ x ≠ 0 := by
  obtain ⟨x, hx⟩ := (exists_log_iff P).1 ⟨hr, .inr hc⟩
  exact ⟨x, hx, hx.onCurve_iff.1 hc⟩

theorem log_timesAdd {a : Pt} {x : Fn} (h : Log a x) (k : Nat) : Log (timesAdd a k) ((k : Fn) * x) := by
  have := denotes_timesAdd h k
  rw [natCast_smul_gexp] at this
  exact this

/-- C15. `Verify` accepts exactly when the scalar is in range, the key is a curve point, the message is a uint256 and
the address of `s·Base + e·P` is the committed address. Points are built by this package, hence reduced. -/
theorem C15_verify_iff (hH : ∀ b, (H b).length = 32) (pub : KPoint) (hred : ∀ P, pub = .pt P → Reduced P.X P.Y)
    (msg : Int) (sig : Sig) :
    verify H pub msg sig = .ok () ↔
      (0 ≤ sig.s ∧ sig.s < secp256k1N) ∧ (0 ≤ msg ∧ msg < 2 ^ 256) ∧
      ∃ P R, pub = .pt P ∧ OnCurve P.X P.Y ∧
        R = add (timesAdd base sig.s.toNat) (timesAdd P (Spec.challenge H P.X P.Y sig.addr msg.toNat)) ∧
        Spec.address H R.X R.Y = sig.addr := by
  rw [show ((secp256k1N : Nat) : Int) = Scalar.GroupOrder from rfl]
  cases pub with
  | nil =>
    simp only [reduceCtorEq, false_and, exists_false, and_false, iff_false]
    rw [verify, verifyFull]
    split <;> simp
  | «foreign» =>
    simp only [reduceCtorEq, false_and, exists_false, and_false, iff_false]
    rw [verify, verifyFull]
    split <;> simp
  | pt P =>
    have hr := hred P rfl
    by_cases hc : OnCurve P.X P.Y
    swap
    · constructor
      · intro h
        have hv : validPublicKey (.pt P) = false := by
          rw [← Bool.not_eq_true, validPublicKey_pt, ← Point.onCurve_iff]; exact hc
        rw [verify, verifyFull] at h
        by_cases hs : validSignature sig.s = true
        · rw [hs, hv] at h; cases h
        · rw [Bool.not_eq_true] at hs; rw [hs] at h; cases h
      · rintro ⟨_, _, P', R, e, h, _⟩
        cases e; exact absurd h hc
    obtain ⟨x, hx, hx0⟩ := reduced_log hr hc
    rw [verify_iff H hx]
    rw [Reduced, fieldPrime_eq] at hr
    have key : ∀ (h0 : 0 ≤ msg) (hs : 0 ≤ sig.s),
        add (timesAdd base sig.s.toNat) (timesAdd P (Spec.challenge H P.X P.Y sig.addr msg.toNat)) =
          ofLog ((sig.s : Fn) + (chalOf H P sig.addr msg : Fn) * x) := by
      intro h0 hs
      refine ((log_timesAdd log_base _).add (log_timesAdd hx _)).unique_left ?_
      have e1 : ((sig.s.toNat : Nat) : Fn) = (sig.s : Fn) := by
        rw [← Int.cast_natCast (sig.s.toNat), Int.toNat_of_nonneg hs]
      rw [chalOf_spec H hr.1 _ h0, Int.cast_natCast, e1, mul_one]
      exact log_ofLog _
    constructor
    · rintro ⟨h1, h2, h3, h4⟩
      refine ⟨h1, h3, P, _, rfl, hc, rfl, ?_⟩
      rw [key h3.1 h1.1, ← addrOf_spec H hH (log_ofLog _).1]
      exact h4
    · rintro ⟨h1, h3, P', R, e, _, rfl, h4⟩
      cases e
      rw [key h3.1 h1.1, ← addrOf_spec H hH (log_ofLog _).1] at h4
      exact ⟨h1, hx0, h3, h4⟩

/-- C15 (no side effect, no crash). On non-nil arguments `Verify` leaves the signature as it was and does not
panic. -/
theorem C15_verify_pure (pub : KPoint) (msg : Int) (sig : Sig) :
    (verifyFull H pub msg sig).2 = sig.s ∧ verify H pub msg sig ≠ .panic :=
  ⟨verifyFull_snd H pub msg sig, verify_ne_panic H pub msg sig⟩

/-- The hypotheses of C15 are satisfiable with both outcomes. -/
example : (∀ b, (toyHash b).length = 32) ∧ Reduced base.X base.Y ∧
    verify toyHash (.pt base) 3 ⟨List.replicate 20 0, 1⟩ = .err := by
  refine ⟨fun b => by simp [toyHash], by unfold Reduced; decide +kernel, by decide +kernel⟩

/-- C16. For one key, message and commitment address, at most one scalar is accepted, provided that distinct group
elements have distinct addresses; without the proviso two accepted scalars exhibit an address collision. -/
theorem C16_unique_s (P : Pt) (hr : Reduced P.X P.Y) (msg : Int) (a : List UInt8) (s1 s2 : Int)
    (h1 : verify H (.pt P) msg ⟨a, s1⟩ = .ok ()) (h2 : verify H (.pt P) msg ⟨a, s2⟩ = .ok ()) :
    s1 = s2 ∨ ∃ R1 R2, IsElt R1 ∧ IsElt R2 ∧ R1 ≠ R2 ∧ ethereumAddress H R1 = ethereumAddress H R2 := by
  have hc : OnCurve P.X P.Y := by
    by_contra hc
    have hv : validPublicKey (.pt P) = false := by
      rw [← Bool.not_eq_true, validPublicKey_pt, ← Point.onCurve_iff]; exact hc
    rw [verify, verifyFull] at h1
    by_cases hs : validSignature s1 = true
    · dsimp only at h1; rw [hs, hv] at h1; cases h1
    · rw [Bool.not_eq_true] at hs; dsimp only at h1; rw [hs] at h1; cases h1
  obtain ⟨x, hx, hx0⟩ := reduced_log hr hc
  rw [verify_iff H hx] at h1 h2
  obtain ⟨r1, _, _, h1⟩ := h1
  obtain ⟨r2, _, _, h2⟩ := h2
  by_cases h : s1 = s2
  · exact .inl h
  · right
    dsimp only at h1 h2
    refine ⟨ofLog ((s1 : Fn) + (chalOf H P a msg : Fn) * x), ofLog ((s2 : Fn) + (chalOf H P a msg : Fn) * x),
      (exists_log_iff _).2 ⟨_, log_ofLog _⟩, (exists_log_iff _).2 ⟨_, log_ofLog _⟩, ?_,
      by rw [ethereumAddress_eq, ethereumAddress_eq, h1, h2]⟩
    intro e
    have := ((log_ofLog _).eq_iff (log_ofLog _)).1 e
    rw [add_left_inj, ZMod.intCast_eq_intCast_iff'] at this
    dsimp only at r1 r2
    rw [Scalar.order_eq] at r1 r2
    rw [Int.emod_eq_of_lt r1.1 r1.2, Int.emod_eq_of_lt r2.1 r2.2] at this
    exact h this

/-- C16 (collision-free form). -/
theorem C16_no_malleability (hcol : ∀ R1 R2, IsElt R1 → IsElt R2 → ethereumAddress H R1 = ethereumAddress H R2 → R1 = R2)
    (P : Pt) (hr : Reduced P.X P.Y) (msg : Int) (a : List UInt8) (s1 s2 : Int)
    (h1 : verify H (.pt P) msg ⟨a, s1⟩ = .ok ()) (h2 : verify H (.pt P) msg ⟨a, s2⟩ = .ok ()) : s1 = s2 := by
  rcases C16_unique_s H P hr msg a s1 s2 h1 h2 with h | ⟨R1, R2, e1, e2, hne, he⟩
  · exact h
  · exact absurd (hcol R1 R2 e1 e2 he) hne

/-- C17. Special soundness: for two messages and signatures with the same commitment point `s1·B + e1·P = s2·B +
e2·P` and different challenges, `(s1-s2)/(e2-e1)` is the private key of `P`. This needs no acceptance; for accepted
signatures `e1`, `e2` are the challenges of `Verify`. -/
theorem C17_extract (P : Pt) (hP : IsElt P) (s1 s2 e1 e2 : Int) (R1 R2 A1 A2 : Pt)
    (hs1 : mulBase s1 = .ok R1) (hs2 : mulBase s2 = .ok R2) (he1 : mul e1 P = .ok A1) (he2 : mul e2 P = .ok A2)
    (hR : add R1 A1 = add R2 A2) (hne : Scalar.equal e1 e2 = false) :
    ∃ x, Scalar.div (Scalar.sub s1 s2) (Scalar.sub e2 e1) = .ok x ∧ 0 ≤ x ∧ x < secp256k1N ∧ mulBase x = .ok P := by
  obtain ⟨x, hx⟩ := (exists_log_iff P).1 hP
  obtain ⟨r1, a1, l1⟩ := log_mulBase s1
  obtain ⟨r2, a2, l2⟩ := log_mulBase s2
  obtain ⟨r3, a3, l3⟩ := hx.mul e1
  obtain ⟨r4, a4, l4⟩ := hx.mul e2
  rw [hs1] at a1; rw [hs2] at a2; rw [he1] at a3; rw [he2] at a4
  cases a1; cases a2; cases a3; cases a4
  have heq := ((l1.add l3).eq_iff (l2.add l4)).1 hR
  have hd : ((e2 : Fn) - (e1 : Fn)) ≠ 0 := by
    intro h
    have : (e1 : Fn) = (e2 : Fn) := (sub_eq_zero.1 h).symm
    rw [(Scalar.equal_iff e1 e2).2 this] at hne; cases hne
  have hz : ((Scalar.sub e2 e1 : Int) : Fn) = (e2 : Fn) - e1 := by
    have := Scalar.cast_modG (e2 - e1)
    push_cast at this; exact this
  have hz' : ((Scalar.sub s1 s2 : Int) : Fn) = (s1 : Fn) - s2 := by
    have := Scalar.cast_modG (s1 - s2)
    push_cast at this; exact this
  obtain ⟨v, hv, hrep, _⟩ := C02_div (Scalar.sub s1 s2) (Scalar.sub e2 e1) (by rw [hz]; exact hd)
  refine ⟨v, hv, hrep.1, hrep.2.1, ?_⟩
  obtain ⟨r, h5, h6⟩ := log_mulBase v
  rw [h5]
  congr 1
  refine (h6.eq_iff hx).2 ?_
  rw [hrep.2.2, hz, hz', div_eq_iff hd]
  linear_combination heq

/-- C17 (nonce reuse). Two signatures made with one key and one nonce on messages with different challenges reveal
the private key. -/
theorem C17_nonce_reuse (k priv m1 m2 e1 e2 : Int) (sig1 sig2 : Sig) (P : Pt)
    (h1 : signWith H k priv m1 = .ok sig1) (h2 : signWith H k priv m2 = .ok sig2) (hP : mulBase priv = .ok P)
    (he1 : challengeHash H P sig1.addr m1 = .ok e1) (he2 : challengeHash H P sig2.addr m2 = .ok e2) (hne : e1 ≠ e2) :
    Scalar.div (Scalar.sub sig1.s sig2.s) (Scalar.sub e2 e1) = .ok (priv % Scalar.GroupOrder) := by
  have hp : (priv : Fn) ≠ 0 := by
    intro h; rw [signWith_err H h] at h1; cases h1
  rw [signWith_eq H hp] at h1 h2
  cases h1; cases h2
  obtain ⟨r, h3, h4⟩ := log_mulBase priv
  rw [hP] at h3; cases h3
  have hc := h4.onCurve_iff.2 hp
  rw [challengeHash_eq H hc] at he1 he2
  cases he1; cases he2
  rw [← h4.unique_left (log_ofLog _)]
  dsimp only at hne ⊢
  generalize hE1 : chalOf H P (addrOf H (ofLog (k : Fn))) m1 = e1 at *
  generalize hE2 : chalOf H P (addrOf H (ofLog (k : Fn))) m2 = e2 at *
  have r1 := chalOf_range H P (addrOf H (ofLog (k : Fn))) m1
  have r2 := chalOf_range H P (addrOf H (ofLog (k : Fn))) m2
  rw [hE1] at r1
  rw [hE2] at r2
  have hd : (e2 : Fn) - (e1 : Fn) ≠ 0 := by
    intro h
    have : (e1 : Fn) = (e2 : Fn) := (sub_eq_zero.1 h).symm
    rw [Scalar.cast_eq_iff, Scalar.modG_of_range r1.1 r1.2, Scalar.modG_of_range r2.1 r2.2] at this
    exact hne this
  have csub : ∀ a b : Int, ((Scalar.sub a b : Int) : Fn) = (a : Fn) - b := fun a b => by
    have := Scalar.cast_modG (a - b); push_cast at this; exact this
  have cmul : ∀ a b : Int, ((Scalar.mul a b : Int) : Fn) = (a : Fn) * b := fun a b => by
    have := Scalar.cast_modG (a * b); push_cast at this; exact this
  obtain ⟨v, hv, hrep, _⟩ := C02_div (Scalar.sub (Scalar.sub k (Scalar.mul (Scalar.modG priv) e1))
    (Scalar.sub k (Scalar.mul (Scalar.modG priv) e2))) (Scalar.sub e2 e1) (by rw [csub]; exact hd)
  rw [hv]
  congr 1
  have h5 := hrep.2.2
  rw [csub, csub, csub, csub, cmul, cmul, Scalar.cast_modG, eq_div_iff hd] at h5
  have h6 : (v : Fn) = (priv : Fn) := by
    apply mul_right_cancel₀ hd
    linear_combination h5
  rw [Scalar.cast_eq_iff, Scalar.modG_of_range hrep.1 (by rw [Scalar.order_eq]; exact hrep.2.1)] at h6
  exact h6

example : ∃ x, Scalar.div (Scalar.sub 3 5) (Scalar.sub 2 1) = .ok x := by
  obtain ⟨v, hv, _⟩ := C02_div (Scalar.sub 3 5) (Scalar.sub 2 1) (by decide +kernel)
  exact ⟨v, hv⟩

/-- C18 (what is hashed). For a curve point with reduced coordinates the challenge is the hash of the 33 bytes of the
key, the minimal big-endian bytes of the message and the address, reduced mod n. -/
theorem C18_challenge_input (P : Pt) (hr : Reduced P.X P.Y) (hc : OnCurve P.X P.Y) (addr : List UInt8) (m : Nat) :
    challengeHash H P addr m = .ok ((beNat (H (Spec.challengeBytes P.X P.Y addr m)) % secp256k1N : Nat) : Int) := by
  rw [Reduced, fieldPrime_eq] at hr
  rw [challengeHash_eq H hc, chalOf_spec H hr.1 addr (Int.natCast_nonneg m)]
  rfl

/-- C18 (binding). The hashed bytes determine key, message and address. -/
theorem C18_binding (P P' : Pt) (hr : Reduced P.X P.Y) (hc : OnCurve P.X P.Y) (hr' : Reduced P'.X P'.Y)
    (hc' : OnCurve P'.X P'.Y) (a a' : List UInt8) (ha : a.length = 20) (ha' : a'.length = 20) (m m' : Nat)
    (h : Spec.challengeBytes P.X P.Y a m = Spec.challengeBytes P'.X P'.Y a' m') : P = P' ∧ a = a' ∧ m = m' := by
  rw [Spec.challengeBytes, Spec.challengeBytes] at h
  obtain ⟨h1, h2⟩ := List.append_inj' h (by rw [ha, ha'])
  have hl : ∀ x y : Int, (Spec.compressed x y).length = 33 := fun x y => by simp [Spec.compressed]
  obtain ⟨h3, h4⟩ := List.append_inj h1 (by rw [hl, hl])
  refine ⟨?_, h2, Spec.toBE_byteLen_inj h4⟩
  obtain ⟨bs, e1, _, e2⟩ := C07_roundtrip P hr hc
  obtain ⟨bs', e1', _, e2'⟩ := C07_roundtrip P' hr' hc'
  rw [Reduced, fieldPrime_eq] at hr hr'
  have key : ∀ Q : Pt, ((0 ≤ Q.X ∧ Q.X < Field.q) ∧ (0 ≤ Q.Y ∧ Q.Y < Field.q)) → OnCurve Q.X Q.Y →
      marshalBinary Q = .ok (Spec.compressed Q.X Q.Y) := by
    intro Q hq hcq
    refine (marshalBinary_ok_iff Q _).2 ⟨(Point.onCurve_iff _ _).1 hcq, _, Spec.field_bytes_eq hq.1, ?_⟩
    rw [Spec.compressed, sign_byte]
  have b1 : Spec.compressed P.X P.Y = bs := Outcome.ok.inj ((key P hr hc).symm.trans e1)
  have b2 : Spec.compressed P'.X P'.Y = bs' := Outcome.ok.inj ((key P' hr' hc').symm.trans e1')
  have b3 : bs = bs' := b1.symm.trans (h3.trans b2)
  exact Outcome.ok.inj (e2.symm.trans ((congrArg unmarshalBinary b3).trans e2'))

example : (Spec.challengeBytes 1 2 (List.replicate 20 9) 256).length = 55 ∧
    Spec.challengeBytes 1 2 (List.replicate 20 9) 256 ≠ Spec.challengeBytes 1 2 (List.replicate 20 9) 1 := by
  decide +kernel

/-- C19 is false of the code: the range check in `ChallengeHash` (ethschnorr.go:71) is guarded by `err != nil` and
never fires, so `Sign` signs the messages -1 and 2^256, and `Verify` refuses the results. -/
theorem C19_counterexample (k : Int) :
    (∃ sig P, signWith H k 1 (-1) = .ok sig ∧ mulBase 1 = .ok P ∧ verify H (.pt P) (-1) sig = .err) ∧
    (∃ sig P, signWith H k 1 (2 ^ 256) = .ok sig ∧ mulBase 1 = .ok P ∧ verify H (.pt P) (2 ^ 256) sig = .err) := by
  have h1 : ((1 : Int) : Fn) ≠ 0 := by decide +kernel
  obtain ⟨P, h2, h3⟩ := log_mulBase 1
  have key : ∀ msg : Int, ¬ (0 ≤ msg ∧ msg < 2 ^ 256) → ∀ sig, verify H (.pt P) msg sig = .err := by
    intro msg hm sig
    cases h : verify H (.pt P) msg sig with
    | ok u => exact absurd ((verify_iff H h3 msg sig).1 h).2.2.1 hm
    | err => rfl
    | panic => exact absurd h (verify_ne_panic H _ _ _)
  exact ⟨⟨_, P, signWith_eq H h1 _, h2, key _ (by decide) _⟩, ⟨_, P, signWith_eq H h1 _, h2, key _ (by decide +kernel) _⟩⟩

/-- C19 (what holds). `Sign` fails exactly for the zero key, whatever the message; a signature it returns verifies iff
the message is a uint256. Missing for the full claim: that `Sign` refuses the other messages. -/
theorem C19_sign_partial (k priv msg : Int) (P : Pt) (hP : mulBase priv = .ok P) :
    (signWith H k priv msg = .err ↔ priv % Scalar.GroupOrder = 0) ∧ signWith H k priv msg ≠ .panic ∧
    ∀ sig, signWith H k priv msg = .ok sig → (verify H (.pt P) msg sig = .ok () ↔ 0 ≤ msg ∧ msg < 2 ^ 256) := by
  have hz : priv % Scalar.GroupOrder = 0 ↔ (priv : Fn) = 0 := by
    rw [ZMod.intCast_zmod_eq_zero_iff_dvd, Scalar.order_eq]
    exact ⟨Int.dvd_of_emod_eq_zero, Int.emod_eq_zero_of_dvd⟩
  by_cases hp : (priv : Fn) = 0
  · rw [signWith_err H hp]; simp [hz, hp]
  · have hp' := fun h => hp (hz.1 h)
    rw [signWith_eq H hp]
    refine ⟨⟨fun h => (nomatch h), fun h => absurd h hp'⟩, by simp, ?_⟩
    intro sig hsig
    constructor
    · intro hv
      obtain ⟨r, h1, h2⟩ := log_mulBase priv
      rw [hP] at h1; cases h1
      exact ((verify_iff H h2 msg sig).1 hv).2.2.1
    · intro hm
      obtain ⟨sig', P', h1, h2, h3⟩ := C14_sign_verifies H k priv msg hp' hm
      rw [signWith_eq H hp, hsig] at h1
      rw [hP] at h2
      cases h1; cases h2; exact h3

end Verif.Props
