import Verif.Proofs.Hash
import Verif.Props.Point

/-!
C121: the hash object of the suite, and what the code computes with it. The rest of the model takes any function of the bytes that gives
32 bytes as hash function; this is one, and writing the bytes piece by piece, as the code does, gives it.
-/
namespace Verif.Props.Hash
open Verif Verif.Point
open Verif.Spec.Keccak (pad)

/-- C121: whatever is written in whatever pieces, `Sum` appends the Keccak-256 of all of it; more can be written afterwards. -/
theorem C121_written (pieces more : List (List UInt8)) (i j : List UInt8) :
    Hash.sum (pieces.foldl Hash.write Hash.new) i = i ++ Spec.Keccak.keccak256 pieces.flatten ∧
      Hash.sum (more.foldl Hash.write (pieces.foldl Hash.write Hash.new)) j = j ++ Spec.Keccak.keccak256 (pieces.flatten ++ more.flatten) := by
  have key : ∀ (l : List (List UInt8)) (d : Hash.Obj) (m : List UInt8), Hash.Fed d m → Hash.Fed (l.foldl Hash.write d) (m ++ l.flatten) := by
    intro l
    induction l with
    | nil => intro d m h; simpa using h
    | cons p l ih =>
      intro d m h
      have := ih _ _ (h.write p)
      rwa [List.append_assoc] at this
  have h1 := key pieces _ _ Hash.Fed.new
  exact ⟨h1.sum i, (key more _ _ h1).sum j⟩

/-- C121: a hash has 32 bytes. -/
theorem C121_length (m : List UInt8) : (Spec.Keccak.keccak256 m).length = 32 := Hash.keccak256_length m

/-- C121: the message begins what is absorbed, which fills its blocks, and different messages give different blocks. -/
theorem C121_pad (m : List UInt8) :
    m <+: pad m ∧ m.length < (pad m).length ∧ (pad m).length % 136 = 0 ∧ ∀ m', pad m = pad m' → m = m' := by
  refine ⟨?_, ?_, ?_, fun m' h => Hash.pad_inj m m' h⟩
  · unfold pad
    dsimp only
    split
    · exact List.prefix_append _ _
    · rw [List.append_assoc, List.append_assoc]; exact List.prefix_append _ _
  · rw [Hash.pad_length]; omega
  · rw [Hash.pad_length]; omega

/-- The shift register of FIPS 202, algorithm 5, bit `i` of the number being `R[i]`. -/
def shift (r : Nat) : Nat := if r.testBit 7 then (r <<< 1) ^^^ 0x171 else r <<< 1

/-- The bit that it gives at time `t`. -/
def rcBit (t : Nat) : Bool := (Nat.repeat shift (t % 255) 1).testBit 0

/-- The round constant: the bit `2 ^ j - 1` is the bit of time `j + 7 i`. -/
def roundConstant (i : Nat) : Nat := ((List.range 7).map fun j => if rcBit (j + 7 * i) then 2 ^ (2 ^ j - 1) else 0).sum

/-- The walk of FIPS 202, section 3.2.2: where the walk is at time `t`. -/
def walk : Nat → Nat × Nat
  | 0 => (1, 0)
  | t + 1 => ((walk t).2, (2 * (walk t).1 + 3 * (walk t).2) % 5)

/-- C121: the tables in the definition of the hash are those of the standard: the constants come from the shift register, the rotations
from the walk; the lane (0, 0), which the walk does not visit, is not rotated. -/
theorem C121_tables : Spec.Keccak.rc = (List.range 24).map roundConstant ∧ Spec.Keccak.rot.length = 25 ∧ Spec.Keccak.rot.getD 0 1 = 0 ∧
    ∀ t < 24, Spec.Keccak.rot.getD ((walk t).1 + 5 * (walk t).2) 0 = (t + 1) * (t + 2) / 2 % 64 := by decide +kernel

/-- One write after the other. -/
theorem sum_two (x y : List UInt8) : Hash.sum (Hash.write (Hash.write Hash.new x) y) [] = Spec.Keccak.keccak256 (x ++ y) :=
  ((Hash.Fed.new.write x).write y).sum []

theorem sum_one (x : List UInt8) : Hash.sum (Hash.write Hash.new x) [] = Spec.Keccak.keccak256 x := (Hash.Fed.new.write x).sum []

theorem pointTo_ok {d : Hash.Obj} {P : Pt} {b : List UInt8} (h : marshalBinary P = .ok b) : Hash.pointTo d P = .ok (Hash.write d b, true) := by
  unfold Hash.pointTo; rw [h]

theorem pointTo_err {d : Hash.Obj} {P : Pt} (h : marshalBinary P = .err) : Hash.pointTo d P = .ok (d, false) := by
  unfold Hash.pointTo; rw [h]

theorem enc_ok {P : Pt} {b : List UInt8} (h : marshalBinary P = .ok b) : Dss.marshalOrNothing P = b := by
  unfold Dss.marshalOrNothing; rw [h]

theorem enc_err {P : Pt} (h : marshalBinary P = .err) : Dss.marshalOrNothing P = [] := by
  unfold Dss.marshalOrNothing; rw [h]

theorem points_fed (l : List Pt) : ∀ (d : Hash.Obj) (m : List UInt8), Hash.Fed d m →
    ∃ d', Hash.pointsTo d l = .ok d' ∧ Hash.Fed d' (m ++ l.flatMap Dss.marshalOrNothing) := by
  induction l with
  | nil => intro d m h; exact ⟨d, rfl, by simpa using h⟩
  | cons P l ih =>
    intro d m h
    cases hp : marshalBinary P with
    | ok b =>
      obtain ⟨d', h1, h2⟩ := ih _ _ (h.write b)
      refine ⟨d', ?_, ?_⟩
      · rw [Hash.pointsTo, pointTo_ok hp, Outcome.bind_ok]; exact h1
      · rw [List.flatMap_cons, enc_ok hp, ← List.append_assoc]; exact h2
    | err =>
      obtain ⟨d', h1, h2⟩ := ih _ _ h
      refine ⟨d', ?_, ?_⟩
      · rw [Hash.pointsTo, pointTo_err hp, Outcome.bind_ok]; exact h1
      · rw [List.flatMap_cons, enc_err hp, List.nil_append]; exact h2
    | panic => exact absurd hp (C07_marshal_fails_iff P).2.1

/-- C121: what the functions that use the object compute: what they do with the hash as a function of all bytes. -/
theorem C121_calls (P : Pt) (addr : List UInt8) (msg : Int) (a b : Dss.KeyShare) (SH : Dss.Share → List UInt8) (part : Dss.Share)
    (sid k m : List UInt8) :
    Hash.ethereumAddress P = ethereumAddress Spec.Keccak.keccak256 P ∧
      Hash.challengeHash P addr msg = Schnorr.challengeHash Spec.Keccak.keccak256 P addr msg ∧
      Hash.sessionID a b = .ok (Dss.sessionIDOf Spec.Keccak.keccak256 a b) ∧
      Hash.psHash SH part sid = Dss.psHash Spec.Keccak.keccak256 SH part sid ∧
      Hash.keyHash k = PublicKey.hash Spec.Keccak.keccak256 k ∧ Hash.keccak256 m = .ok (Spec.Keccak.keccak256 m) ∧
      Hash.mustHash m = .ok (Spec.Keccak.keccak256 m) := by
  have hmust : ∀ m, Hash.mustHash m = .ok (PublicKey.rightAlign 32 (Spec.Keccak.keccak256 m)) := by
    intro m
    rw [Hash.mustHash, Hash.keccak256, sum_one]; rfl
  refine ⟨?_, ?_, ?_, ?_, ?_, ?_, ?_⟩
  · unfold Hash.ethereumAddress ethereumAddress
    simp only [sum_one]
  · unfold Hash.challengeHash Schnorr.challengeHash Hash.pointTo
    cases hp : marshalBinary P with
    | ok pb =>
      show Outcome.ok (Scalar.setBytes (Hash.sum (Hash.write (Hash.write (Hash.write Hash.new pb) (BigInt.bytes msg)) addr) [])) =
        .ok (Scalar.setBytes _)
      rw [(((Hash.Fed.new.write pb).write (BigInt.bytes msg)).write addr).sum []]
      rfl
    | err => rfl
    | panic => rfl
  · obtain ⟨d, h1, h2⟩ := points_fed a.commits _ _ Hash.Fed.new
    obtain ⟨d', h3, h4⟩ := points_fed b.commits _ _ h2
    unfold Hash.sessionID Dss.sessionIDOf
    rw [h1, Outcome.bind_ok, h3, Outcome.bind_ok, h4.sum, List.flatMap_append]
    rfl
  · unfold Hash.psHash Dss.psHash
    dsimp only
    rw [sum_two]
  · unfold Hash.keyHash PublicKey.hash
    simp only [hmust]
    rfl
  · rw [Hash.keccak256, sum_one]
  · rw [hmust, PublicKey.rightAlign, if_neg (by rw [C121_length]; omega), C121_length]
    rfl

/-- The session identifier as a function of all bytes. -/
theorem session_eq (a b : Dss.KeyShare) : Hash.sessionID a b = .ok (Dss.sessionIDOf Spec.Keccak.keccak256 a b) :=
  (C121_calls ⟨0, 0⟩ [] 0 a b (fun _ => []) ⟨0, 0⟩ [] [] []).2.2.1

theorem encodings_inj : ∀ l l' : List Pt, (∀ P ∈ l, Reduced P.X P.Y ∧ OnCurve P.X P.Y) → (∀ P ∈ l', Reduced P.X P.Y ∧ OnCurve P.X P.Y) →
    l.flatMap Dss.marshalOrNothing = l'.flatMap Dss.marshalOrNothing → l = l' := by
  have enc : ∀ P : Pt, Reduced P.X P.Y ∧ OnCurve P.X P.Y → ∃ b, Dss.marshalOrNothing P = b ∧ b.length = 33 ∧ unmarshalBinary b = .ok P := by
    intro P h
    obtain ⟨b, h1, h2, h3⟩ := C07_roundtrip P h.1 h.2
    exact ⟨b, enc_ok h1, h2, h3⟩
  intro l
  induction l with
  | nil =>
    intro l' _ h' h
    cases l' with
    | nil => rfl
    | cons P l' =>
      obtain ⟨b, h1, h2, -⟩ := enc P (h' P (by simp))
      have := congrArg List.length h
      rw [List.flatMap_cons, h1, List.length_append, h2, List.flatMap_nil, List.length_nil] at this
      omega
  | cons P l ih =>
    intro l' hl h' h
    obtain ⟨b, h1, h2, h3⟩ := enc P (hl P (by simp))
    cases l' with
    | nil =>
      have := congrArg List.length h
      rw [List.flatMap_cons, h1, List.length_append, h2, List.flatMap_nil, List.length_nil] at this
      omega
    | cons Q l' =>
      obtain ⟨c, g1, g2, g3⟩ := enc Q (h' Q (by simp))
      rw [List.flatMap_cons, List.flatMap_cons, h1, g1] at h
      obtain ⟨hb, ht⟩ := List.append_inj h (by rw [h2, g2])
      rw [hb, g3] at h3
      rw [Outcome.ok.inj h3, ih l' (fun P hP => hl P (List.mem_cons_of_mem _ hP)) (fun P hP => h' P (List.mem_cons_of_mem _ hP)) ht]

/-- C121: the session identifier is the hash of bytes from which the commitments can be read, if none of them is the identity and it is
known how many belong to the long-term key. -/
theorem C121_session : ∃ enc : List Pt → List Pt → List UInt8,
    (∀ a b : Dss.KeyShare, Hash.sessionID a b = .ok (Spec.Keccak.keccak256 (enc a.commits b.commits))) ∧
      ∀ l r l' r' : List Pt, (∀ P ∈ l ++ r, Reduced P.X P.Y ∧ OnCurve P.X P.Y) → (∀ P ∈ l' ++ r', Reduced P.X P.Y ∧ OnCurve P.X P.Y) →
        l.length = l'.length → enc l r = enc l' r' → l = l' ∧ r = r' := by
  refine ⟨fun l r => (l ++ r).flatMap Dss.marshalOrNothing, fun a b => ?_, fun l r l' r' h h' hl he => ?_⟩
  · rw [session_eq]; rfl
  · exact List.append_inj (encodings_inj _ _ h h' he) hl

/-- C121: otherwise not: the identifier does not say where the commitments to the long-term key end, and does not see the identity. -/
theorem C121_session_same : ∃ a b a' b' c : Dss.KeyShare, a ≠ a' ∧ (∀ P ∈ a.commits ++ b.commits, Reduced P.X P.Y ∧ OnCurve P.X P.Y) ∧
    a.commits.length ≠ a'.commits.length ∧ Hash.sessionID a b = Hash.sessionID a' b' ∧
      null ∈ c.commits ∧ c.commits.length = a.commits.length + 1 ∧ Hash.sessionID c b = Hash.sessionID a b := by
  have hb : Reduced base.X base.Y ∧ OnCurve base.X base.Y := by unfold OnCurve Reduced; decide +kernel
  refine ⟨⟨⟨0, 1⟩, [base]⟩, ⟨⟨0, 1⟩, [base]⟩, ⟨⟨0, 1⟩, [base, base]⟩, ⟨⟨0, 1⟩, []⟩, ⟨⟨0, 1⟩, [base, null]⟩, by decide, ?_, by decide, ?_,
    by decide, rfl, ?_⟩
  · intro P hP
    have : P = base := by simpa using hP
    rw [this]; exact hb
  · rw [session_eq, session_eq]; rfl
  · rw [session_eq, session_eq]
    congr 1
    unfold Dss.sessionIDOf
    congr 1
    have hn : Dss.marshalOrNothing null = [] := enc_err (C07_marshal_fails_iff null).2.2
    simp [hn]

/-- A message of 300 bytes in pieces of 7, 129, 1, 0 and 163: a block is filled exactly, then one at once, and some bytes are left. -/
def piecesB : Bool :=
  let m : List UInt8 := (List.range 300).map UInt8.ofNat
  let l := [m.take 7, (m.drop 7).take 129, (m.drop 136).take 1, [], m.drop 137]
  decide (l.flatten = m) && decide (Hash.sum (l.foldl Hash.write Hash.new) [9] = 9 :: Spec.Keccak.keccak256 m) &&
    decide ((l.foldl Hash.write Hash.new).buf.length = 28) &&
    decide (BigInt.setBytes (Hash.sum (Hash.write (Hash.write Hash.new [0x61]) [0x62, 0x63]) []) =
      0x4e03657aea45a94fc7d47ba826c8d667c0d1e6e33a64a036ec44f58fa12d6c45)

theorem pieces : piecesB = true := by decide +kernel

end Verif.Props.Hash
