import Verif.Props.Spoiler

/-!
Property C124: one member who takes part in a key generation can choose the public key with which another one finishes.
-/
namespace Verif.Props.Steer
open Verif.Rabin Verif.Point Verif.Props Verif.Dkg Verif.Dto Verif.Dss Verif.Spec.Rabin Verif.Spec.Generation Verif.Props.Rabin
variable {S : Suite} {R : Choice} {P : List Nat}

/-- What the liar tells: it knows its own commitments, the public key `K` that would come about, the public key `Q` that it wants, and the inverse `w` of the
number of the member. -/
def steered (own : List Pt) (K Q : Pt) (w : Nat) : List Pt :=
  match own with
  | a :: b :: l => add (sub a K) Q :: add b (timesAdd (sub K Q) w) :: l
  | l => l

/-- C124 (chosen). Let `j` tell `i` the commitments `steered`, for any point `Q` of the group. They are commitments to a polynomial that fits the share of `i`; `i` finishes, with the share
it would have if `j` were honest, and with the public key `Q`. -/
theorem C124_chosen (h : Spec.Rabin.Honest S R P) {i j w : Nat} (hi : i ∈ P) (hj : j ∈ P) (hij : i ≠ j) (hw : w * (i + 1) % secp256k1N = 1) (Q : Pt)
    (hQ : GroupElt Q.X Q.Y) : ∃ c,
    (commitsOf S R (shifted R j i c) j).commitments = steered ((net S R P).commits j).commitments (((net S R P).key i).commits.headD null) Q w ∧
    ∃ k sh, after S R P i (shifted R j i c) = .ok k ∧ finished (R.member i) k = true ∧ distKeyShare (R.member i) k = .ok sh ∧
      sh.share = ((net S R P).key i).share ∧ sh.commits.headD null = Q := by
  have hN : i + 1 ≤ secp256k1N := by
    have := h.mem i hi
    have := h.few
    have : 2 ^ 32 ≤ secp256k1N := by decide
    omega
  obtain ⟨q, hq⟩ := (exists_log_iff Q).1 hQ
  obtain ⟨s, hs⟩ : ∃ s, s = (P.map fun a => (R.f a).getD 0 0).sum := ⟨_, rfl⟩
  have hK : ((net S R P).key i).commits.headD null = timesAdd base s := by
    have h2 := h.low
    obtain ⟨n, hn⟩ : ∃ n, R.T = n + 1 := ⟨R.T - 1, by omega⟩
    show (((List.range R.T).map _).map (timesAdd base)).headD null = _
    rw [hn, List.range_succ_eq_map, List.map_cons, List.map_cons, List.headD_cons, hs]
  have hKl : Log (((net S R P).key i).commits.headD null) (s : Fn) := by rw [hK]; exact log_base_nat s
  have hw' : (w : Fn) * ((i : Fn) + 1) = 1 := by
    have : ((w * (i + 1) : Nat) : Fn) = ((1 : Nat) : Fn) := (ZMod.natCast_eq_natCast_iff' _ _ _).2 (by rw [hw]; decide)
    push_cast at this
    exact this
  refine ⟨((w : Fn) * ((s : Fn) - q)).val, ?_, ?_⟩
  · show ((shifted R j i _) j).map (timesAdd base) = steered ((R.f j).map (timesAdd base)) _ Q w
    rw [shifted, if_pos rfl]
    have hl := (h.polys j hj).1
    have h2 := h.low
    rcases hf : R.f j with - | ⟨x, - | ⟨y, l⟩⟩
    · rw [hf] at hl; simp at hl; omega
    · rw [hf] at hl; simp at hl; omega
    · dsimp only
      rw [List.map_cons, List.map_cons, List.map_cons, List.map_cons, steered]
      congr 1
      · refine (log_base_nat _).unique_left ?_
        have := ((log_base_nat x).sub hKl).add hq
        convert this using 1
        push_cast [hN]
        rw [ZMod.natCast_val, ZMod.cast_id', id, ZMod.natCast_self]
        linear_combination (-(s : Fn) + q) * hw'
      · congr 1
        refine (log_base_nat _).unique_left ?_
        have := (log_base_nat y).add (log_timesAdd (hKl.sub hq) w)
        convert this using 1
        push_cast
        rw [ZMod.natCast_val, ZMod.cast_id', id]
  · obtain ⟨k, h1, h2, h3⟩ := after_spec h hi (F := shifted R j i ((w : Fn) * ((s : Fn) - q)).val) (fun a ha => (shifted_spec h hi ha).1)
      (fun a ha => (shifted_spec h hi ha).2) (by rw [shifted, if_neg hij])
    refine ⟨k, _, h1, h2, h3, rfl, ?_⟩
    show ((total (R.told (shifted R j i _)) P).map (timesAdd base)).headD null = Q
    rw [Spoiler.shift_value h hj, ← hs]
    refine (log_base_nat _).unique_left ?_
    convert hq using 1
    push_cast [hN]
    rw [ZMod.natCast_val, ZMod.cast_id', id, ZMod.natCast_self]
    linear_combination (-(s : Fn) + q) * hw'

/-- C124 (forged). So `j` can make `i` finish with a public key of which `j` alone has the secret: for any secret that is not zero there are such commitments, and what `j` signs with it verifies
under the public key of `i`, for any message. -/
theorem C124_forged (h : Spec.Rabin.Honest S R P) {i j w : Nat} (hi : i ∈ P) (hj : j ∈ P) (hij : i ≠ j) (hw : w * (i + 1) % secp256k1N = 1)
    (H : List UInt8 → List UInt8) (priv : Int) (hp : priv % Scalar.GroupOrder ≠ 0) : ∃ Q, mulBase priv = .ok Q ∧ ∃ c,
    (commitsOf S R (shifted R j i c) j).commitments = steered ((net S R P).commits j).commitments (((net S R P).key i).commits.headD null) Q w ∧
    ∃ k sh, after S R P i (shifted R j i c) = .ok k ∧ finished (R.member i) k = true ∧ distKeyShare (R.member i) k = .ok sh ∧
      ∀ nonce msg, 0 ≤ msg → msg < 2 ^ 256 → ∃ sig, Schnorr.signWith H nonce priv msg = .ok sig ∧ Schnorr.verify H (.pt (sh.commits.headD null)) msg sig = .ok () := by
  obtain ⟨Q, h1, h2⟩ := log_mulBase priv
  obtain ⟨c, g1, k, sh, g2, g3, g4, _, g5⟩ := C124_chosen h hi hj hij hw Q ((exists_log_iff Q).2 ⟨_, h2⟩)
  refine ⟨Q, h1, c, g1, k, sh, g2, g3, g4, fun nonce msg m0 m1 => ?_⟩
  obtain ⟨sig, P', e1, e2, e3⟩ := C14_sign_verifies H nonce priv msg hp ⟨m0, m1⟩
  rw [h1] at e2
  cases e2
  exact ⟨sig, e1, by rw [g5]; exact e3⟩

end Verif.Props.Steer
