import Verif.Props.Rabin
import Verif.Props.Hash

/-!
Property C123: one member who takes part in the generation of the random key of a signing can keep all others from signing: it tells each of them
commitments to another polynomial, all of them finish with shares that fit, and none accepts a partial signature of another.
-/
namespace Verif.Props.Spoiler
open Verif.Rabin Verif.Point Verif.Props Verif.Dkg Verif.Dto Verif.Dss Verif.Spec.Rabin Verif.Spec.Generation Verif.Props.Rabin
variable {S : Suite} {R : Choice} {P : List Nat}

/-- The public key of `i` when `j` shifts what it tells `i`. -/
theorem shift_value (h : Spec.Rabin.Honest S R P) {i j c : Nat} (hj : j ∈ P) :
    ((total (R.told (shifted R j i c)) P).map (timesAdd base)).headD null =
      timesAdd base ((P.map fun a => (R.f a).getD 0 0).sum + c * (secp256k1N - (i + 1))) := by
  have h2 := h.low
  obtain ⟨n, hn⟩ : ∃ n, R.T = n + 1 := ⟨R.T - 1, by omega⟩
  have hd : ∀ F : Nat → List Nat, ((total (R.told F) P).map (timesAdd base)).headD null = timesAdd base (P.map fun a => (F a).getD 0 0).sum := by
    intro F
    show (((List.range R.T).map _).map (timesAdd base)).headD null = _
    rw [hn, List.range_succ_eq_map, List.map_cons, List.map_cons, List.headD_cons]
    rfl
  have hstep : ∀ a ∈ P, (shifted R j i c a).getD 0 0 = (R.f a).getD 0 0 + if a = j then c * (secp256k1N - (i + 1)) else 0 := by
    intro a ha
    have hl := (h.polys a ha).1
    rw [shifted]
    split
    · rcases hf : R.f a with - | ⟨x, - | ⟨y, l⟩⟩
      · rw [hf] at hl; simp at hl; omega
      · rw [hf] at hl; simp at hl; omega
      · rfl
    · rfl
  have hsum : ∀ l : List Nat, l.Nodup → (l.map fun a => if a = j then c * (secp256k1N - (i + 1)) else 0).sum =
      if j ∈ l then c * (secp256k1N - (i + 1)) else 0 := by
    intro l
    induction l with
    | nil => intro _; rfl
    | cons a l ih =>
      intro hnd
      rw [List.nodup_cons] at hnd
      rw [List.map_cons, List.sum_cons, ih hnd.2]
      by_cases e : a = j
      · subst e
        rw [if_pos rfl, if_neg hnd.1, if_pos List.mem_cons_self, Nat.add_zero]
      · rw [if_neg e, Nat.zero_add]
        congr 1
        rw [List.mem_cons, eq_iff_iff]
        exact ⟨.inr, fun x => x.resolve_left fun e' => e e'.symm⟩
  rw [hd, List.map_congr_left hstep, List.sum_map_add, hsum P h.once, if_pos hj]

/-- C123 (keys). All members but `j` finish, with the shares they would have if `j` were honest, but with public keys that differ from each other and
from the one that belongs to these shares, when `j` tells each member `i` commitments to its polynomial plus `x - (i + 1)`. -/
theorem C123_keys (h : Spec.Rabin.Honest S R P) {j : Nat} (hj : j ∈ P) : ∃ sh : Nat → KeyShare, ∀ i ∈ P, i ≠ j →
    (∃ k, after S R P i (shifted R j i 1) = .ok k ∧ finished (R.member i) k = true ∧ distKeyShare (R.member i) k = .ok (sh i)) ∧
    (sh i).share = ((net S R P).key i).share ∧ (sh i).commits.length = R.T ∧ (sh i).commits.headD null ≠ ((net S R P).key i).commits.headD null ∧
    ∀ a ∈ P, a ≠ j → a ≠ i → (sh i).commits.headD null ≠ (sh a).commits.headD null := by
  have hlt : ∀ a ∈ P, a + 1 < secp256k1N := by
    intro a ha
    have := h.mem a ha
    have := h.few
    have : 2 ^ 32 < secp256k1N := by decide
    omega
  refine ⟨fun i => ⟨((net S R P).key i).share, (total (R.told (shifted R j i 1)) P).map (timesAdd base)⟩, fun i hi hij => ?_⟩
  refine ⟨?_, rfl, ?_, ?_, fun a ha haj hai => ?_⟩
  · obtain ⟨k, h1, h2, h3⟩ := after_spec h hi (F := shifted R j i 1) (fun a ha => (shifted_spec h hi ha).1) (fun a ha => (shifted_spec h hi ha).2)
      (by rw [shifted, if_neg hij])
    exact ⟨k, h1, h2, h3⟩
  · show (((List.range R.T).map _).map (timesAdd base)).length = R.T
    simp
  · have := hlt i hi
    exact shift_head h hi hj (by rw [Nat.one_mul, Nat.mod_eq_of_lt this]; omega)
  · show ((total (R.told (shifted R j i 1)) P).map (timesAdd base)).headD null ≠ ((total (R.told (shifted R j a 1)) P).map (timesAdd base)).headD null
    rw [shift_value h hj, shift_value h hj]
    intro e
    have e1 := log_base_nat ((P.map fun a => (R.f a).getD 0 0).sum + 1 * (secp256k1N - (i + 1)))
    rw [e] at e1
    have e2 := Log.unique_right e1 (log_base_nat _)
    have h1 := hlt i hi
    have h2 := hlt a ha
    rw [Nat.cast_add, Nat.cast_add, add_right_inj, Nat.one_mul, Nat.one_mul, ZMod.natCast_eq_natCast_iff', Nat.mod_eq_of_lt (by omega), Nat.mod_eq_of_lt (by omega)] at e2
    omega

/-- The text that is hashed to the session identifier (ethdss.go:305-316). -/
def text (l r : List Pt) : List UInt8 := (l ++ r).flatMap marshalOrNothing

/-- C123 (sessions). A partial signature is accepted only with the session identifier of the one who gets it. So it is refused if the commitments to the random
key are others at the sender, unless the hash happens to be the same of two different texts. -/
theorem C123_refused (H : List UInt8 → List UInt8) (SH : Share → List UInt8) (d : DSS) (ps : PartialSig) (l r l' r' : KeyShare)
    (hd : d.sessionID = sessionIDOf H l r) (hp : ps.sessionID = sessionIDOf H l' r') (hl : l'.commits = l.commits)
    (h1 : ∀ P ∈ l.commits ++ r.commits, Reduced P.X P.Y ∧ OnCurve P.X P.Y) (h2 : ∀ P ∈ r'.commits, Reduced P.X P.Y ∧ OnCurve P.X P.Y)
    (hne : r.commits ≠ r'.commits) (hok : (processPartialSig H SH d ps).2 = .ok ()) :
    text l.commits r.commits ≠ text l.commits r'.commits ∧ H (text l.commits r.commits) = H (text l.commits r'.commits) := by
  have hs : ps.sessionID = d.sessionID := by
    rw [processPartialSig] at hok
    cases hc : checkPartialSig H SH d ps with
    | err => rw [hc] at hok; cases hok
    | panic => rw [hc] at hok; cases hok
    | ok u =>
      rw [checkPartialSig] at hc
      obtain ⟨_, _, hc⟩ := (Outcome.bind_eq_ok _ _ _).1 hc
      obtain ⟨_, hc, _⟩ := (Outcome.bind_eq_ok _ _ _).1 hc
      exact eq_of_beq ((Outcome.require_eq_ok _ _).1 hc)
  refine ⟨fun e => hne ?_, ?_⟩
  · exact List.append_cancel_left (Hash.encodings_inj _ _ h1 (fun P hP => (List.mem_append.1 hP).elim (fun h => h1 P (List.mem_append_left _ h)) (h2 P)) e)
  · have := hp.symm.trans (hs.trans hd)
    rw [sessionIDOf, sessionIDOf, hl] at this
    exact this.symm

/-- What is accepted has the session identifier and is not a second one of its sender. -/
theorem accepted_only (H : List UInt8 → List UInt8) (SH : Share → List UInt8) {d : DSS} {ps : PartialSig} (hc : checkPartialSig H SH d ps = .ok ()) :
    ps.sessionID = d.sessionID ∧ d.partialsIdx.contains ps.part.I = false := by
  rw [checkPartialSig] at hc
  obtain ⟨_, _, hc⟩ := (Outcome.bind_eq_ok _ _ _).1 hc
  obtain ⟨_, h1, hc⟩ := (Outcome.bind_eq_ok _ _ _).1 hc
  obtain ⟨_, _, hc⟩ := (Outcome.bind_eq_ok _ _ _).1 hc
  obtain ⟨_, _, hc⟩ := (Outcome.bind_eq_ok _ _ _).1 hc
  obtain ⟨_, h2, hc⟩ := (Outcome.bind_eq_ok _ _ _).1 hc
  refine ⟨eq_of_beq ((Outcome.require_eq_ok _ _).1 h1), ?_⟩
  have := (Outcome.require_eq_ok _ _).1 h2
  simpa using this

/-- How many shares there can be. -/
structure Few (sid : List UInt8) (T : Int) (j : Int) (lone : Bool) (d : DSS) : Prop where
  sid : d.sessionID = sid
  T : d.T = T
  few : d.partials.length ≤ (if d.signed then 1 else 0) + (if d.partialsIdx.contains j && !lone then 1 else 0)

theorem few_step (H : List UInt8 → List UInt8) (SH : Share → List UInt8) {sid : List UInt8} {T j : Int} {lone : Bool} {d : DSS} (hd : Few sid T j lone d) (c : Dss.Call)
    (hc : ∀ ps, c = .process ps → ps.sessionID ≠ sid ∨ ps.part.I = j ∧ lone = false) : Few sid T j lone (step H SH d c) := by
  cases c with
  | process ps =>
    show Few sid T j lone (processPartialSig H SH d ps).1
    rw [processPartialSig]
    cases hk : checkPartialSig H SH d ps with
    | err => exact hd
    | panic => exact hd
    | ok u =>
      obtain ⟨h1, h2⟩ := accepted_only H SH hk
      rcases hc ps rfl with h | ⟨h, hl⟩
      · exact absurd (h1.trans hd.sid) h
      · refine ⟨hd.sid, hd.T, ?_⟩
        have hf := hd.few
        subst hl
        rw [h] at h2
        rw [h2] at hf
        show (d.partials ++ [ps.part]).length ≤ (if d.signed then 1 else 0) + (if (ps.part.I :: d.partialsIdx).contains j && !false then 1 else 0)
        rw [h, List.length_append]
        simp only [List.contains_cons, BEq.rfl, Bool.true_or, Bool.not_false, Bool.and_true, if_true, List.length_singleton]
        simpa using hf
  | partialSig k =>
    show Few sid T j lone (partialSig H SH k d).1
    rw [partialSig]
    cases ho : ownShare H d with
    | err => exact hd
    | panic => exact hd
    | ok sh =>
      dsimp only
      cases hs : d.signed with
      | true => rw [if_pos rfl]; exact hd
      | false =>
        rw [if_neg (by decide)]
        refine ⟨hd.sid, hd.T, ?_⟩
        have hf := hd.few
        rw [hs, if_neg (by decide), Nat.zero_add] at hf
        show (d.partials ++ [sh]).length ≤ (if true then 1 else 0) + (if ((d.index : Int) :: d.partialsIdx).contains j && !lone then 1 else 0)
        rw [List.length_append, List.length_singleton, if_pos rfl, List.contains_cons]
        have : (if d.partialsIdx.contains j && !lone then 1 else 0) ≤ (if (j == (d.index : Int) || d.partialsIdx.contains j) && !lone then 1 else 0) := by
          cases d.partialsIdx.contains j <;> cases (j == (d.index : Int)) <;> cases lone <;> simp
        omega

/-- C123 (alone). Whoever gets only partial signatures with other session identifiers than its own, and from one member `j` any, makes no signature with a
threshold above two; and with a threshold of two neither, if `j` sends none. -/
theorem C123_alone (H : List UInt8 → List UInt8) (SH : Share → List UInt8) (a : Args) (d : DSS) (h : newDSS H a = .ok d) (calls : List Dss.Call) (j : Int)
    (hc : ∀ ps, .process ps ∈ calls → ps.sessionID ≠ sessionIDOf H a.long a.random ∨ ps.part.I = j)
    (hT : 2 < a.T ∨ 1 < a.T ∧ ∀ ps, .process ps ∈ calls → ps.part.I ≠ j) : signature H (run H SH d calls) = .err := by
  rw [newDSS] at h
  obtain ⟨pub, _, h⟩ := (Outcome.bind_eq_ok _ _ _).1 h
  obtain ⟨i, _, h⟩ := (Outcome.bind_eq_ok _ _ _).1 h
  have key : ∀ (lone : Bool) (cs : List Dss.Call), (∀ ps, .process ps ∈ cs → ps.sessionID ≠ sessionIDOf H a.long a.random ∨ ps.part.I = j ∧ lone = false) →
      ∀ d, Few (sessionIDOf H a.long a.random) a.T j lone d → Few (sessionIDOf H a.long a.random) a.T j lone (run H SH d cs) := by
    intro lone cs
    induction cs with
    | nil => intro _ d hd; exact hd
    | cons c cs ih =>
      intro hcs d hd
      exact ih (fun ps hps => hcs ps (List.mem_cons_of_mem _ hps)) _ (few_step H SH hd c fun ps e => hcs ps (by rw [e]; exact List.mem_cons_self))
  have first : ∀ lone, Few (sessionIDOf H a.long a.random) a.T j lone d := by
    intro lone
    cases h
    exact ⟨rfl, rfl, Nat.zero_le _⟩
  rcases hT with hT | ⟨hT, hn⟩
  · have hf := key false calls (fun ps hps => (hc ps hps).imp_right fun e => ⟨e, rfl⟩) d (first false)
    refine C26_refuses _ _ ?_
    have := hf.few
    rw [hf.T]
    split at this <;> split at this <;> omega
  · have hf := key true calls (fun ps hps => (hc ps hps).imp_right fun e => absurd e (hn ps hps)) d (first true)
    refine C26_refuses _ _ ?_
    have := hf.few
    rw [hf.T]
    simp only [Bool.not_true, Bool.and_false, Bool.false_eq_true, if_false] at this
    split at this <;> omega

/-- C123 (stopped). So none of the members but `j` makes a signature with the random keys of `C123_keys`, however many they are and whatever they send each
other, with a threshold above two whatever `j` sends, and with a threshold of two if `j` sends no partial signature: if no commitment is the
identity and the hash is not the same of two of the texts. -/
theorem C123_stopped (h : Spec.Rabin.Honest S R P) {j : Nat} (hj : j ∈ P) (H : List UInt8 → List UInt8) (SH : Share → List UInt8) (L : List Pt)
    (hL : ∀ P ∈ L, Reduced P.X P.Y ∧ OnCurve P.X P.Y)
    (hz : ∀ i ∈ P, i ≠ j → ∀ x ∈ total (R.told (shifted R j i 1)) P, x % secp256k1N ≠ 0) : ∃ sh : Nat → KeyShare,
    (∀ i ∈ P, i ≠ j → ∃ k, after S R P i (shifted R j i 1) = .ok k ∧ finished (R.member i) k = true ∧ distKeyShare (R.member i) k = .ok (sh i)) ∧
    ∀ i ∈ P, i ≠ j → (∀ b ∈ P, b ≠ j → text L (sh i).commits ≠ text L (sh b).commits → H (text L (sh i).commits) ≠ H (text L (sh b).commits)) →
      ∀ (a : Args) (d : DSS), a.long.commits = L → a.random = sh i → newDSS H a = .ok d → ∀ calls : List Dss.Call,
        (∀ ps, .process ps ∈ calls → ps.part.I = (j : Int) ∨
          ∃ b ∈ P, b ≠ j ∧ b ≠ i ∧ ∃ l : KeyShare, l.commits = L ∧ ps.sessionID = sessionIDOf H l (sh b)) →
        (2 < a.T ∨ 1 < a.T ∧ ∀ ps, .process ps ∈ calls → ps.part.I ≠ (j : Int)) → signature H (run H SH d calls) = .err := by
  obtain ⟨sh, hsh⟩ := C123_keys h hj
  have hpts : ∀ i ∈ P, i ≠ j → ∀ Q ∈ (sh i).commits, Reduced Q.X Q.Y ∧ OnCurve Q.X Q.Y := by
    intro i hi hij
    obtain ⟨⟨k, h1, _, h3⟩, _⟩ := hsh i hi hij
    obtain ⟨k', g1, _, g3⟩ := after_spec h hi (F := shifted R j i 1) (fun a ha => (shifted_spec h hi ha).1) (fun a ha => (shifted_spec h hi ha).2)
      (by rw [shifted, if_neg hij])
    have e : k = k' := Outcome.ok.inj (h1.symm.trans g1)
    subst e
    rw [Outcome.ok.inj (h3.symm.trans g3)]
    intro Q hQ
    obtain ⟨x, hx, rfl⟩ := List.mem_map.1 hQ
    exact sendable_times (hz i hi hij x hx)
  refine ⟨sh, fun i hi hij => (hsh i hi hij).1, fun i hi hij hH a d ha hr hd calls hc hT => ?_⟩
  refine C123_alone H SH a d hd calls j (fun ps hps => ?_) hT
  rcases hc ps hps with e | ⟨b, hb, hbj, hbi, l, hl, hs⟩
  · exact .inr e
  · refine .inl fun e => ?_
    rw [hs, sessionIDOf, sessionIDOf, ha, hr, hl] at e
    refine hH b hb hbj (fun et => ?_) e.symm
    have := List.append_cancel_left (Hash.encodings_inj _ _
      (fun Q hQ => (List.mem_append.1 hQ).elim (hL Q) (hpts i hi hij Q))
      (fun Q hQ => (List.mem_append.1 hQ).elim (hL Q) (hpts b hb hbj Q)) et)
    exact (hsh i hi hij).2.2.2.2 b hb hbj hbi (by rw [this])

end Verif.Props.Spoiler
