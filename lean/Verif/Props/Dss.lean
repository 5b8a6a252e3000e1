import Verif.Proofs.Dss
import Verif.Props.Schnorr

/-!
Properties C20-C26: ethdss.go, for every hash function `H` and every hash of shares `SH`.

Commitments are given by the coefficients committed to: `ls` for the long-term key, `rs` for the nonce. By
`commits_have_coefficients` this covers all commitments that are group elements.
-/
namespace Verif.Props
open Verif.Point Verif.Schnorr Verif.Dss
variable (H : List UInt8 → List UInt8) (SH : Share → List UInt8)

/-- The value at `x` of the polynomial with coefficients `cs`, lowest first. -/
def peval : List Nat → Int → Int
  | [], _ => 0
  | c :: cs, x => c + x * peval cs x

/-- The commitments of `d` are to the polynomials `ls` and `rs`, the public key is not the identity and the message
is a uint256. -/
structure Keys (d : DSS) (ls rs : List Nat) : Prop where
  long : d.long.commits = ls.map (timesAdd base)
  random : d.random.commits = rs.map (timesAdd base)
  rne : rs ≠ []
  key : ls.headD 0 % secp256k1N ≠ 0
  msg : 0 ≤ d.msg ∧ d.msg < 2 ^ 256

/-- The public key of a session. -/
def sessKey (d : DSS) : Pt := d.long.commits.headD null
/-- The nonce point of a session. -/
def sessNonce (d : DSS) : Pt := d.random.commits.headD null
/-- The challenge of a session. -/
def sessChallenge (d : DSS) : Nat :=
  Spec.challenge H (sessKey d).X (sessKey d).Y (Spec.address H (sessNonce d).X (sessNonce d).Y) d.msg.toNat

/-- The public share equation: the share is the value of `rs - e·ls` at its index plus one, mod n. -/
def ShareEq (e : Nat) (ls rs : List Nat) (s : Share) : Prop :=
  (s.V - (peval rs (s.I + 1) - e * peval ls (s.I + 1))) % secp256k1N = 0

instance (e : Nat) (ls rs : List Nat) (s : Share) : Decidable (ShareEq e ls rs s) := by
  unfold ShareEq; infer_instance

/-- The node holds the shares of the committed polynomials for its index. -/
structure Consistent (d : DSS) (ls rs : List Nat) : Prop where
  long : (d.long.share.V - peval ls (d.index + 1)) % secp256k1N = 0
  random : (d.random.share.V - peval rs (d.index + 1)) % secp256k1N = 0

/-- Every list of group elements is a list of commitments to some coefficients. -/
theorem commits_have_coefficients (cs : List Pt) (h : ∀ c ∈ cs, IsElt c) : ∃ ls : List Nat, cs = ls.map (timesAdd base) := by
  induction cs with
  | nil => exact ⟨[], rfl⟩
  | cons c cs ih =>
    obtain ⟨ls, h1⟩ := ih (fun x hx => h x (by simp [hx]))
    obtain ⟨x, hx⟩ := (exists_log_iff c).1 (h c (by simp))
    refine ⟨x.val :: ls, ?_⟩
    rw [List.map_cons, ← h1]
    congr 1
    refine hx.unique_left ?_
    have := log_timesAdd log_base x.val
    rw [mul_one, ZMod.natCast_zmod_val] at this
    exact this

/-! Bridge to exponents. -/

theorem cast_peval (ls : List Nat) (x : Int) : ((peval ls x : Int) : Fn) =
    (polyOf (ls.map (fun k : Nat => (k : Fn)))).eval (x : Fn) := by
  induction ls with
  | nil => simp [peval, polyOf]
  | cons c cs ih =>
    rw [peval, List.map_cons, polyOf, Polynomial.eval_add, Polynomial.eval_C, Polynomial.eval_mul, Polynomial.eval_X, ← ih]
    push_cast; rfl

theorem forall2_log (ls : List Nat) :
    List.Forall₂ Log (ls.map (timesAdd base)) (ls.map (fun k : Nat => (k : Fn))) := by
  induction ls with
  | nil => exact .nil
  | cons c cs ih =>
    refine .cons ?_ ih
    have := log_timesAdd log_base c
    rwa [mul_one] at this

theorem emod_zero_iff (x : Int) : x % secp256k1N = 0 ↔ (x : Fn) = 0 := by
  rw [ZMod.intCast_zmod_eq_zero_iff_dvd]
  exact ⟨Int.dvd_of_emod_eq_zero, Int.emod_eq_zero_of_dvd⟩

theorem log_reduced {P : Pt} {x : Fn} (h : Log P x) : (0 ≤ P.X ∧ P.X < Field.q) ∧ (0 ≤ P.Y ∧ P.Y < Field.q) := by
  have := ((exists_log_iff P).2 ⟨x, h⟩).1
  rw [Reduced, fieldPrime_eq] at this
  exact this

section Bridge
variable {H} {d : DSS} {ls rs : List Nat}

theorem Keys.split (hk : Keys d ls rs) : ∃ l ls' r rs', ls = l :: ls' ∧ rs = r :: rs' ∧ (l : Fn) ≠ 0 := by
  obtain ⟨_, _, h3, h4, _⟩ := hk
  cases ls with
  | nil => simp at h4
  | cons l ls' =>
    cases rs with
    | nil => exact absurd rfl h3
    | cons r rs' =>
      refine ⟨l, ls', r, rs', rfl, rfl, ?_⟩
      intro h
      rw [ZMod.natCast_eq_zero_iff] at h
      exact h4 (Nat.mod_eq_zero_of_dvd h)

theorem Keys.logSetup {l r : Nat} {ls' rs' : List Nat} (hk : Keys d (l :: ls') (r :: rs')) (hl : (l : Fn) ≠ 0) :
    LogSetup d (l : Fn) (r : Fn) (ls'.map (fun k : Nat => (k : Fn))) (rs'.map (fun k : Nat => (k : Fn))) := by
  refine ⟨?_, ?_, hl⟩
  · rw [hk.long]; exact forall2_log (l :: ls')
  · rw [hk.random]; exact forall2_log (r :: rs')

theorem Keys.sessKey_log {l r : Nat} {ls' rs' : List Nat} (hk : Keys d (l :: ls') (r :: rs')) :
    Log (sessKey d) (l : Fn) ∧ Log (sessNonce d) (r : Fn) := by
  rw [sessKey, sessNonce, hk.long, hk.random]
  have h1 := log_timesAdd log_base l
  have h2 := log_timesAdd log_base r
  rw [mul_one] at h1 h2
  exact ⟨h1, h2⟩

theorem Keys.chal (hH : ∀ b, (H b).length = 32) {l r : Nat} {ls' rs' : List Nat} (hk : Keys d (l :: ls') (r :: rs')) :
    sessionChal H d (l : Fn) (r : Fn) = (sessChallenge H d : Nat) := by
  obtain ⟨h1, h2⟩ := hk.sessKey_log
  rw [sessionChal, h1.unique_left (log_ofLog _) |>.symm, h2.unique_left (log_ofLog _) |>.symm,
    addrOf_spec H hH (log_reduced h2), chalOf_spec H (log_reduced h1).1 _ hk.msg.1]
  rfl

theorem shareEq_iff (e : Nat) (l r : Nat) (ls rs : List Nat) (s : Share) :
    ShareEq e (l :: ls) (r :: rs) s ↔ (s.V : Fn) = (sigPoly (e : Fn) (l : Fn) (r : Fn)
      (ls.map (fun k : Nat => (k : Fn))) (rs.map (fun k : Nat => (k : Fn)))).eval (xOf s.I) := by
  rw [ShareEq, emod_zero_iff, sigPoly_eval]
  push_cast
  rw [cast_peval, cast_peval, xOf, sub_eq_zero]
  rfl

end Bridge

theorem accepts_ptr (hH : ∀ b, (H b).length = 32) (d : DSS) (ls rs : List Nat) (hk : Keys d ls rs) (ps : PartialSig) :
    (processPartialSig H SH d ps).2 = .ok () ↔
      (∃ pub, 0 ≤ ps.part.I ∧ d.participants[ps.part.I.toNat]? = some pub ∧
        Schnorr.verifyPtr H (.pt pub) (beNat (H (SH ps.part ++ ps.sessionID)) : Nat) ps.signature = .ok ()) ∧
      ps.sessionID = d.sessionID ∧ ps.part.I ∈ d.H2 ∧ ps.part.I ∉ d.partialsIdx ∧
      ShareEq (sessChallenge H d) ls rs ps.part := by
  obtain ⟨l, ls', r, rs', rfl, rfl, hl⟩ := hk.split
  have h1 : (processPartialSig H SH d ps).2 = .ok () ↔ checkPartialSig H SH d ps = .ok () := by
    rw [processPartialSig]
    cases h : checkPartialSig H SH d ps <;> simp
  have hcast : ((sessionChal H d (l : Fn) (r : Fn) : Int) : Fn) = ((sessChallenge H d : Nat) : Fn) := by
    rw [hk.chal hH]; push_cast; rfl
  rw [h1, check_ok (hk.logSetup hl), shareEq_iff, hcast, psHash, BigInt.setBytes_eq]
  constructor
  · rintro ⟨⟨pub, ⟨h2, h3⟩, h4, h5⟩, h6, h7, h8⟩
    exact ⟨⟨pub, h2, h3, h5⟩, h4, h6, h7, h8⟩
  · rintro ⟨⟨pub, h2, h3, h5⟩, h4, h6, h7, h8⟩
    exact ⟨⟨pub, ⟨h2, h3⟩, h4, h5⟩, h6, h7, h8⟩

/-- C21. `ProcessPartialSig` accepts exactly when the index is that of a participant whose key verifies the signature
on the share, the session id matches, the index is in QUAL and not yet collected, and the share equation holds. -/
theorem C21_accepts_iff (hH : ∀ b, (H b).length = 32) (d : DSS) (ls rs : List Nat) (hk : Keys d ls rs) (ps : PartialSig) :
    (processPartialSig H SH d ps).2 = .ok () ↔
      (∃ pub addr n, 0 ≤ ps.part.I ∧ d.participants[ps.part.I.toNat]? = some pub ∧ ps.signature = some (addr, some n) ∧
        Schnorr.verify H (.pt pub) (beNat (H (SH ps.part ++ ps.sessionID)) : Nat) ⟨addr, n⟩ = .ok ()) ∧
      ps.sessionID = d.sessionID ∧ ps.part.I ∈ d.H2 ∧ ps.part.I ∉ d.partialsIdx ∧
      ShareEq (sessChallenge H d) ls rs ps.part := by
  rw [accepts_ptr H SH hH d ls rs hk]
  refine and_congr_left fun _ => ⟨?_, ?_⟩
  · rintro ⟨pub, h1, h2, h3⟩
    rcases hs : ps.signature with _ | ⟨addr, _ | n⟩
    · rw [hs] at h3; cases h3
    · rw [hs] at h3; cases h3
    · rw [hs] at h3; exact ⟨pub, addr, n, h1, h2, rfl, h3⟩
  · rintro ⟨pub, addr, n, h1, h2, h3, h4⟩
    exact ⟨pub, h1, h2, by rw [h3]; exact h4⟩

/-- C21 (panics). `ProcessPartialSig` panics exactly when the index is negative, or the index and the session id are right but the
signature on the share, or the number in it, is a nil pointer. -/
theorem C21_panics_iff (d : DSS) (ls rs : List Nat) (hk : Keys d ls rs) (ps : PartialSig) :
    (processPartialSig H SH d ps).2 = .panic ↔
      ps.part.I < 0 ∨ (ps.part.I < d.participants.length ∧ ps.sessionID = d.sessionID ∧ ∀ addr n, ps.signature ≠ some (addr, some n)) := by
  obtain ⟨l, ls', r, rs', rfl, rfl, hl⟩ := hk.split
  have g := hk.logSetup hl
  have h0 : (processPartialSig H SH d ps).2 = .panic ↔ checkPartialSig H SH d ps = .panic := by
    rw [processPartialSig]
    cases h : checkPartialSig H SH d ps <;> simp
  have hreq : ∀ b, Outcome.require b ≠ .panic := by intro b; cases b <;> simp
  rw [h0, checkPartialSig]
  by_cases hneg : ps.part.I < 0
  · rw [findPub, if_neg (by omega), if_pos hneg]
    simp [hneg]
  by_cases hbig : (d.participants.length : Int) ≤ ps.part.I
  · rw [findPub, if_pos hbig]
    constructor
    · intro h; cases h
    · rintro (h | ⟨h, _⟩) <;> omega
  rw [findPub, if_neg hbig, if_neg hneg, List.getElem?_eq_getElem (by omega), Outcome.ofOption_some, Outcome.orPanic_ok, Outcome.bind_ok]
  by_cases hsid : ps.sessionID = d.sessionID
  · rw [show (ps.sessionID == d.sessionID) = true from beq_iff_eq.2 hsid, Outcome.require_true, Outcome.bind_ok]
    by_cases hsig : ∃ addr n, ps.signature = some (addr, some n)
    · constructor
      · intro h
        exfalso
        revert h
        obtain ⟨addr, n, hs⟩ := hsig
        obtain ⟨r1, h1, h2⟩ := evalCommits_spec g.random ps.part.I
        obtain ⟨r2, h3, h4⟩ := evalCommits_spec g.long ps.part.I
        obtain ⟨r3, h5, h6⟩ := h4.mul (sessionChal H d l r)
        obtain ⟨r4, h7, h8⟩ := log_mulBase ps.part.V
        refine (Outcome.bind_ne_panic _ _).2 ?_
        refine ⟨by rw [hs]; exact Schnorr.verify_ne_panic H _ _ _, fun _ _ => ?_⟩
        rw [Outcome.bind_ne_panic]
        refine ⟨hreq _, fun _ _ => ?_⟩
        rw [Outcome.bind_ne_panic]
        refine ⟨hreq _, fun _ _ => ?_⟩
        rw [g.hashSig, Outcome.bind_ok, h1, Outcome.bind_ok, h3, Outcome.bind_ok, h5, Outcome.bind_ok, h7, Outcome.bind_ok]
        exact hreq _
      · rintro (h | ⟨_, _, h⟩)
        · omega
        · obtain ⟨addr, n, hs⟩ := hsig
          exact absurd hs (h addr n)
    · have hv : verifyPtr H (.pt d.participants[ps.part.I.toNat]) (psHash H SH ps.part ps.sessionID) ps.signature = .panic := by
        rcases hs : ps.signature with _ | ⟨addr, _ | n⟩
        · rfl
        · rfl
        · exact absurd ⟨addr, n, hs⟩ hsig
      rw [hv]
      exact ⟨fun _ => .inr ⟨by omega, hsid, fun addr n hs => hsig ⟨addr, n, hs⟩⟩, fun _ => rfl⟩
  · rw [show (ps.sessionID == d.sessionID) = false from beq_eq_false_iff_ne.2 hsid, Outcome.require_false]
    constructor
    · intro h; cases h
    · rintro (h | ⟨_, h, _⟩)
      · omega
      · exact absurd h hsid

/-- C21 (effect). An accepted share is appended and its index recorded; nothing else changes. On any other result the
state is unchanged. -/
theorem C21_effect (d : DSS) (ps : PartialSig) :
    (processPartialSig H SH d ps).1 = if (processPartialSig H SH d ps).2 = .ok () then
      { d with partials := d.partials ++ [ps.part], partialsIdx := ps.part.I :: d.partialsIdx } else d := by
  rw [processPartialSig]
  cases h : checkPartialSig H SH d ps <;> simp

/-! Histories. -/

/-- Two states of one signer: only the collected shares may differ. -/
def SameSession (d d' : DSS) : Prop :=
  d' = { d with partials := d'.partials, partialsIdx := d'.partialsIdx, signed := d'.signed }

section Histories
variable {H SH} {d d' : DSS} {ls rs : List Nat}

theorem SameSession.refl (d : DSS) : SameSession d d := rfl

theorem SameSession.keys (hs : SameSession d d') (hk : Keys d ls rs) : Keys d' ls rs := by
  rw [hs]; exact ⟨hk.long, hk.random, hk.rne, hk.key, hk.msg⟩

theorem SameSession.chal (hs : SameSession d d') : sessChallenge H d' = sessChallenge H d := by rw [hs]; rfl

theorem partialSig_state (hk : Keys d ls rs) (k : Int) : ∃ v, ownShare H d = .ok ⟨d.index, v⟩ ∧
    (partialSig H SH k d).1 = if d.signed then d else { d with
      partialsIdx := (d.index : Int) :: d.partialsIdx, partials := d.partials ++ [⟨d.index, v⟩], signed := true } := by
  obtain ⟨l, ls', r, rs', rfl, rfl, hl⟩ := hk.split
  have := ownShare_eq (H := H) (hk.logSetup hl)
  exact ⟨_, this, by rw [partialSig, this]⟩

theorem ownShare_same (hs : SameSession d d') : ownShare H d' = ownShare H d := by rw [hs]; rfl

theorem step_same (hs : SameSession d d') (hk : Keys d ls rs) (c : Call) : SameSession d (step H SH d' c) := by
  cases c with
  | partialSig k =>
    obtain ⟨v, _, h⟩ := partialSig_state (SH := SH) (H := H) (hs.keys hk) k
    rw [step, h, SameSession]
    by_cases hsg : d'.signed = true
    · rw [if_pos hsg]; exact hs
    · rw [if_neg hsg, hs]
  | process ps =>
    rw [step, C21_effect, SameSession]
    by_cases hok : (processPartialSig H SH d' ps).2 = .ok ()
    · rw [if_pos hok, hs]
    · rw [if_neg hok]; exact hs

/-- What is true of every share collected by a signer starting in state `d`. -/
def Good (H : List UInt8 → List UInt8) (d : DSS) (ls rs : List Nat) (s : Share) : Prop :=
  (0 ≤ s.I ∧ s.I < d.participants.length) ∧ s.I ∈ d.H2 ∧ ShareEq (sessChallenge H d) ls rs s

theorem SameSession.good (hs : SameSession d d') {s : Share} (h : Good H d' ls rs s) : Good H d ls rs s := by
  have e := hs.chal (H := H)
  rw [Good, e] at h
  rw [hs] at h
  exact h

theorem good_of_accept (hH : ∀ b, (H b).length = 32) (hk : Keys d ls rs) {ps : PartialSig}
    (h : (processPartialSig H SH d ps).2 = .ok ()) : Good H d ls rs ps.part ∧ ps.part.I ∉ d.partialsIdx := by
  rw [accepts_ptr H SH hH d ls rs hk] at h
  obtain ⟨⟨pub, h1, h2, _⟩, _, h3, h4, h5⟩ := h
  obtain ⟨h6, _⟩ := List.getElem?_eq_some_iff.1 h2
  exact ⟨⟨⟨h1, by omega⟩, h3, h5⟩, h4⟩

/-- The invariant of all histories. -/
structure Inv (H : List UInt8 → List UInt8) (d0 : DSS) (ls rs : List Nat) (d : DSS) : Prop where
  same : SameSession d0 d
  idx : d.partialsIdx = (d.partials.map Share.I).reverse
  good : ∀ s ∈ d.partials, ownShare H d0 = .ok s ∨ Good H d0 ls rs s
  count : d.signed = false → (d.partials.map Share.I).Nodup ∧ ∀ s ∈ d.partials, Good H d0 ls rs s

theorem Inv.step (hH : ∀ b, (H b).length = 32) {d0 : DSS} (hk : Keys d0 ls rs) (hi : Inv H d0 ls rs d) (c : Call) :
    Inv H d0 ls rs (step H SH d c) := by
  have hsame := step_same (H := H) (SH := SH) hi.same hk c
  cases c with
  | partialSig k =>
    obtain ⟨v, h1, h2⟩ := partialSig_state (SH := SH) (H := H) (hi.same.keys hk) k
    by_cases hsg : d.signed = true
    · have e : Dss.step H SH d (.partialSig k) = d := by rw [Dss.step, h2, if_pos hsg]
      rw [e]; exact hi
    · rw [Dss.step, h2, if_neg hsg] at hsame ⊢
      refine ⟨hsame, ?_, ?_, ?_⟩
      · simp [hi.idx]
      · intro s hs
        rw [List.mem_append, List.mem_singleton] at hs
        rcases hs with hs | rfl
        · exact hi.good s hs
        · left; rw [← ownShare_same hi.same]; exact h1
      · intro h; cases h
  | process ps =>
    rw [Dss.step, C21_effect] at hsame ⊢
    by_cases hok : (processPartialSig H SH d ps).2 = .ok ()
    · rw [if_pos hok] at hsame ⊢
      obtain ⟨hg, hnew⟩ := good_of_accept hH (hi.same.keys hk) hok
      have hg' := hi.same.good hg
      refine ⟨hsame, by simp [hi.idx], ?_, ?_⟩
      · intro s hs
        rw [List.mem_append, List.mem_singleton] at hs
        rcases hs with hs | rfl
        · exact hi.good s hs
        · exact .inr hg'
      · intro h
        obtain ⟨c1, c2⟩ := hi.count h
        refine ⟨?_, ?_⟩
        · rw [List.map_append, List.nodup_append]
          refine ⟨c1, by simp, ?_⟩
          intro a ha b hb
          simp only [List.map_cons, List.map_nil, List.mem_singleton] at hb
          rintro rfl
          rw [hi.idx, List.mem_reverse] at hnew
          exact hnew (hb ▸ ha)
        · intro s hs
          rw [List.mem_append, List.mem_singleton] at hs
          rcases hs with hs | rfl
          · exact c2 s hs
          · exact hg'
    · rw [if_neg hok]; exact hi

theorem Inv.run (hH : ∀ b, (H b).length = 32) {d0 : DSS} (hk : Keys d0 ls rs) (hi : Inv H d0 ls rs d) (cs : List Call) :
    Inv H d0 ls rs (run H SH d cs) := by
  induction cs generalizing d with
  | nil => exact hi
  | cons c cs ih => exact ih (hi.step hH hk c)

theorem newDSS_fresh {a : Args} (h : newDSS H a = .ok d) : d.partials = [] ∧ d.partialsIdx = [] ∧ d.signed = false ∧
    d.participants = a.participants ∧ d.T = a.T ∧ d.long = a.long ∧ d.random = a.random ∧ d.H2 = a.H2 ∧ d.msg = a.msg ∧
    d.secret = a.secret ∧ d.sessionID = sessionIDOf H a.long a.random ∧
    ∃ pub, mulBase a.secret = .ok pub ∧ (a.participants.findIdx? fun p => equal p pub) = some d.index := by
  rw [newDSS, Outcome.bind_eq_ok] at h
  obtain ⟨pub, h1, h2⟩ := h
  rw [Outcome.bind_eq_ok] at h2
  obtain ⟨i, h3, h4⟩ := h2
  rw [Outcome.ofOption_eq_ok] at h3
  rw [Outcome.pure_eq, Outcome.ok.injEq] at h4
  subst h4
  exact ⟨rfl, rfl, rfl, rfl, rfl, rfl, rfl, rfl, rfl, rfl, rfl, pub, h1, h3⟩

theorem Inv.init {a : Args} (h : newDSS H a = .ok d) : Inv H d ls rs d := by
  obtain ⟨h1, h2, h3, _⟩ := newDSS_fresh h
  refine ⟨rfl, ?_, ?_, ?_⟩
  · rw [h1, h2]; rfl
  · rw [h1]; intro s hs; cases hs
  · rw [h1]; intro _; exact ⟨by simp, by intro s hs; cases hs⟩

/-- Once the own share is in, all indices stay distinct. -/
structure InvD (d : DSS) : Prop where
  idx : d.partialsIdx = (d.partials.map Share.I).reverse
  signed : d.signed = true
  nodup : (d.partials.map Share.I).Nodup
  own : (d.index : Int) ∈ d.partials.map Share.I

theorem InvD.step (hk : Keys d ls rs) (hH : ∀ b, (H b).length = 32) (hi : InvD d) (c : Call) :
    InvD (step H SH d c) := by
  cases c with
  | partialSig k =>
    obtain ⟨v, h1, h2⟩ := partialSig_state (SH := SH) (H := H) hk k
    rw [Dss.step, h2, if_pos hi.signed]; exact hi
  | process ps =>
    rw [Dss.step, C21_effect]
    by_cases hok : (processPartialSig H SH d ps).2 = .ok ()
    · rw [if_pos hok]
      obtain ⟨_, hnew⟩ := good_of_accept hH hk hok
      refine ⟨by simp [hi.idx], hi.signed, ?_, ?_⟩
      · rw [List.map_append, List.nodup_append]
        refine ⟨hi.nodup, by simp, ?_⟩
        intro a ha b hb
        simp only [List.map_cons, List.map_nil, List.mem_singleton] at hb
        rintro rfl
        rw [hi.idx, List.mem_reverse] at hnew
        exact hnew (hb ▸ ha)
      · rw [List.map_append]; exact List.mem_append_left _ hi.own
    · rw [if_neg hok]; exact hi

theorem InvD.run {d0 : DSS} (hk : Keys d0 ls rs) (hH : ∀ b, (H b).length = 32) (hs : SameSession d0 d) (hi : InvD d)
    (cs : List Call) : InvD (run H SH d cs) := by
  induction cs generalizing d with
  | nil => exact hi
  | cons c cs ih => exact ih (step_same hs hk c) (hi.step (hs.keys hk) hH c)

theorem InvD.init {a : Args} (hk : Keys d ls rs) (h : newDSS H a = .ok d) (k : Int) :
    InvD (Dss.step H SH d (.partialSig k)) := by
  obtain ⟨g1, g2, g3, _⟩ := newDSS_fresh h
  obtain ⟨v, h1, h2⟩ := partialSig_state (SH := SH) (H := H) hk k
  rw [Dss.step, h2, if_neg (by rw [g3]; exact Bool.false_ne_true), g1, g2]
  exact ⟨rfl, rfl, by simp, by simp⟩

end Histories

/-- C20 (all histories). After any calls on a fresh signer, each collected share is the own share or has an index of
a participant in QUAL and satisfies the share equation; the recorded indices are those of the collected shares. -/
theorem C20_qualified (hH : ∀ b, (H b).length = 32) (a : Args) (d : DSS) (hd : newDSS H a = .ok d) (ls rs : List Nat)
    (hk : Keys d ls rs) (cs : List Call) :
    let d' := run H SH d cs
    (∀ s ∈ d'.partials, ownShare H d = .ok s ∨ ((0 ≤ s.I ∧ s.I < a.participants.length) ∧ s.I ∈ a.H2 ∧
      ShareEq (sessChallenge H d) ls rs s)) ∧
    (∀ i, i ∈ d'.partialsIdx ↔ ∃ s ∈ d'.partials, s.I = i) := by
  have hi := (Inv.init (ls := ls) (rs := rs) hd).run (SH := SH) hH hk cs
  obtain ⟨_, _, _, g1, _, _, _, g2, _⟩ := newDSS_fresh hd
  refine ⟨?_, ?_⟩
  · intro s hs
    have := hi.good s hs
    rw [Good, g1, g2] at this
    exact this
  · intro i
    rw [hi.idx, List.mem_reverse, List.mem_map]

/-- C20 (distinctness, as the tool uses it). After any history whose first call is `PartialSig` the collected indices
are pairwise distinct. Missing for the full claim: histories where a share with the own index is accepted before
`PartialSig` is called, for which it is false (`C20_counterexample`). -/
theorem C20_distinct_partial (hH : ∀ b, (H b).length = 32) (a : Args) (d : DSS) (hd : newDSS H a = .ok d)
    (ls rs : List Nat) (hk : Keys d ls rs) (k : Int) (cs : List Call) :
    ((run H SH d (.partialSig k :: cs)).partials.map Share.I).Nodup :=
  ((InvD.init (SH := SH) hk hd k).run hk hH (step_same (SameSession.refl d) hk (.partialSig k)) cs).nodup

/-- C20 (distinctness before the own share). After any history of `ProcessPartialSig` calls alone the collected
indices are pairwise distinct. -/
theorem C20_distinct_peers_partial (hH : ∀ b, (H b).length = 32) (a : Args) (d : DSS) (hd : newDSS H a = .ok d)
    (ls rs : List Nat) (hk : Keys d ls rs) (pss : List PartialSig) :
    ((run H SH d (pss.map .process)).partials.map Share.I).Nodup := by
  have hi := (Inv.init (ls := ls) (rs := rs) hd).run (SH := SH) hH hk (pss.map .process)
  refine (hi.count ?_).1
  have key : ∀ (pss : List PartialSig) (d : DSS), d.signed = false → (run H SH d (pss.map .process)).signed = false := by
    intro pss
    induction pss with
    | nil => intro d h; exact h
    | cons p pss ih =>
      intro d h
      refine ih _ ?_
      rw [step, C21_effect]
      by_cases hok : (processPartialSig H SH d p).2 = .ok ()
      · rw [if_pos hok]; exact h
      · rw [if_neg hok]; exact h
  exact key pss d (newDSS_fresh hd).2.2.1

/-- C25. Once `PartialSig` has been called, further calls change nothing; whatever happened in between, the share
returned is the one returned the first time; and the own index occurs exactly once among the collected shares. -/
theorem C25_once (hH : ∀ b, (H b).length = 32) (a : Args) (d : DSS) (hd : newDSS H a = .ok d) (ls rs : List Nat)
    (hk : Keys d ls rs) (k k' : Int) (cs : List Call) :
    let d' := run H SH d (.partialSig k :: cs)
    (partialSig H SH k' d').1 = d' ∧ (d'.partials.map Share.I).count (d.index : Int) = 1 ∧
    ∀ p p', (partialSig H SH k d).2 = .ok p → (partialSig H SH k' d').2 = .ok p' →
      p.part = p'.part ∧ p.sessionID = p'.sessionID ∧ p.part ∈ d'.partials := by
  intro d'
  have hs0 := step_same (H := H) (SH := SH) (SameSession.refl d) hk (.partialSig k)
  have hD : InvD d' := (InvD.init (SH := SH) hk hd k).run hk hH hs0 cs
  have hI : Inv H d ls rs d' := (Inv.init hd).run hH hk (.partialSig k :: cs)
  obtain ⟨v, h1, h2⟩ := partialSig_state (SH := SH) (H := H) (hI.same.keys hk) k'
  have hidx : d'.index = d.index := by rw [hI.same]
  refine ⟨?_, ?_, ?_⟩
  · rw [h2, if_pos hD.signed]
  · rw [← hidx]; exact List.count_eq_one_of_mem hD.nodup hD.own
  · intro p p' hp hp'
    have ho := ownShare_same (H := H) hI.same
    rw [h1] at ho
    have e1 : ∀ (kk : Int) (dd : DSS) (q : PartialSig), ownShare H dd = .ok ⟨d'.index, v⟩ →
        (partialSig H SH kk dd).2 = .ok q → q.part = ⟨d'.index, v⟩ ∧ q.sessionID = dd.sessionID := by
      intro kk dd q ho hq
      rw [partialSig, ho] at hq
      dsimp only at hq
      rw [Outcome.bind_eq_ok] at hq
      obtain ⟨sg, _, hq⟩ := hq
      rw [Outcome.pure_eq, Outcome.ok.injEq] at hq
      subst hq
      exact ⟨rfl, rfl⟩
    obtain ⟨e2, e3⟩ := e1 k d p ho.symm hp
    obtain ⟨e4, e5⟩ := e1 k' d' p' h1 hp'
    refine ⟨by rw [e2, e4], by rw [e3, e5, hI.same], ?_⟩
    have key : ∀ (cs : List Call) (dd : DSS), p.part ∈ dd.partials → SameSession d dd →
        p.part ∈ (run H SH dd cs).partials := by
      intro cs
      induction cs with
      | nil => intro dd h _; exact h
      | cons c cs ih =>
        intro dd h hs
        refine ih _ ?_ (step_same hs hk c)
        cases c with
        | partialSig k =>
          obtain ⟨v, _, g⟩ := partialSig_state (SH := SH) (H := H) (hs.keys hk) k
          rw [step, g]
          by_cases hsg : dd.signed = true
          · rw [if_pos hsg]; exact h
          · rw [if_neg hsg]; exact List.mem_append_left _ h
        | process ps =>
          rw [step, C21_effect]
          by_cases hok : (processPartialSig H SH dd ps).2 = .ok ()
          · rw [if_pos hok]; exact List.mem_append_left _ h
          · rw [if_neg hok]; exact h
    refine key cs _ ?_ hs0
    obtain ⟨w, g1, g2⟩ := partialSig_state (SH := SH) (H := H) hk k
    rw [step, g2, if_neg (by rw [(newDSS_fresh hd).2.2.1]; exact Bool.false_ne_true)]
    have e6 : (⟨d.index, w⟩ : Share) = ⟨d'.index, v⟩ := Outcome.ok.inj (g1.symm.trans ho.symm)
    rw [e2, ← e6]
    exact List.mem_append_right _ (by simp)

/-! Recovering the signature. -/

section Recovery
variable {H SH} {d d' : DSS} {ls rs : List Nat}

theorem own_shareEq (hH : ∀ b, (H b).length = 32) (hk : Keys d ls rs) (hc : Consistent d ls rs) {s : Share}
    (h : ownShare H d = .ok s) : s.I = d.index ∧ ShareEq (sessChallenge H d) ls rs s := by
  obtain ⟨l, ls', r, rs', rfl, rfl, hl⟩ := hk.split
  have e := Outcome.ok.inj ((ownShare_eq (H := H) (hk.logSetup hl)).symm.trans h)
  subst e
  refine ⟨rfl, ?_⟩
  obtain ⟨h1, h2⟩ := hc
  rw [emod_zero_iff] at h1 h2
  rw [ShareEq, emod_zero_iff]
  push_cast at h1 h2 ⊢
  rw [cast_sub, cast_mul, hk.chal hH]
  push_cast
  linear_combination h2 - (sessChallenge H d : Fn) * h1

theorem index_lt {a : Args} (hd : newDSS H a = .ok d) : d.index < d.participants.length := by
  obtain ⟨_, _, _, g1, _, _, _, _, _, _, _, pub, _, g2⟩ := newDSS_fresh hd
  rw [g1]
  exact (List.findIdx?_eq_some_iff_findIdx_eq.1 g2).1

/-- Everything collected satisfies the share equation, when the own shares are consistent. -/
theorem all_shareEq (hH : ∀ b, (H b).length = 32) {a : Args} (hd : newDSS H a = .ok d) (hk : Keys d ls rs)
    (hc : Consistent d ls rs) (cs : List Call) : ∀ s ∈ (run H SH d cs).partials,
      (0 ≤ s.I ∧ s.I < d.participants.length) ∧ ShareEq (sessChallenge H d) ls rs s := by
  intro s hs
  rcases ((Inv.init hd).run (SH := SH) hH hk cs).good s hs with h | h
  · obtain ⟨h1, h2⟩ := own_shareEq hH hk hc h
    have := index_lt hd
    exact ⟨⟨by omega, by omega⟩, h2⟩
  · exact ⟨h.1, h.2.2⟩

theorem signature_eq {l r : Nat} {ls' rs' : List Nat} (hk : Keys d (l :: ls') (r :: rs')) (he : d.T ≤ d.partials.length) :
    signature H d = (recoverSecret d.partials d.T).bind fun s => .ok ⟨addrOf H (sessNonce d), s⟩ := by
  rw [signature, enoughPartialSig, decide_eq_true he]
  rw [sessNonce, hk.random, List.map_cons]
  simp only [List.headD_cons, List.head?_cons, Outcome.ofOption_some, Outcome.orPanic_ok, Outcome.bind_ok,
    ethereumAddress_eq]
  rfl

theorem signature_some {sig : Sig} (h : signature H d = .ok sig) : d.T ≤ d.partials.length := by
  by_contra hc
  rw [signature, enoughPartialSig, decide_eq_false hc] at h
  cases h

end Recovery

/-- C23 (value). Whatever was received in whatever order, if `Signature` returns then it returns the address of the
nonce point and `r - e·x mod n`, where `x` and `r` are the discrete logarithms of the public key and the nonce point. -/
theorem C23_value (hH : ∀ b, (H b).length = 32) (a : Args) (d : DSS) (hd : newDSS H a = .ok d) (ls rs : List Nat)
    (hk : Keys d ls rs) (hc : Consistent d ls rs) (hT : (ls.length : Int) ≤ a.T ∧ (rs.length : Int) ≤ a.T)
    (hn : a.participants.length ≤ 2 ^ 63) (cs : List Call) (sig : Sig)
    (h : signature H (run H SH d cs) = .ok sig) :
    sig.addr = Spec.address H (sessNonce d).X (sessNonce d).Y ∧
    sig.s = ((rs.headD 0 : Int) - sessChallenge H d * (ls.headD 0 : Int)) % secp256k1N := by
  have hI := (Inv.init (ls := ls) (rs := rs) hd).run (SH := SH) hH hk cs
  have hall := all_shareEq (SH := SH) hH hd hk hc cs
  have hk' := hI.same.keys hk
  have hT' : (run H SH d cs).T = a.T := by rw [hI.same]; exact (newDSS_fresh hd).2.2.2.2.1
  have hnn : sessNonce (run H SH d cs) = sessNonce d := by rw [hI.same]; rfl
  have hparts : d.participants.length ≤ 2 ^ 63 := by rw [(newDSS_fresh hd).2.2.2.1]; exact hn
  obtain ⟨l, ls', r, rs', rfl, rfl, hl⟩ := hk.split
  generalize hd' : run H SH d cs = d' at *
  rw [signature_eq hk' (signature_some h)] at h
  change ((recoverSecret d'.partials d'.T) >>= _) = _ at h
  rw [Outcome.bind_eq_ok] at h
  obtain ⟨s, h1, h2⟩ := h
  rw [hT'] at h1
  have h3 := Outcome.ok.inj h2
  subst h3
  have hpos : 0 < a.T := lt_of_lt_of_le (by simp) hT.1
  obtain ⟨h4, h5⟩ := recoverSecret_sound d'.partials a.T hpos
    (fun s hs => by
      obtain ⟨⟨g1, g2⟩, _⟩ := hall s hs
      exact ⟨g1, by have : ((2 : Nat) ^ 63 : Int) = 2 ^ 63 := by norm_num
                    omega⟩)
    (sigPoly (sessChallenge H d : Fn) (l : Fn) (r : Fn) (ls'.map (fun k : Nat => (k : Fn))) (rs'.map (fun k : Nat => (k : Fn))))
    (sigPoly_degree _ _ _ _ _ _ (by rw [List.length_cons, List.length_map]; have := hT.1; rw [List.length_cons] at this; omega)
      (by rw [List.length_cons, List.length_map]; have := hT.2; rw [List.length_cons] at this; omega))
    (fun s hs => (shareEq_iff _ _ _ _ _ _).1 (hall s hs).2) s h1
  refine ⟨?_, ?_⟩
  · rw [hnn]; exact addrOf_spec H hH (log_reduced hk.sessKey_log.2)
  · rw [sigPoly_zero] at h5
    have h6 : ((s : Int) : Fn) = (((r : Int) - sessChallenge H d * (l : Int) : Int) : Fn) := by
      rw [h5]; push_cast; rfl
    rw [ZMod.intCast_eq_intCast_iff'] at h6
    simp only [List.headD_cons]
    rw [← h6, Int.emod_eq_of_lt h4.1 (by rw [← Scalar.order_eq]; exact h4.2)]

/-- C23. Whatever was received in whatever order, if `Signature` returns then `Verify` accepts the result for the
long-term public key and the message. -/
theorem C23_verifies (hH : ∀ b, (H b).length = 32) (a : Args) (d : DSS) (hd : newDSS H a = .ok d) (ls rs : List Nat)
    (hk : Keys d ls rs) (hc : Consistent d ls rs) (hT : (ls.length : Int) ≤ a.T ∧ (rs.length : Int) ≤ a.T)
    (hn : a.participants.length ≤ 2 ^ 63) (cs : List Call) (sig : Sig)
    (h : signature H (run H SH d cs) = .ok sig) :
    verify H (.pt (sessKey d)) a.msg sig = .ok () := by
  obtain ⟨h1, h2⟩ := C23_value H SH hH a d hd ls rs hk hc hT hn cs sig h
  obtain ⟨l, ls', r, rs', rfl, rfl, hl⟩ := hk.split
  obtain ⟨g1, g2⟩ := hk.sessKey_log
  have hmsg : d.msg = a.msg := (newDSS_fresh hd).2.2.2.2.2.2.2.2.1
  have hpos : (0 : Int) < secp256k1N := by decide
  rw [verify_iff H g1, ← hmsg]
  refine ⟨⟨?_, ?_⟩, hl, hk.msg, ?_⟩
  · rw [h2]; exact Int.emod_nonneg _ (by omega)
  · rw [h2, Scalar.order_eq]; exact Int.emod_lt_of_pos _ hpos
  · have e1 : (chalOf H (sessKey d) sig.addr d.msg : Int) = (sessChallenge H d : Nat) := by
      rw [chalOf_spec H (log_reduced g1).1 _ hk.msg.1, h1]; rfl
    have e2 : (sig.s : Fn) = (r : Fn) - (sessChallenge H d : Fn) * (l : Fn) := by
      rw [h2]
      have := ZMod.intCast_mod (((r :: rs').headD 0 : Int) - sessChallenge H d * ((l :: ls').headD 0 : Int)) secp256k1N
      rw [this]; simp only [List.headD_cons]; push_cast; rfl
    rw [e1, e2]
    push_cast
    rw [sub_add_cancel, ← g2.unique_left (log_ofLog _), addrOf_spec H hH (log_reduced g2), h1]

/-- C23 (success). As soon as `T` shares with distinct indices are collected, in particular when `PartialSig` was
called first, `Signature` does return a signature. -/
theorem C23_returns (hH : ∀ b, (H b).length = 32) (a : Args) (d : DSS) (hd : newDSS H a = .ok d) (ls rs : List Nat)
    (hk : Keys d ls rs) (hc : Consistent d ls rs) (hT : (ls.length : Int) ≤ a.T ∧ (rs.length : Int) ≤ a.T)
    (hn : a.participants.length ≤ 2 ^ 63) (k : Int) (cs : List Call)
    (he : a.T ≤ (run H SH d (.partialSig k :: cs)).partials.length) :
    ∃ sig, signature H (run H SH d (.partialSig k :: cs)) = .ok sig := by
  have hI := (Inv.init (ls := ls) (rs := rs) hd).run (SH := SH) hH hk (.partialSig k :: cs)
  have hall := all_shareEq (SH := SH) hH hd hk hc (.partialSig k :: cs)
  have hnd := C20_distinct_partial H SH hH a d hd ls rs hk k cs
  have hk' := hI.same.keys hk
  have hT' : (run H SH d (.partialSig k :: cs)).T = a.T := by rw [hI.same]; exact (newDSS_fresh hd).2.2.2.2.1
  have hparts : d.participants.length ≤ 2 ^ 63 := by rw [(newDSS_fresh hd).2.2.2.1]; exact hn
  obtain ⟨l, ls', r, rs', rfl, rfl, hl⟩ := hk.split
  generalize hd' : run H SH d (.partialSig k :: cs) = d' at *
  rw [signature_eq hk' (by rw [hT']; exact he), hT']
  have hpos : 0 < a.T := lt_of_lt_of_le (by simp) hT.1
  obtain ⟨s, h4, _⟩ := recoverSecret_poly d'.partials a.T hpos he hnd
    (fun s hs => by
      obtain ⟨⟨g1, g2⟩, _⟩ := hall s hs
      exact ⟨g1, by have : ((2 : Nat) ^ 63 : Int) = 2 ^ 63 := by norm_num
                    omega⟩)
    (sigPoly (sessChallenge H d : Fn) (l : Fn) (r : Fn) (ls'.map (fun k : Nat => (k : Fn))) (rs'.map (fun k : Nat => (k : Fn))))
    (sigPoly_degree _ _ _ _ _ _ (by rw [List.length_cons, List.length_map]; have := hT.1; rw [List.length_cons] at this; omega)
      (by rw [List.length_cons, List.length_map]; have := hT.2; rw [List.length_cons] at this; omega))
    (fun s hs => (shareEq_iff _ _ _ _ _ _).1 (hall s hs).2)
  exact ⟨⟨addrOf H (sessNonce d'), s⟩, by rw [h4]; rfl⟩

/-- C24. Two signers with the same commitments and message, with whatever shares each has collected, obtain the same
signature. -/
theorem C24_agree (hH : ∀ b, (H b).length = 32) (a1 a2 : Args) (d1 d2 : DSS) (hd1 : newDSS H a1 = .ok d1)
    (hd2 : newDSS H a2 = .ok d2) (hl : a1.long.commits = a2.long.commits) (hr : a1.random.commits = a2.random.commits)
    (hm : a1.msg = a2.msg) (ls rs : List Nat) (hk : Keys d1 ls rs) (hc1 : Consistent d1 ls rs)
    (hc2 : Consistent d2 ls rs) (hT1 : (ls.length : Int) ≤ a1.T ∧ (rs.length : Int) ≤ a1.T)
    (hT2 : (ls.length : Int) ≤ a2.T ∧ (rs.length : Int) ≤ a2.T) (hn1 : a1.participants.length ≤ 2 ^ 63)
    (hn2 : a2.participants.length ≤ 2 ^ 63) (cs1 cs2 : List Call) (sig1 sig2 : Sig)
    (h1 : signature H (run H SH d1 cs1) = .ok sig1) (h2 : signature H (run H SH d2 cs2) = .ok sig2) : sig1 = sig2 := by
  obtain ⟨_, _, _, _, _, e1, e2, _, e3, _⟩ := newDSS_fresh hd1
  obtain ⟨_, _, _, _, _, e4, e5, _, e6, _⟩ := newDSS_fresh hd2
  have c1 : d2.long.commits = d1.long.commits := by rw [e1, e4, hl]
  have c2 : d2.random.commits = d1.random.commits := by rw [e2, e5, hr]
  have c3 : d2.msg = d1.msg := by rw [e3, e6, hm]
  have hk2 : Keys d2 ls rs := ⟨by rw [c1]; exact hk.long, by rw [c2]; exact hk.random, hk.rne, hk.key, by rw [c3]; exact hk.msg⟩
  obtain ⟨v1, v2⟩ := C23_value H SH hH a1 d1 hd1 ls rs hk hc1 hT1 hn1 cs1 sig1 h1
  obtain ⟨v3, v4⟩ := C23_value H SH hH a2 d2 hd2 ls rs hk2 hc2 hT2 hn2 cs2 sig2 h2
  have k1 : sessNonce d2 = sessNonce d1 := by rw [sessNonce, sessNonce, c2]
  have k2 : sessKey d2 = sessKey d1 := by rw [sessKey, sessKey, c1]
  have k3 : sessChallenge H d2 = sessChallenge H d1 := by rw [sessChallenge, sessChallenge, k1, k2, c3]
  rw [k1] at v3
  rw [k3] at v4
  cases sig1; cases sig2
  dsimp only at v1 v2 v3 v4
  rw [v1, v2, v3, v4]

/-- C22. If two signers have the same participants (with distinct keys), commitments and message, the first holds
consistent shares and has a nonzero secret key and an index in the QUAL set of the second, then whatever each did
before, the partial signature issued by the first is accepted by the second unless it has already a share with this
index. -/
theorem C22_honest_accepted (hH : ∀ b, (H b).length = 32) (a1 a2 : Args) (d1 d2 : DSS) (hd1 : newDSS H a1 = .ok d1)
    (hd2 : newDSS H a2 = .ok d2) (hl : a1.long.commits = a2.long.commits) (hr : a1.random.commits = a2.random.commits)
    (hm : a1.msg = a2.msg) (hp : a1.participants = a2.participants) (hel : ∀ p ∈ a1.participants, IsElt p)
    (hsec : a1.secret % secp256k1N ≠ 0) (ls rs : List Nat) (hk : Keys d1 ls rs) (hc : Consistent d1 ls rs)
    (hq : (d1.index : Int) ∈ a2.H2) (cs1 cs2 : List Call) (k : Int) :
    ∃ ps, (partialSig H SH k (run H SH d1 cs1)).2 = .ok ps ∧ ps.part.I = d1.index ∧
      ((d1.index : Int) ∉ (run H SH d2 cs2).partialsIdx →
        (processPartialSig H SH (run H SH d2 cs2) ps).2 = .ok ()) := by
  obtain ⟨_, _, _, e0, _, e1, e2, _, e3, e7, e8, pub, e9, e10⟩ := newDSS_fresh hd1
  obtain ⟨_, _, _, f0, _, e4, e5, f1, e6, _, f2, _⟩ := newDSS_fresh hd2
  have c1 : d2.long.commits = d1.long.commits := by rw [e1, e4, hl]
  have c2 : d2.random.commits = d1.random.commits := by rw [e2, e5, hr]
  have c3 : d2.msg = d1.msg := by rw [e3, e6, hm]
  have hk2 : Keys d2 ls rs := ⟨by rw [c1]; exact hk.long, by rw [c2]; exact hk.random, hk.rne, hk.key, by rw [c3]; exact hk.msg⟩
  have hI1 := (Inv.init (ls := ls) (rs := rs) hd1).run (SH := SH) hH hk cs1
  have hI2 := (Inv.init (ls := ls) (rs := rs) hd2).run (SH := SH) hH hk2 cs2
  obtain ⟨v, h1, _⟩ := partialSig_state (H := H) (SH := SH) hk k
  have h1' := (ownShare_same (H := H) hI1.same).trans h1
  have hsid : (run H SH d1 cs1).sessionID = d1.sessionID := by rw [hI1.same]
  have hsc : (run H SH d1 cs1).secret = d1.secret := by rw [hI1.same]
  have hsf : (d1.secret : Fn) ≠ 0 := by
    rw [e7]; intro h; exact hsec ((emod_zero_iff _).2 h)
  have hps := signWith_eq H (k := k) hsf (psHash H SH ⟨d1.index, v⟩ d1.sessionID)
  obtain ⟨sig, hsig⟩ : ∃ sig, signWith H k d1.secret (psHash H SH ⟨d1.index, v⟩ d1.sessionID) = .ok sig := ⟨_, hps⟩
  refine ⟨⟨⟨d1.index, v⟩, d1.sessionID, sigPtr sig⟩, ?_, rfl, ?_⟩
  · rw [partialSig, h1']
    dsimp only
    rw [hsid, hsc, hsig]; rfl
  · intro hnew
    have hch : sessChallenge H (run H SH d2 cs2) = sessChallenge H d1 := by
      rw [hI2.same.chal, sessChallenge, sessChallenge, sessKey, sessKey, sessNonce, sessNonce, c1, c2, c3]
    have hparts : (run H SH d2 cs2).participants = a1.participants := by rw [hI2.same]; exact f0.trans hp.symm
    have hH2 : (run H SH d2 cs2).H2 = a2.H2 := by rw [hI2.same]; exact f1
    have hsid2 : (run H SH d2 cs2).sessionID = d1.sessionID := by
      rw [hI2.same]; show d2.sessionID = _
      rw [f2, e8, sessionIDOf, sessionIDOf, hl, hr]
    rw [accepts_ptr H SH hH _ ls rs (hI2.same.keys hk2), hparts, hH2, hsid2, hch]
    obtain ⟨hi1, hi2⟩ := List.findIdx?_eq_some_iff_getElem.1 e10
    obtain ⟨hi3, _⟩ := hi2
    refine ⟨⟨a1.participants[d1.index], by simp, by simp [hi1], ?_⟩, rfl, hq, hnew, (own_shareEq hH hk hc h1).2⟩
    obtain ⟨x, hx⟩ := (exists_log_iff _).1 (hel _ (List.getElem_mem hi1))
    obtain ⟨pub', g1, g2⟩ := log_mulBase a1.secret
    have : pub' = pub := Outcome.ok.inj (g1.symm.trans e9)
    subst this
    have hxe : x = (a1.secret : Fn) := (hx.equal_iff g2).1 hi3
    have hpt : a1.participants[d1.index] = pub' := by
      refine hx.unique_left ?_
      rw [hxe]; exact g2
    rw [hpt, sigPtr, verifyPtr]
    obtain ⟨sig', P', s1, s2, s3⟩ := C14_sign_verifies H k a1.secret (psHash H SH ⟨d1.index, v⟩ d1.sessionID)
      (by rw [Scalar.order_eq]; exact hsec) (by
        rw [psHash, BigInt.setBytes_eq]
        refine ⟨Int.natCast_nonneg _, ?_⟩
        have := beNat_lt (H (SH ⟨d1.index, v⟩ ++ d1.sessionID))
        rw [hH] at this
        exact_mod_cast this)
    rw [← e7] at s1
    have e11 : sig' = sig := Outcome.ok.inj (s1.symm.trans hsig)
    have e12 : P' = pub' := Outcome.ok.inj (s2.symm.trans g1)
    subst e11; subst e12
    exact s3

/-- C26 (refusal). While fewer than `T` shares are collected `Signature` returns an error. -/
theorem C26_refuses (d : DSS) (h : (d.partials.length : Int) < d.T) : signature H d = .err := by
  rw [signature, enoughPartialSig, decide_eq_false (by omega)]; rfl

/-- C26 (no information). For any `T - 1` shares with distinct indices, any further index and any candidate scalar
there is exactly one scalar for the further share with which the recovered scalar is the candidate. -/
theorem C26_undetermined (shares : List Share) (i : Int) (hn : (shares.map Share.I).Nodup) (hi : i ∉ shares.map Share.I)
    (hr : ∀ s ∈ shares, 0 ≤ s.I ∧ s.I < 2 ^ 63) (hir : 0 ≤ i ∧ i < 2 ^ 63) (c : Int) (hc : 0 ≤ c ∧ c < secp256k1N) :
    ∃! v : Int, (0 ≤ v ∧ v < secp256k1N) ∧ recoverSecret (shares ++ [⟨i, v⟩]) (shares.length + 1) = .ok c := by
  have hne : ∀ v : Int, ((shares ++ [(⟨i, v⟩ : Share)]).map Share.I).Nodup := by
    intro v
    rw [List.map_append, List.nodup_append]
    refine ⟨hn, by simp, ?_⟩
    intro a ha b hb
    simp only [List.map_cons, List.map_nil, List.mem_singleton] at hb
    rintro rfl
    exact hi (hb ▸ ha)
  have hio : ∀ v : Int, ∀ s ∈ shares ++ [(⟨i, v⟩ : Share)], IdxOk s.I := by
    intro v s hs
    rw [List.mem_append, List.mem_singleton] at hs
    rcases hs with hs | rfl
    · exact hr s hs
    · exact hir
  have hlen : ∀ v : Int, ((shares.length + 1 : Nat) : Int) ≤ ((shares ++ [(⟨i, v⟩ : Share)]).length : Int) := by
    intro v; rw [List.length_append, List.length_singleton]
  -- the points given by the shares, and some value at zero, determine a polynomial
  have hnd : ((toPts (shares.map fun s => (s.I, s.V))).map Prod.fst).Nodup := by
    refine toPts_nodup ?_ ?_
    · rw [List.map_map]; exact hn
    · intro q hq
      rw [List.mem_map] at hq
      obtain ⟨s, hs, rfl⟩ := hq
      exact hr s hs
  have hsurj : ∀ c : Fn, ∃ v : Fn, ∃ p : Polynomial Fn, p.degree < ((shares.length + 1 : ℕ) : WithBot ℕ) ∧
      (∀ s ∈ shares, (s.V : Fn) = p.eval (xOf s.I)) ∧ v = p.eval (xOf i) ∧ p.eval 0 = c := by
    intro c
    obtain ⟨p, p1, p2, p3⟩ := exists_poly_through (toPts (shares.map fun s => (s.I, s.V))) hnd (by
      intro q hq
      rw [toPts, List.map_map, List.mem_map] at hq
      obtain ⟨s, hs, rfl⟩ := hq
      exact xOf_ne_zero (hr s hs)) c
    refine ⟨p.eval (xOf i), p, ?_, ?_, rfl, p3⟩
    · rw [toPts, List.length_map, List.length_map] at p1; exact p1
    · intro s hs
      exact p2 (xOf s.I, (s.V : Fn)) (by rw [toPts, List.map_map]; exact List.mem_map_of_mem hs)
  have hval : ∀ (v : Int) (p : Polynomial Fn), p.degree < ((shares.length + 1 : ℕ) : WithBot ℕ) →
      (∀ s ∈ shares, (s.V : Fn) = p.eval (xOf s.I)) → (v : Fn) = p.eval (xOf i) →
      ∃ r, recoverSecret (shares ++ [⟨i, v⟩]) (shares.length + 1) = .ok r ∧
        (0 ≤ r ∧ r < Scalar.GroupOrder) ∧ (r : Fn) = p.eval 0 := by
    intro v p p1 p2 p3
    refine recoverSecret_poly _ _ (by omega) (by have := hlen v; push_cast at this; exact this) (hne v) (hio v) p ?_ ?_
    · rw [show ((shares.length : Int) + 1).toNat = shares.length + 1 by omega]; exact p1
    · intro s hs
      rw [List.mem_append, List.mem_singleton] at hs
      rcases hs with hs | rfl
      · exact p2 s hs
      · exact p3
  have hcan : ∀ x y : Int, (0 ≤ x ∧ x < secp256k1N) → (0 ≤ y ∧ y < secp256k1N) → (x : Fn) = (y : Fn) → x = y := by
    intro x y hx hy h
    rw [ZMod.intCast_eq_intCast_iff', Int.emod_eq_of_lt hx.1 hx.2, Int.emod_eq_of_lt hy.1 hy.2] at h
    exact h
  choose f hf using hsurj
  have hinj : Function.Injective f := by
    intro x y hxy
    obtain ⟨p, p1, p2, p3, p4⟩ := hf x
    obtain ⟨q, q1, q2, q3, q4⟩ := hf y
    have hx : (((f x).val : Int) : Fn) = f x := by rw [Int.cast_natCast, ZMod.natCast_zmod_val]
    obtain ⟨r, r1, r2, r3⟩ := hval (f x).val p p1 p2 (hx.trans p3)
    obtain ⟨r', r4, r5, r6⟩ := hval (f x).val q q1 q2 (hx.trans (hxy.trans q3))
    have : r = r' := Outcome.ok.inj (r1.symm.trans r4)
    rw [← p4, ← q4, ← r3, ← r6, this]
  have hbij := Finite.injective_iff_surjective.1 hinj
  obtain ⟨p, p1, p2, p3, p4⟩ := hf (c : Fn)
  have hx : (((f (c : Fn)).val : Int) : Fn) = f (c : Fn) := by rw [Int.cast_natCast, ZMod.natCast_zmod_val]
  refine ⟨((f (c : Fn)).val : Int), ⟨⟨Int.natCast_nonneg _, by exact_mod_cast ZMod.val_lt _⟩, ?_⟩, ?_⟩
  · obtain ⟨r, r1, r2, r3⟩ := hval (f (c : Fn)).val p p1 p2 (hx.trans p3)
    rw [r1]
    congr 1
    exact hcan r c r2 hc (r3.trans p4)
  · rintro w ⟨w1, w2⟩
    obtain ⟨y, hy⟩ := hbij (w : Fn)
    obtain ⟨q, q1, q2, q3, q4⟩ := hf y
    obtain ⟨r, r1, r2, r3⟩ := hval w q q1 q2 (hy.symm.trans q3)
    have e : r = c := Outcome.ok.inj (r1.symm.trans w2)
    refine hcan _ _ w1 ⟨Int.natCast_nonneg _, by exact_mod_cast ZMod.val_lt _⟩ ?_
    rw [hx, ← hy, ← q4, ← r3, e]

end Verif.Props
