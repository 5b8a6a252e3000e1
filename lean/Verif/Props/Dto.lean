import Verif.Model.Dto
import Verif.Props.Layout

/-! Properties C29, C30: wire objects and the file of long-term shares. -/
namespace Verif.Props
open Verif.Point Verif.Layout Verif.Dto

/-- A point that can be sent: on the curve, with reduced coordinates as this package makes them. -/
def Sendable (p : Pt) : Prop := Reduced p.X p.Y ∧ OnCurve p.X p.Y

/-- A scalar as this package makes them. -/
def CanonicalShare (s : Dss.Share) : Prop := 0 ≤ s.V ∧ s.V < secp256k1N

theorem share_roundtrip (s : Dss.Share) :
    ∃ d, priShareToDto s = .ok d ∧ (CanonicalShare s → dtoToPriShare d = .ok s) := by
  obtain ⟨bs, h1, _, _, _, h2⟩ := C03_roundtrip s.V
  refine ⟨⟨s.I, bs⟩, by rw [priShareToDto, h1]; rfl, ?_⟩
  intro hc
  rw [dtoToPriShare, h2 ⟨hc.1, by rw [Scalar.order_eq]; exact hc.2⟩]; rfl

theorem points_roundtrip (ps : List Pt) (h : ∀ p ∈ ps, Sendable p) :
    ∃ bs, mapO marshalBinary ps = .ok bs ∧ mapO unmarshalBinary bs = .ok ps := by
  induction ps with
  | nil => exact ⟨[], rfl, rfl⟩
  | cons p ps ih =>
    obtain ⟨bs, h1, h2⟩ := ih (fun q hq => h q (by simp [hq]))
    obtain ⟨b, h3, _, h4⟩ := C07_roundtrip p (h p (by simp)).1 (h p (by simp)).2
    exact ⟨b :: bs, by rw [mapO, h3, Outcome.bind_ok, h1]; rfl, by rw [mapO, h4, Outcome.bind_ok, h2]; rfl⟩

theorem points_err (ps : List Pt) : (mapO marshalBinary ps = .err ↔ ∃ p ∈ ps, ¬ OnCurve p.X p.Y) ∧
    mapO marshalBinary ps ≠ .panic := by
  induction ps with
  | nil => exact ⟨by simp [mapO], by simp [mapO]⟩
  | cons p ps ih =>
    obtain ⟨h1, h2, _⟩ := C07_marshal_fails_iff p
    rw [mapO]
    cases hm : marshalBinary p with
    | panic => exact absurd hm h2
    | err => exact ⟨⟨fun _ => ⟨p, by simp, h1.1 hm⟩, fun _ => rfl⟩, by simp⟩
    | ok b =>
      rw [Outcome.bind_ok]
      have hp : OnCurve p.X p.Y := by
        by_contra hc; rw [h1.2 hc] at hm; cases hm
      have key : (∃ q ∈ p :: ps, ¬ OnCurve q.X q.Y) ↔ ∃ q ∈ ps, ¬ OnCurve q.X q.Y := by
        constructor
        · rintro ⟨q, hq, hc⟩
          rcases List.mem_cons.1 hq with rfl | hq
          · exact absurd hp hc
          · exact ⟨q, hq, hc⟩
        · rintro ⟨q, hq, hc⟩; exact ⟨q, by simp [hq], hc⟩
      rw [key, ← ih.1]
      cases hr : mapO marshalBinary ps with
      | ok bs => exact ⟨by simp, by simp⟩
      | err => exact ⟨by simp, by simp⟩
      | panic => exact absurd hr ih.2

/-- Conversion to a DTO fails exactly when `bad`; otherwise converting back gives the object. -/
def Faithful {A D : Type} (conv : A → Outcome D) (back : D → Outcome A) (good : A → Prop) (bad : A → Prop) : Prop :=
  ∀ x, (good x → ∃ d, conv x = .ok d ∧ back d = .ok x) ∧ (conv x = .err ↔ bad x) ∧ conv x ≠ .panic

/-- The objects of a VSS deal are as the package makes them. -/
def GoodDeal (d : VssDeal) : Prop := CanonicalShare d.secShare ∧ CanonicalShare d.rndShare ∧ ∀ p ∈ d.commitments, Sendable p
/-- Some commitment is not a curve point. -/
def BadDeal (d : VssDeal) : Prop := ∃ p ∈ d.commitments, ¬ OnCurve p.X p.Y

theorem faithful_vssDeal : Faithful vssDealToDto dtoToVssDeal GoodDeal BadDeal := by
  intro d
  obtain ⟨a, a1, a2⟩ := share_roundtrip d.secShare
  obtain ⟨b, b1, b2⟩ := share_roundtrip d.rndShare
  obtain ⟨e1, e2⟩ := points_err d.commitments
  have eq : vssDealToDto d = (mapO marshalBinary d.commitments >>= fun cbs => .ok ⟨d.sessionID, a, b, d.T, cbs⟩) := by
    rw [vssDealToDto, a1, Outcome.bind_ok, b1]; rfl
  refine ⟨?_, ?_, ?_⟩
  · rintro ⟨g1, g2, g3⟩
    obtain ⟨cs, c1, c2⟩ := points_roundtrip d.commitments g3
    refine ⟨⟨d.sessionID, a, b, d.T, cs⟩, by rw [eq, c1]; rfl, ?_⟩
    rw [dtoToVssDeal, a2 g1, Outcome.bind_ok, b2 g2, Outcome.bind_ok, c2]; rfl
  · rw [eq, BadDeal, ← e1]
    cases mapO marshalBinary d.commitments <;> simp
  · rw [eq]
    cases h : mapO marshalBinary d.commitments with
    | panic => exact absurd h e2
    | ok _ => simp
    | err => simp

/-- C29 (deals). -/
theorem C29_deal : Faithful dealToDto dtoToDeal (fun d => Sendable d.deal.dhKey)
    (fun d => ¬ OnCurve d.deal.dhKey.X d.deal.dhKey.Y) := by
  intro d
  obtain ⟨h1, h2, _⟩ := C07_marshal_fails_iff d.deal.dhKey
  refine ⟨?_, ?_, ?_⟩
  · intro hs
    obtain ⟨b, b1, _, b2⟩ := C07_roundtrip _ hs.1 hs.2
    exact ⟨_, by rw [dealToDto, b1]; rfl, by rw [dtoToDeal, b2]; rfl⟩
  · beta_reduce
    rw [← h1, dealToDto]
    cases marshalBinary d.deal.dhKey <;> simp
  · rw [dealToDto]
    cases h : marshalBinary d.deal.dhKey with
    | panic => exact absurd h h2
    | ok _ => simp
    | err => simp

/-- C29 (private shares). -/
theorem C29_priShare : Faithful priShareToDto dtoToPriShare CanonicalShare (fun _ => False) := by
  intro s
  obtain ⟨d, h1, h2⟩ := share_roundtrip s
  exact ⟨fun hc => ⟨d, h1, h2 hc⟩, by rw [h1]; simp, by rw [h1]; simp⟩

/-- C29 (VSS deals). -/
theorem C29_vssDeal : Faithful vssDealToDto dtoToVssDeal GoodDeal BadDeal := faithful_vssDeal

/-- C29 (justifications). -/
theorem C29_justification : Faithful justificationToDto dtoToJustification (fun j => GoodDeal j.jDeal)
    (fun j => BadDeal j.jDeal) := by
  intro j
  obtain ⟨h1, h2, h3⟩ := faithful_vssDeal j.jDeal
  refine ⟨?_, ?_, ?_⟩
  · intro hg
    obtain ⟨d, d1, d2⟩ := h1 hg
    exact ⟨_, by rw [justificationToDto, d1]; rfl, by rw [dtoToJustification, d2]; rfl⟩
  · beta_reduce
    rw [← h2, justificationToDto]
    cases vssDealToDto j.jDeal <;> simp
  · rw [justificationToDto]
    cases h : vssDealToDto j.jDeal with
    | panic => exact absurd h h3
    | ok _ => simp
    | err => simp

/-- C29 (secret commits). -/
theorem C29_commits : Faithful commitsToDto dtoToCommits (fun c => ∀ p ∈ c.commitments, Sendable p)
    (fun c => ∃ p ∈ c.commitments, ¬ OnCurve p.X p.Y) := by
  intro c
  obtain ⟨e1, e2⟩ := points_err c.commitments
  refine ⟨?_, ?_, ?_⟩
  · intro hg
    obtain ⟨cs, c1, c2⟩ := points_roundtrip c.commitments hg
    exact ⟨_, by rw [commitsToDto, c1]; rfl, by rw [dtoToCommits, c2]; rfl⟩
  · beta_reduce
    rw [← e1, commitsToDto]
    cases mapO marshalBinary c.commitments <;> simp
  · rw [commitsToDto]
    cases h : mapO marshalBinary c.commitments with
    | panic => exact absurd h e2
    | ok _ => simp
    | err => simp

/-- C29 (complaints about commits). -/
theorem C29_complCommits : Faithful complCommitsToDto dtoToComplCommits (fun c => GoodDeal c.deal) (fun c => BadDeal c.deal) := by
  intro c
  obtain ⟨h1, h2, h3⟩ := faithful_vssDeal c.deal
  refine ⟨?_, ?_, ?_⟩
  · intro hg
    obtain ⟨d, d1, d2⟩ := h1 hg
    exact ⟨_, by rw [complCommitsToDto, d1]; rfl, by rw [dtoToComplCommits, d2]; rfl⟩
  · beta_reduce
    rw [← h2, complCommitsToDto]
    cases vssDealToDto c.deal <;> simp
  · rw [complCommitsToDto]
    cases h : vssDealToDto c.deal with
    | panic => exact absurd h h3
    | ok _ => simp
    | err => simp

/-- C29 (reconstruct commits). -/
theorem C29_reconsCommits : Faithful reconsCommitsToDto dtoToReconsCommits (fun r => CanonicalShare r.share) (fun _ => False) := by
  intro r
  obtain ⟨d, h1, h2⟩ := share_roundtrip r.share
  have e : reconsCommitsToDto r = .ok ⟨r.sessionID, r.index, r.dealerIndex, d, r.signature⟩ := by
    rw [reconsCommitsToDto, h1]; rfl
  exact ⟨fun hc => ⟨_, e, by rw [dtoToReconsCommits, h2 hc]; rfl⟩, by rw [e]; simp, by rw [e]; simp⟩

/-- C29 (partial signatures). -/
theorem C29_partsig : Faithful partsigToDto dtoToPartsig (fun s => CanonicalShare s.part) (fun _ => False) := by
  intro s
  obtain ⟨d, h1, h2⟩ := share_roundtrip s.part
  have e : partsigToDto s = .ok ⟨d, s.sessionID, s.signature⟩ := by rw [partsigToDto, h1]; rfl
  exact ⟨fun hc => ⟨_, e, by rw [dtoToPartsig, h2 hc]; rfl⟩, by rw [e]; simp, by rw [e]; simp⟩

theorem sendable_base : Sendable base := by unfold Sendable Reduced OnCurve; decide +kernel

/-- C29 is not vacuous: a deal of two commitments that survives, one with the identity that is refused. -/
example : GoodDeal ⟨[1], ⟨0, 5⟩, ⟨0, 6⟩, 2, [base, base]⟩ ∧ BadDeal ⟨[1], ⟨0, 5⟩, ⟨0, 6⟩, 2, [base, null]⟩ := by
  refine ⟨⟨by unfold CanonicalShare; decide, by unfold CanonicalShare; decide, ?_⟩, null, by simp, ?_⟩
  · intro p hp
    have : p = base := by simpa using hp
    rw [this]; exact sendable_base
  · unfold OnCurve; decide +kernel

/-- A long-term share as the package makes them. -/
def GoodKeyShare (s : Dss.KeyShare) : Prop := CanonicalShare s.share ∧ ∀ p ∈ s.commits, Sendable p

theorem dks_roundtrip (s : Dss.KeyShare) (h : GoodKeyShare s) : ∃ d, dksToDto s = .ok d ∧ dtoToDks d = .ok s := by
  obtain ⟨a, a1, a2⟩ := share_roundtrip s.share
  obtain ⟨cs, c1, c2⟩ := points_roundtrip s.commits h.2
  exact ⟨⟨cs, a⟩, by rw [dksToDto, c1, Outcome.bind_ok, a1]; rfl, by rw [dtoToDks, c2, Outcome.bind_ok, a2 h.1]; rfl⟩

theorem lts_roundtrip (lts : GoMap Int Dss.KeyShare) (h : ∀ p ∈ lts, GoodKeyShare p.2) :
    ∃ d, ltsToDto lts = .ok d ∧ dtoToLts d = .ok lts := by
  rw [ltsToDto]
  simp only [dtoToLts]
  induction lts with
  | nil => exact ⟨[], rfl, rfl⟩
  | cons p lts ih =>
    obtain ⟨ds, h1, h2⟩ := ih (fun q hq => h q (by simp [hq]))
    obtain ⟨d, h3, h4⟩ := dks_roundtrip p.2 (h p (by simp))
    refine ⟨(p.1, d) :: ds, ?_, ?_⟩
    · rw [mapO, h3, Outcome.bind_ok, Outcome.pure_eq, Outcome.bind_ok, h1]; rfl
    · rw [mapO, h4, Outcome.bind_ok, Outcome.pure_eq, Outcome.bind_ok, h2]; rfl

theorem verifyKeysSubset_iff {Q R : Type} (xs : GoMap Int Q) (ys : GoMap Int R) :
    verifyKeysSubset xs ys = .ok () ↔ ∀ i, (∃ q, xs.get? i = some q) → ∃ r, ys.get? i = some r := by
  rw [verifyKeysSubset, Outcome.require_eq_ok, List.all_eq_true]
  have e : ∀ {A : Type} (m : GoMap Int A) (i : Int), i ∈ m.keys ↔ ∃ q, m.get? i = some q := by
    intro A m i; rw [← GoMap.get?_isSome_iff, Option.isSome_iff_exists]
  constructor
  · intro h i hi
    exact Option.isSome_iff_exists.1 (h i ((e xs i).2 hi))
  · intro h i hi
    exact Option.isSome_iff_exists.2 (h i ((e xs i).1 hi))

/-- C30. Saving any map of shares succeeds, and loading it succeeds exactly when every guest has a share, giving for
each index the share that was saved; otherwise it panics. -/
theorem C30_save_load {Q : Type} (lts : GoMap Int Dss.KeyShare) (h : ∀ i s, lts.get? i = some s → GoodKeyShare s)
    (hn : lts.keys.Nodup) (guests : GoMap Int Q) :
    ∃ file, saveLongterms lts = .ok file ∧
      ((∀ i, (∃ g, guests.get? i = some g) → ∃ s, lts.get? i = some s) →
        ∃ lts', loadLongterms guests file = .ok lts' ∧ ∀ i, lts'.get? i = lts.get? i) ∧
      ((∃ i g, guests.get? i = some g ∧ lts.get? i = none) → loadLongterms guests file = .panic) := by
  obtain ⟨d, h1, h2⟩ := lts_roundtrip lts (fun p hp => h p.1 p.2 ((GoMap.mem_iff_get? hn p.1 p.2).1 hp))
  refine ⟨d, by rw [saveLongterms, h1]; rfl, ?_, ?_⟩
  · intro hc
    refine ⟨lts, ?_, fun _ => rfl⟩
    rw [loadLongterms, h2, Outcome.orPanic_ok, Outcome.bind_ok, (verifyKeysSubset_iff guests lts).2 hc]; rfl
  · rintro ⟨i, g, h3, h4⟩
    rw [loadLongterms, h2, Outcome.orPanic_ok, Outcome.bind_ok]
    have : verifyKeysSubset guests lts = .err := by
      rw [verifyKeysSubset]
      by_cases hb : (guests.keys.all fun k => (lts.get? k).isSome) = true
      · rw [List.all_eq_true] at hb
        have := hb i ((GoMap.get?_isSome_iff guests i).1 (by rw [h3]; rfl))
        rw [h4] at this; cases this
      · rw [Bool.not_eq_true] at hb; rw [hb]; rfl
    rw [this]; rfl

/-- C30 (any file). Whatever the file contains, if loading succeeds then every guest has a share. -/
theorem C30_coverage {Q : Type} (guests : GoMap Int Q) (file : GoMap Int DksDTO) (lts : GoMap Int Dss.KeyShare)
    (h : loadLongterms guests file = .ok lts) (i : Int) (g : Q) (hg : guests.get? i = some g) : ∃ s, lts.get? i = some s := by
  rw [loadLongterms, Outcome.bind_eq_ok] at h
  obtain ⟨l, h1, h2⟩ := h
  rw [Outcome.bind_eq_ok] at h2
  obtain ⟨_, h3, h4⟩ := h2
  have e := Outcome.ok.inj h4
  subst e
  rw [orPanic_ok] at h3
  exact (verifyKeysSubset_iff guests l).1 h3 i ⟨g, hg⟩

/-- C30 is not vacuous. -/
example : ∃ lts : GoMap Int Dss.KeyShare, lts.keys.Nodup ∧ (∀ i s, lts.get? i = some s → GoodKeyShare s) ∧
    (lts.get? 1).isSome = true := by
  refine ⟨[(1, ⟨⟨1, 7⟩, [base]⟩)], by simp [GoMap.keys], ?_, rfl⟩
  intro i s h
  rw [GoMap.get?_cons] at h
  by_cases e : (1 : Int) = i
  · rw [if_pos e] at h
    cases h
    refine ⟨by unfold CanonicalShare; decide, ?_⟩
    intro p hp
    have : p = base := by simpa using hp
    rw [this]; exact sendable_base
  · rw [if_neg e] at h; cases h

end Verif.Props
