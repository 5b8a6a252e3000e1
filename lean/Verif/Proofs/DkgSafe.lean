import Verif.Proofs.Dkg

/-! Absence of panics in the two protocols. -/
namespace Verif.Dkg
open Verif.Prot Verif.Dto Verif.Dss Verif.Props Verif.Point
variable {K : Type} {y : Kyb K} {H : List UInt8 → List UInt8} {SH : Share → List UInt8} {env : Env}

/-- The generator does not panic. -/
structure Calm (y : Kyb K) : Prop where
  deals : ∀ k, (y.deals k).2 ≠ .panic
  processDeal : ∀ k d, (y.processDeal k d).2 ≠ .panic
  processResponse : ∀ k r, (y.processResponse k r).2 ≠ .panic
  processJustification : ∀ k j, (y.processJustification k j).2 ≠ .panic
  secretCommits : ∀ k, (y.secretCommits k).2 ≠ .panic
  processSecretCommits : ∀ k c, (y.processSecretCommits k c).2 ≠ .panic
  processComplaintCommits : ∀ k c, (y.processComplaintCommits k c).2 ≠ .panic
  processReconstructCommits : ∀ k r, (y.processReconstructCommits k r).2 ≠ .panic
  distKeyShare : ∀ k, y.distKeyShare k ≠ .panic

/-- No nil pointer where the code dereferences one: the inner response, the signature on a share and its scalar. -/
def Complete : Dto → Prop
  | .response r => r.response ≠ none
  | .partsig s => ∃ addr n, s.signature = some (addr, some n)
  | _ => True

/-- A signer on which no call panics. -/
structure Ready (d : DSS) : Prop where
  setup : ∃ l r ls rs, LogSetup d l r ls rs
  few : d.participants.length ≤ 2 ^ 63
  index : d.index < d.participants.length
  parts : ∀ s ∈ d.partials, 0 ≤ s.I ∧ s.I < d.participants.length

theorem logs_of_elts (cs : List Pt) (h : ∀ c ∈ cs, IsElt c) : ∃ xs, List.Forall₂ Log cs xs := by
  induction cs with
  | nil => exact ⟨[], .nil⟩
  | cons c cs ih =>
    obtain ⟨xs, h1⟩ := ih fun x hx => h x (by simp [hx])
    obtain ⟨x, hx⟩ := (exists_log_iff c).1 (h c (by simp))
    exact ⟨x :: xs, .cons hx h1⟩

/-- Commitments as the protocol makes them: group elements, at least one. -/
def Commits (cs : List Pt) : Prop := cs ≠ [] ∧ ∀ c ∈ cs, IsElt c

theorem newDSS_ne_panic (a : Args) : newDSS H a ≠ .panic := by
  obtain ⟨r, h1, _⟩ := log_mulBase a.secret
  rw [newDSS, h1, Outcome.bind_ok, Outcome.bind_ne_panic]
  exact ⟨Outcome.ofOption_ne_panic _, fun i _ => by simp⟩

theorem ready_new {a : Args} {d : DSS} (h : newDSS H a = .ok d) (hl : Commits a.long.commits)
    (hk : a.long.commits.headD null ≠ null) (hr : Commits a.random.commits) (hn : a.participants.length ≤ 2 ^ 63) : Ready d := by
  obtain ⟨g1, _, _, g4, _, g6, g7, _⟩ := newDSS_fresh h
  refine ⟨?_, by rw [g4]; exact hn, index_lt h, by rw [g1]; intro s hs; cases hs⟩
  obtain ⟨xs, h1⟩ := logs_of_elts _ hl.2
  obtain ⟨zs, h2⟩ := logs_of_elts _ hr.2
  rw [← g6] at h1 hk
  rw [← g7] at h2
  cases xs with
  | nil => exact absurd (by rw [← g6]; exact List.forall₂_nil_right_iff.1 h1) hl.1
  | cons l ls =>
    cases zs with
    | nil => exact absurd (by rw [← g7]; exact List.forall₂_nil_right_iff.1 h2) hr.1
    | cons r rs =>
      refine ⟨l, r, ls, rs, h1, h2, ?_⟩
      obtain ⟨c, cs, e1, _, e3⟩ := List.forall₂_cons_right_iff.1 h1
      intro hz
      subst hz
      rw [e3] at hk
      exact hk (e1.unique_left log_null)

theorem Ready.same {d d' : DSS} (h : Ready d) (h1 : d'.long = d.long) (h2 : d'.random = d.random)
    (h3 : d'.participants = d.participants) (h4 : d'.index = d.index)
    (h5 : ∀ s ∈ d'.partials, 0 ≤ s.I ∧ s.I < d.participants.length) : Ready d' := by
  obtain ⟨l, r, ls, rs, g⟩ := h.setup
  exact ⟨⟨l, r, ls, rs, by rw [h1]; exact g.long, by rw [h2]; exact g.random, g.key⟩, by rw [h3]; exact h.few,
    by rw [h3, h4]; exact h.index, by rw [h3]; exact h5⟩

theorem signWith_ne_panic (k priv msg : Int) : Schnorr.signWith H k priv msg ≠ .panic := by
  obtain ⟨r, h1, _⟩ := log_mulBase priv
  exact (C19_sign_partial H k priv msg r h1).2.1

theorem ready_partialSig {d : DSS} (h : Ready d) (k : Int) :
    Ready (partialSig H SH k d).1 ∧ (partialSig H SH k d).2 ≠ .panic := by
  obtain ⟨l, r, ls, rs, g⟩ := h.setup
  rw [partialSig, ownShare_eq g]
  dsimp only
  refine ⟨?_, ?_⟩
  · by_cases hs : d.signed = true
    · rw [if_pos hs]; exact h
    · rw [if_neg hs]
      refine h.same rfl rfl rfl rfl fun s hs => ?_
      rcases List.mem_append.1 hs with hs | hs
      · exact h.parts s hs
      · rw [List.mem_singleton] at hs
        subst hs
        have := h.index
        constructor
        · show (0 : Int) ≤ (d.index : Int); omega
        · show (d.index : Int) < (d.participants.length : Int); omega
  · rw [Outcome.bind_ne_panic]
    exact ⟨signWith_ne_panic _ _ _, fun a _ => by simp⟩

theorem check_ne_panic {d : DSS} (h : Ready d) {ps : PartialSig} (hi : 0 ≤ ps.part.I)
    (hs : ∃ addr n, ps.signature = some (addr, some n)) : checkPartialSig H SH d ps ≠ .panic := by
  obtain ⟨l, r, ls, rs, g⟩ := h.setup
  obtain ⟨addr, n, hs⟩ := hs
  obtain ⟨r1, h1, h2⟩ := evalCommits_spec g.random ps.part.I
  obtain ⟨r2, h3, h4⟩ := evalCommits_spec g.long ps.part.I
  obtain ⟨r3, h5, h6⟩ := h4.mul (sessionChal H d l r)
  obtain ⟨r4, h7, h8⟩ := log_mulBase ps.part.V
  have hreq : ∀ b, Outcome.require b ≠ .panic := by intro b; cases b <;> simp
  rw [checkPartialSig, Outcome.bind_ne_panic]
  refine ⟨?_, fun pub _ => ?_⟩
  · rw [findPub]
    by_cases hc : (d.participants.length : Int) ≤ ps.part.I
    · rw [if_pos hc]; simp
    · rw [if_neg hc, if_neg (by omega), List.getElem?_eq_getElem (by omega)]; simp
  rw [Outcome.bind_ne_panic]
  refine ⟨hreq _, fun _ _ => ?_⟩
  rw [Outcome.bind_ne_panic]
  refine ⟨by rw [hs]; exact Schnorr.verify_ne_panic H _ _ _, fun _ _ => ?_⟩
  rw [Outcome.bind_ne_panic]
  refine ⟨hreq _, fun _ _ => ?_⟩
  rw [Outcome.bind_ne_panic]
  refine ⟨hreq _, fun _ _ => ?_⟩
  rw [g.hashSig, Outcome.bind_ok, h1, Outcome.bind_ok, h3, Outcome.bind_ok, h5, Outcome.bind_ok, h7, Outcome.bind_ok]
  exact hreq _

theorem ready_process {d : DSS} (h : Ready d) {ps : PartialSig} (hi : 0 ≤ ps.part.I)
    (hs : ∃ addr n, ps.signature = some (addr, some n)) :
    Ready (processPartialSig H SH d ps).1 ∧ (processPartialSig H SH d ps).2 ≠ .panic := by
  have hc := check_ne_panic (H := H) (SH := SH) h hi hs
  rw [processPartialSig]
  cases hx : checkPartialSig H SH d ps with
  | panic => exact absurd hx hc
  | err => exact ⟨h, by simp⟩
  | ok _ =>
    refine ⟨h.same rfl rfl rfl rfl fun s hs => ?_, by simp⟩
    rcases List.mem_append.1 hs with hs | hs
    · exact h.parts s hs
    · rw [List.mem_singleton] at hs
      subst hs
      obtain ⟨l, r, ls, rs, g⟩ := h.setup
      obtain ⟨⟨pub, ⟨h1, h2⟩, _⟩, _⟩ := (check_ok g _).1 hx
      obtain ⟨h3, _⟩ := List.getElem?_eq_some_iff.1 h2
      exact ⟨h1, by omega⟩

theorem mapSet_keys {m : List (Int × Int)} {k v : Int} {q : Int × Int} (h : q ∈ mapSet m k v) : q ∈ m ∨ q.1 = k := by
  rw [mapSet] at h
  by_cases hc : (m.any fun p => p.1 == k) = true
  · rw [if_pos hc, List.mem_map] at h
    obtain ⟨p, hp, rfl⟩ := h
    by_cases hk : (p.1 == k) = true
    · rw [if_pos hk]; exact .inr rfl
    · rw [if_neg hk]; exact .inl hp
  · rw [if_neg hc, List.mem_append, List.mem_singleton] at h
    rcases h with h | rfl
    · exact .inl h
    · exact .inr rfl

theorem xyScalar_keys (t : Int) (l : List Share) (m : List (Int × Int)) {q : Int × Int} (h : q ∈ xyScalar t m l) :
    q ∈ m ∨ ∃ s ∈ l, q.1 = s.I := by
  induction l generalizing m with
  | nil => exact .inl h
  | cons s l ih =>
    have fin : q ∈ m ∨ (∃ s' ∈ l, q.1 = s'.I) → q ∈ m ∨ ∃ s' ∈ s :: l, q.1 = s'.I := by
      rintro (h | ⟨s', h1, h2⟩)
      · exact .inl h
      · exact .inr ⟨s', by simp [h1], h2⟩
    have set : ∀ q : Int × Int, q ∈ mapSet m s.I s.V → q ∈ m ∨ ∃ s' ∈ s :: l, q.1 = s'.I := by
      intro q hq
      rcases mapSet_keys hq with hq | hq
      · exact .inl hq
      · exact .inr ⟨s, by simp, hq⟩
    rw [xyScalar] at h
    by_cases h0 : s.I < 0
    · rw [if_pos h0] at h; exact fin (ih m h)
    rw [if_neg h0] at h
    dsimp only at h
    by_cases ht : ((mapSet m s.I s.V).length : Int) = t
    · rw [if_pos ht] at h; exact set q h
    · rw [if_neg ht] at h
      rcases ih _ h with h | ⟨s', h1, h2⟩
      · exact set q h
      · exact .inr ⟨s', by simp [h1], h2⟩

theorem recoverSecret_ne_panic (shares : List Share) (t : Int) (h : ∀ s ∈ shares, IdxOk s.I) : recoverSecret shares t ≠ .panic := by
  rw [recoverSecret]
  have hm : ∀ q ∈ xyScalar t [] (shares.insertionSort (fun a b => a.I ≤ b.I)), IdxOk q.1 := by
    intro q hq
    rcases xyScalar_keys t _ [] hq with hq | ⟨s, h1, h2⟩
    · cases hq
    · rw [h2]; exact h s ((List.perm_insertionSort (fun a b : Share => a.I ≤ b.I) shares).mem_iff.1 h1)
  generalize hM : xyScalar t [] (shares.insertionSort (fun a b => a.I ≤ b.I)) = M at hm
  by_cases hl : (M.length : Int) < t
  · rw [if_pos hl]; simp
  · rw [if_neg hl]
    obtain ⟨r, h1, _⟩ := sum_spec M M hm hm Scalar.zero (by decide +kernel)
    rw [h1]; simp

theorem signature_ne_panic {d : DSS} (h : Ready d) : signature H d ≠ .panic := by
  rw [signature]
  by_cases he : (!enoughPartialSig d) = true
  · rw [if_pos he]; simp
  rw [if_neg he, Outcome.bind_ne_panic]
  have hf := h.few
  refine ⟨recoverSecret_ne_panic _ _ fun s hs => ?_, fun s _ => ?_⟩
  · obtain ⟨h1, h2⟩ := h.parts s hs
    exact ⟨h1, by have : ((2 : Nat) ^ 63 : Int) = 2 ^ 63 := by norm_num
                  omega⟩
  · obtain ⟨l, r, ls, rs, g⟩ := h.setup
    obtain ⟨b, bs, _, _, e⟩ := List.forall₂_cons_right_iff.1 g.random
    rw [e]
    simp only [List.head?_cons, Outcome.ofOption_some, Outcome.orPanic_ok, Outcome.bind_ok, Schnorr.ethereumAddress_eq]
    simp

/-! Unmarshalling. -/

theorem mapO_ne_panic {A B : Type} {f : A → Outcome B} (hf : ∀ a, f a ≠ .panic) (l : List A) : Layout.mapO f l ≠ .panic := by
  induction l with
  | nil => simp [Layout.mapO]
  | cons a l ih =>
    rw [Layout.mapO, Outcome.bind_ne_panic]
    refine ⟨hf a, fun b _ => ?_⟩
    rw [Outcome.bind_ne_panic]
    exact ⟨ih, fun bs _ => by simp⟩

theorem scalar_unmarshal_ne_panic (b : List UInt8) : Scalar.unmarshalBinary b ≠ .panic := by
  rw [Scalar.unmarshalBinary]
  by_cases h : b.length ≠ Scalar.marshalSize
  · rw [if_pos h]; simp
  · rw [if_neg h]; simp

theorem dtoToPriShare_ne_panic (d : PriShareDTO) : dtoToPriShare d ≠ .panic := by
  rw [dtoToPriShare, Outcome.bind_ne_panic]
  exact ⟨scalar_unmarshal_ne_panic _, fun _ _ => by simp⟩

theorem dtoToVssDeal_ne_panic (d : VssDealDTO) : dtoToVssDeal d ≠ .panic := by
  rw [dtoToVssDeal, Outcome.bind_ne_panic]
  refine ⟨dtoToPriShare_ne_panic _, fun _ _ => ?_⟩
  rw [Outcome.bind_ne_panic]
  refine ⟨dtoToPriShare_ne_panic _, fun _ _ => ?_⟩
  rw [Outcome.bind_ne_panic]
  exact ⟨mapO_ne_panic unmarshalBinary_ne_panic _, fun _ _ => by simp⟩

/-- The unmarshallers never panic on DTOs of their type. -/
theorem unmarshal_ne_panic (k : Kind) (d : Dto) (h : hasKind k d = true) : unmarshal k d ≠ .panic := by
  cases k <;> cases d <;> (first | (cases h; done) | skip)
  · rw [unmarshal, Outcome.bind_ne_panic, dtoToDeal, Outcome.bind_ne_panic]
    exact ⟨⟨unmarshalBinary_ne_panic _, fun _ _ => by simp⟩, fun _ _ => by simp⟩
  · simp [unmarshal]
  · rw [unmarshal, Outcome.bind_ne_panic, dtoToJustification, Outcome.bind_ne_panic]
    exact ⟨⟨dtoToVssDeal_ne_panic _, fun _ _ => by simp⟩, fun _ _ => by simp⟩
  · rw [unmarshal, Outcome.bind_ne_panic, dtoToCommits, Outcome.bind_ne_panic]
    exact ⟨⟨mapO_ne_panic unmarshalBinary_ne_panic _, fun _ _ => by simp⟩, fun _ _ => by simp⟩
  · rw [unmarshal, Outcome.bind_ne_panic, dtoToComplCommits, Outcome.bind_ne_panic]
    exact ⟨⟨dtoToVssDeal_ne_panic _, fun _ _ => by simp⟩, fun _ _ => by simp⟩
  · rw [unmarshal, Outcome.bind_ne_panic, dtoToReconsCommits, Outcome.bind_ne_panic]
    exact ⟨⟨dtoToPriShare_ne_panic _, fun _ _ => by simp⟩, fun _ _ => by simp⟩
  · rw [unmarshal, Outcome.bind_ne_panic, dtoToPartsig, Outcome.bind_ne_panic]
    exact ⟨⟨dtoToPriShare_ne_panic _, fun _ _ => by simp⟩, fun _ _ => by simp⟩

/-- The object has the type of the stage. -/
def objKind : Kind → Obj → Bool
  | .deal, .deal _ => true
  | .response, .response r => r.response.isSome
  | .justification, .justification _ => true
  | .commits, .commits _ => true
  | .complCommits, .complCommits _ => true
  | .reconsCommits, .reconsCommits _ => true
  | .partsig, .partsig s => s.signature.any fun x => x.2.isSome
  | _, _ => false

theorem unmarshal_kind (k : Kind) (d : Dto) (hw : Complete d) (a : Obj) (h : unmarshal k d = .ok a) : objKind k a = true := by
  cases k <;> cases d <;> (first | (cases h; done) | skip)
  · rw [unmarshal, Outcome.bind_eq_ok] at h; obtain ⟨o, _, h⟩ := h; rw [← Outcome.ok.inj h]; rfl
  · rw [unmarshal] at h; rw [← Outcome.ok.inj h]; exact Option.isSome_iff_ne_none.2 hw
  · rw [unmarshal, Outcome.bind_eq_ok] at h; obtain ⟨o, _, h⟩ := h; rw [← Outcome.ok.inj h]; rfl
  · rw [unmarshal, Outcome.bind_eq_ok] at h; obtain ⟨o, _, h⟩ := h; rw [← Outcome.ok.inj h]; rfl
  · rw [unmarshal, Outcome.bind_eq_ok] at h; obtain ⟨o, _, h⟩ := h; rw [← Outcome.ok.inj h]; rfl
  · rw [unmarshal, Outcome.bind_eq_ok] at h; obtain ⟨o, _, h⟩ := h; rw [← Outcome.ok.inj h]; rfl
  · rw [unmarshal, Outcome.bind_eq_ok] at h
    obtain ⟨o, h1, h⟩ := h
    rw [← Outcome.ok.inj h]
    rw [dtoToPartsig, Outcome.bind_eq_ok] at h1
    obtain ⟨p, _, h1⟩ := h1
    rw [Outcome.pure_eq] at h1
    rw [← Outcome.ok.inj h1]
    obtain ⟨addr, n, hs⟩ := hw
    rw [objKind, hs]; rfl

/-! The stages. -/

/-- What holds of the data in stage `n`. -/
structure Stagewise (n : Int) (u : Data K) : Prop where
  qual : 0 ≤ n → u.qual ≠ none
  dss : 9 ≤ n → ∃ d, u.dss = some d ∧ Ready d

theorem Stagewise.step {n : Int} {u u' : Data K} (h : Stagewise (n - 1) u) (hn : 1 ≤ n) (hn9 : n ≠ 9)
    (hq : u'.qual = u.qual) (hd : u'.dss = u.dss) : Stagewise n u' :=
  ⟨fun _ => by rw [hq]; exact h.qual (by omega), fun h9 => by rw [hd]; exact h.dss (by omega)⟩

theorem Stagewise.stay {n : Int} {u u' : Data K} (h : Stagewise n u) (hq : u'.qual = u.qual) (hd : u'.dss = u.dss) :
    Stagewise n u' :=
  ⟨fun h0 => by rw [hq]; exact h.qual h0, fun h9 => by rw [hd]; exact h.dss h9⟩

theorem broadcastQual_ok {T S : Type} {u : Data K} (op : Int) (wrap : S → Dto) {mar : T → Outcome S} (x : T)
    (hm : mar x ≠ .panic) (hq : u.qual ≠ none) : ∃ as, broadcastQual u op wrap mar x = .ok as := by
  rw [broadcastQual]
  cases hx : mar x with
  | panic => exact absurd hx hm
  | err => exact ⟨[], rfl⟩
  | ok d =>
    cases hu : u.qual with
    | none => exact absurd hu hq
    | some q => exact ⟨_, rfl⟩

theorem sendDeals_ok (ds : List (Int × Deal)) : ∃ as, sendDeals ds = .ok as := by
  induction ds with
  | nil => exact ⟨[], rfl⟩
  | cons p ds ih =>
    obtain ⟨as, h⟩ := ih
    rw [sendDeals, h]
    have hp := (C29_deal p.2).2.2
    cases hd : dealToDto p.2 with
    | panic => exact absurd hd hp
    | err => exact ⟨_, rfl⟩
    | ok d => exact ⟨_, rfl⟩

/-- The conditions of `Safe` for one stage. -/
structure StageSafe (members : Nat) (n : Int) (s : Stage Dto Obj (Data K)) : Prop where
  skip : s.step = none → ∀ u : Data K, Stagewise (n - 1) u → Stagewise n u
  step : ∀ f, s.step = some f → ∀ u, Stagewise (n - 1) u → ∃ u' as, f u = .ok (u', as) ∧ (Stagewise n u' ∨ GivesUp as)
  unmarshal : s.proc.isSome = true → ∀ d, Complete d → s.typeOk d = true → s.unmarshal d ≠ .panic
  valid : s.proc.isSome = true → ∀ d, Complete d → s.typeOk d = true → ∀ a, s.unmarshal d = .ok a →
    ∀ i : Int, 0 ≤ i → i < members → ∃ b, s.senderValid a i = .ok b
  proc : ∀ f, s.proc = some f → ∀ d, Complete d → s.typeOk d = true → ∀ a, s.unmarshal d = .ok a →
    ∀ i : Int, 0 ≤ i → i < members → s.senderValid a i = .ok true → ∀ u, Stagewise n u →
    ∃ u' as, f u a = .ok (u', as) ∧ (Stagewise n u' ∨ GivesUp as)

theorem safe_psStep {members : Nat} {n : Int} {f : Data K → Outcome (Data K × List (Act Dto))}
    (h : ∀ u, Stagewise (n - 1) u → ∃ u' as, f u = .ok (u', as) ∧ (Stagewise n u' ∨ GivesUp as)) :
    StageSafe members n (psStep f) := by
  refine ⟨fun e => (by cases e), fun g e u hu => ?_, fun e => (by cases e), fun e => (by cases e), fun g e => (by cases e)⟩
  have e' := Option.some.inj e
  subst e'
  exact h u hu

theorem safe_psProc {members : Nat} {n : Int} {step : Option (Data K → Outcome (Data K × List (Act Dto)))}
    {proc : Data K → Obj → Outcome (Data K × List (Act Dto))} {kind : Kind} {v : Obj → Int → Outcome Bool}
    (hskip : step = none → ∀ u : Data K, Stagewise (n - 1) u → Stagewise n u)
    (hstep : ∀ f, step = some f → ∀ u, Stagewise (n - 1) u → ∃ u' as, f u = .ok (u', as) ∧ (Stagewise n u' ∨ GivesUp as))
    (hv : ∀ a i, objKind kind a = true → ∃ b, v a i = .ok b)
    (hproc : ∀ a (i : Int), 0 ≤ i → objKind kind a = true → v a i = .ok true → ∀ u, Stagewise n u →
      ∃ u' as, proc u a = .ok (u', as) ∧ (Stagewise n u' ∨ GivesUp as)) :
    StageSafe members n (psProc step proc kind v) := by
  refine ⟨hskip, hstep, fun _ d _ h => unmarshal_ne_panic kind d h, fun _ d hw _ a ha i _ _ => hv a i (unmarshal_kind kind d hw a ha),
    fun g e d hw _ a ha i h0 _ hb u hu => ?_⟩
  have e' := Option.some.inj e
  subst e'
  exact hproc a i h0 (unmarshal_kind kind d hw a ha) hb u hu

theorem dkg_stage_safe (hy : Calm y) (members : Nat) (n : Nat) (s : Stage Dto Obj (Data K)) (h : (dkgStages y)[n]? = some s) :
    StageSafe members n s := by
  have none_skip : ∀ n : Nat, 1 ≤ n → n ≠ 9 → ∀ u : Data K, Stagewise ((n : Int) - 1) u → Stagewise n u :=
    fun n h1 h2 u hu => hu.step (by omega) (by omega) rfl rfl
  match n, h with
  | 0, h =>
    have e := Option.some.inj h
    subst e
    exact safe_psStep fun u hu => ⟨_, _, rfl, .inl ⟨fun _ => by simp, fun h => absurd h (by decide)⟩⟩
  | 1, h =>
    have e := Option.some.inj h
    subst e
    refine safe_psProc (fun e => by cases e) (fun f e u hu => ?_) (fun a i ha => ?_) (fun a i hi ha _ u hu => ?_)
    · have e' := Option.some.inj e
      subst e'
      rw [stepDeal]
      cases hd : (y.deals u.kyb).2 with
      | panic => exact absurd hd (hy.deals _)
      | err => exact ⟨_, _, rfl, .inr (by simp [GivesUp])⟩
      | ok ds =>
        obtain ⟨as, ha⟩ := sendDeals_ok ds
        dsimp only
        rw [ha]
        exact ⟨_, _, rfl, .inl (hu.step (by decide) (by decide) rfl rfl)⟩
    · cases a <;> first | exact ⟨_, rfl⟩ | (cases ha; done)
    · cases a with
      | deal d =>
        rw [processDeal]
        cases hd : (y.processDeal u.kyb d).2 with
        | panic => exact absurd hd (hy.processDeal _ _)
        | err => exact ⟨_, _, rfl, .inl (hu.stay rfl rfl)⟩
        | ok r => cases r <;> exact ⟨_, _, rfl, .inl (hu.stay rfl rfl)⟩
      | _ => exact absurd ha (by simp [objKind])
  | 2, h =>
    have e := Option.some.inj h
    subst e
    refine safe_psProc (fun _ => none_skip 2 (by decide) (by decide)) (fun f e => by cases e) (fun a i ha => ?_)
      (fun a i hi ha _ u hu => ?_)
    · cases a with
      | response r =>
        obtain ⟨v, hv⟩ := Option.isSome_iff_exists.1 ha
        rw [responseV, hv]
        exact ⟨_, rfl⟩
      | _ => exact absurd ha (by simp [objKind])
    · cases a with
      | response r =>
        rw [processResponse]
        cases hd : (y.processResponse u.kyb r).2 with
        | panic => exact absurd hd (hy.processResponse _ _)
        | err => exact ⟨_, _, rfl, .inl (hu.stay rfl rfl)⟩
        | ok j =>
          cases j with
          | none => exact ⟨_, _, rfl, .inl (hu.stay rfl rfl)⟩
          | some j =>
            dsimp only
            cases hj : justificationToDto j with
            | panic => exact absurd hj (C29_justification j).2.2
            | err => exact ⟨_, _, rfl, .inl (hu.stay rfl rfl)⟩
            | ok d => exact ⟨_, _, rfl, .inl (hu.stay rfl rfl)⟩
      | _ => exact absurd ha (by simp [objKind])
  | 3, h =>
    have e := Option.some.inj h
    subst e
    refine safe_psProc (fun _ => none_skip 3 (by decide) (by decide)) (fun f e => by cases e) (fun a i ha => ?_)
      (fun a i hi ha _ u hu => ?_)
    · cases a <;> first | exact ⟨_, rfl⟩ | (cases ha; done)
    · cases a with
      | justification j =>
        rw [processJustification]
        cases hd : (y.processJustification u.kyb j).2 with
        | panic => exact absurd hd (hy.processJustification _ _)
        | err => exact ⟨_, _, rfl, .inl (hu.stay rfl rfl)⟩
        | ok r => exact ⟨_, _, rfl, .inl (hu.stay rfl rfl)⟩
      | _ => exact absurd ha (by simp [objKind])
  | 4, h =>
    have e := Option.some.inj h
    subst e
    exact safe_psStep fun u hu => ⟨_, _, rfl, .inl (hu.step (by decide) (by decide) rfl rfl)⟩
  | 5, h =>
    have e := Option.some.inj h
    subst e
    refine safe_psProc (fun e => by cases e) (fun f e u hu => ?_) (fun a i ha => ?_) (fun a i hi ha _ u hu => ?_)
    · have e' := Option.some.inj e
      subst e'
      rw [stepCommits]
      cases hq : u.qual with
      | none => exact absurd hq (hu.qual (by decide))
      | some q =>
        dsimp only
        by_cases hc : (!y.certified u.kyb) = true
        · rw [if_pos hc]; exact ⟨_, _, rfl, .inr (by simp [GivesUp])⟩
        rw [if_neg hc]
        cases hd : (y.secretCommits u.kyb).2 with
        | panic => exact absurd hd (hy.secretCommits _)
        | err => exact ⟨_, _, rfl, .inr (by simp [GivesUp])⟩
        | ok sc =>
          dsimp only
          obtain ⟨as, ha⟩ := broadcastQual_ok
            (u := { kyb := (y.secretCommits u.kyb).1, qual := some (y.qual u.kyb), dss := u.dss, out := u.out })
            opCommits .commits sc (C29_commits sc).2.2 (by simp)
          rw [ha]
          exact ⟨_, _, rfl, .inl ⟨fun _ => by simp, fun h => absurd h (by decide)⟩⟩
    · cases a <;> first | exact ⟨_, rfl⟩ | (cases ha; done)
    · cases a with
      | commits d =>
        rw [processCommits]
        cases hd : (y.processSecretCommits u.kyb d).2 with
        | panic => exact absurd hd (hy.processSecretCommits _ _)
        | err => exact ⟨_, _, rfl, .inl (hu.stay rfl rfl)⟩
        | ok r =>
          cases r with
          | none => exact ⟨_, _, rfl, .inl (hu.stay rfl rfl)⟩
          | some r =>
            dsimp only
            obtain ⟨as, ha⟩ := broadcastQual_ok (u := { u with kyb := (y.processSecretCommits u.kyb d).1 })
              opComplCommits .complCommits r (C29_complCommits r).2.2 (hu.qual (by decide))
            rw [ha]
            exact ⟨_, _, rfl, .inl (hu.stay rfl rfl)⟩
      | _ => exact absurd ha (by simp [objKind])
  | 6, h =>
    have e := Option.some.inj h
    subst e
    refine safe_psProc (fun _ => none_skip 6 (by decide) (by decide)) (fun f e => by cases e) (fun a i ha => ?_)
      (fun a i hi ha _ u hu => ?_)
    · cases a <;> first | exact ⟨_, rfl⟩ | (cases ha; done)
    · cases a with
      | complCommits d =>
        rw [processComplCommits]
        cases hd : (y.processComplaintCommits u.kyb d).2 with
        | panic => exact absurd hd (hy.processComplaintCommits _ _)
        | err => exact ⟨_, _, rfl, .inl (hu.stay rfl rfl)⟩
        | ok r =>
          cases r with
          | none => exact ⟨_, _, rfl, .inl (hu.stay rfl rfl)⟩
          | some r =>
            dsimp only
            obtain ⟨as, ha⟩ := broadcastQual_ok (u := { u with kyb := (y.processComplaintCommits u.kyb d).1 })
              opReconsCommits .reconsCommits r (C29_reconsCommits r).2.2 (hu.qual (by decide))
            rw [ha]
            exact ⟨_, _, rfl, .inl (hu.stay rfl rfl)⟩
      | _ => exact absurd ha (by simp [objKind])
  | 7, h =>
    have e := Option.some.inj h
    subst e
    refine safe_psProc (fun _ => none_skip 7 (by decide) (by decide)) (fun f e => by cases e) (fun a i ha => ?_)
      (fun a i hi ha _ u hu => ?_)
    · cases a <;> first | exact ⟨_, rfl⟩ | (cases ha; done)
    · cases a with
      | reconsCommits j =>
        rw [processReconsCommits]
        cases hd : (y.processReconstructCommits u.kyb j).2 with
        | panic => exact absurd hd (hy.processReconstructCommits _ _)
        | err => exact ⟨_, _, rfl, .inl (hu.stay rfl rfl)⟩
        | ok r => exact ⟨_, _, rfl, .inl (hu.stay rfl rfl)⟩
      | _ => exact absurd ha (by simp [objKind])
  | 8, h =>
    have e := Option.some.inj h
    subst e
    refine safe_psStep fun u hu => ?_
    rw [stepFinal]
    by_cases hf : y.finished u.kyb = true
    · rw [if_pos hf]
      cases hd : y.distKeyShare u.kyb with
      | panic => exact absurd hd (hy.distKeyShare _)
      | err => exact ⟨_, _, rfl, .inr (by simp [GivesUp])⟩
      | ok sh =>
        dsimp only
        cases hq : u.qual with
        | none => exact absurd hq (hu.qual (by decide))
        | some q => exact ⟨_, _, rfl, .inl (hu.step (by decide) (by decide) hq.symm rfl)⟩
    · rw [if_neg hf]; exact ⟨_, _, rfl, .inr (by simp [GivesUp])⟩
  | n + 9, h => exact absurd h (by simp [dkgStages])

/-- The environment of a signing run is complete: the long-term share and the document are there, the commitments are group
elements, and the key is not the identity. -/
structure GoodEnv (y : Kyb K) (env : Env) : Prop where
  long : ∃ long, env.long = some long ∧ Commits long.commits ∧ long.commits.headD null ≠ null
  doc : env.doc ≠ none
  random : ∀ k random, y.distKeyShare k = .ok random → Commits random.commits
  few : env.participants.length ≤ 2 ^ 63

theorem dss_stage_safe (hy : Calm y) (he : GoodEnv y env) (members : Nat) (n : Nat) (s : Stage Dto Obj (Data K))
    (h : (dssStages y H SH env)[n]? = some s) : StageSafe members n s := by
  have hlen : (dkgStages y).length = 9 := rfl
  by_cases hn : n < 9
  · rw [dssStages, List.getElem?_append_left (by rw [hlen]; exact hn)] at h
    exact dkg_stage_safe hy members n s h
  obtain ⟨m, rfl⟩ : ∃ m, n = m + 9 := ⟨n - 9, by omega⟩
  rw [dssStages, List.getElem?_append_right (by rw [hlen]; omega), hlen, Nat.add_sub_cancel] at h
  match m, h with
  | 0, h =>
    have e := Option.some.inj h
    subst e
    refine safe_psStep fun u hu => ?_
    rw [stInit]
    cases hd : y.distKeyShare u.kyb with
    | panic => exact absurd hd (hy.distKeyShare _)
    | err => exact ⟨_, _, rfl, .inr (by simp [GivesUp])⟩
    | ok random =>
      dsimp only
      obtain ⟨long, hl, hc, hk⟩ := he.long
      rw [hl]
      cases hdoc : env.doc with
      | none => exact absurd hdoc he.doc
      | some doc =>
        dsimp only
        cases hn : newDSS H ⟨env.secret, env.participants, long, random, y.qual u.kyb, doc, env.threshold⟩ with
        | panic => exact absurd hn (newDSS_ne_panic _)
        | err => exact ⟨_, _, rfl, .inr (by simp [GivesUp])⟩
        | ok d =>
          refine ⟨_, _, rfl, .inl ⟨fun _ => hu.qual (by decide), fun _ => ⟨d, rfl, ready_new hn hc hk (he.random _ _ hd) he.few⟩⟩⟩
  | 1, h =>
    have e := Option.some.inj h
    subst e
    refine safe_psProc (fun e => by cases e) (fun f e u hu => ?_) (fun a i ha => ?_) (fun a i hi ha hv u hu => ?_)
    · have e' := Option.some.inj e
      subst e'
      obtain ⟨d, hd, hr⟩ := hu.dss (by decide)
      obtain ⟨r1, r2⟩ := ready_partialSig (H := H) (SH := SH) hr env.nonce
      rw [stPartsig.eq_def, hd]
      dsimp only
      cases hp : (partialSig H SH env.nonce d).2 with
      | panic => exact absurd hp r2
      | err => exact ⟨_, _, rfl, .inr (by simp [GivesUp])⟩
      | ok sig =>
        dsimp only
        obtain ⟨as, ha⟩ := broadcastQual_ok (u := { u with dss := some (partialSig H SH env.nonce d).1 })
          opDssPartsig .partsig sig (C29_partsig sig).2.2 (hu.qual (by decide))
        rw [ha]
        exact ⟨_, _, rfl, .inl ⟨fun _ => hu.qual (by decide), fun _ => ⟨_, rfl, r1⟩⟩⟩
    · cases a <;> first | exact ⟨_, rfl⟩ | (cases ha; done)
    · cases a with
      | partsig ps =>
        obtain ⟨d, hd, hr⟩ := hu.dss (by decide)
        rw [partsigV, Outcome.ok.injEq, decide_eq_true_eq] at hv
        have hsig : ∃ addr n, ps.signature = some (addr, some n) := by
          rw [objKind] at ha
          cases hs : ps.signature with
          | none => rw [hs] at ha; cases ha
          | some x =>
            rw [hs] at ha
            obtain ⟨n, hn⟩ := Option.isSome_iff_exists.1 ha
            exact ⟨x.1, n, by rw [← hn]⟩
        obtain ⟨r1, r2⟩ := ready_process (H := H) (SH := SH) hr (ps := ps) (by omega) hsig
        rw [prPartsig, hd]
        dsimp only
        cases hp : (processPartialSig H SH d ps).2 with
        | panic => exact absurd hp r2
        | err => exact ⟨_, _, rfl, .inl ⟨fun _ => hu.qual (by decide), fun _ => ⟨_, rfl, r1⟩⟩⟩
        | ok x => exact ⟨_, _, rfl, .inl ⟨fun _ => hu.qual (by decide), fun _ => ⟨_, rfl, r1⟩⟩⟩
      | _ => exact absurd ha (by simp [objKind])
  | 2, h =>
    have e := Option.some.inj h
    subst e
    refine safe_psStep fun u hu => ?_
    obtain ⟨d, hd, hr⟩ := hu.dss (by decide)
    rw [dssStFinal, hd]
    dsimp only
    by_cases hf : (!enoughPartialSig d) = true
    · rw [if_pos hf]; exact ⟨_, _, rfl, .inr (by simp [GivesUp])⟩
    rw [if_neg hf]
    cases hs : signature H d with
    | panic => exact absurd hs (signature_ne_panic hr)
    | err => exact ⟨_, _, rfl, .inr (by simp [GivesUp])⟩
    | ok s => exact ⟨_, _, rfl, .inl ⟨fun _ => hu.qual (by decide), fun _ => ⟨d, hd.symm ▸ rfl, hr⟩⟩⟩
  | m + 3, h => exact absurd h (by simp)

theorem safe_of_stages {c : Conf Dto Obj (Data K)} (h : ∀ (n : Nat) s, c.stages[n]? = some s → StageSafe c.members n s) :
    Safe c Stagewise fun _ => Complete := by
  have key : ∀ n s, c.stage? n = some s → StageSafe c.members n s := by
    intro n s hs
    obtain ⟨h0, h1⟩ := stage?_some hs
    have := h n.toNat s h1
    rwa [Int.toNat_of_nonneg h0] at this
  exact ⟨fun n s hs => (key n s hs).skip, fun n s f hs => (key n s hs).step f, fun n s hs h _ => (key n s hs).unmarshal h,
    fun n s hs h i d hw ht a ha => (key n s hs).valid h d hw ht a ha i, fun n s f hs h i d hw ht a ha => (key n s hs).proc f h d hw ht a ha i⟩

end Verif.Dkg
