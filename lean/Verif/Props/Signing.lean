import Verif.Proofs.ProtFollow
import Verif.Props.Dkg

/-!
Properties C72 and C73: signing runs of several nodes. The key generator of the kyber library is arbitrary, except that what it
returns at each node in the end is a share of one and the same polynomial.
-/
namespace Verif.Props
open Verif.Prot Verif.Spec.Prot Verif.Dkg Verif.Dto Verif.Dss Verif.Point

/-- What the members of a signing have in common: the identifier of the run, their public keys, the threshold, the
polynomials of the long-term key and of the nonce, and the document. -/
structure Group where
  id : String
  keys : List Pt
  T : Int
  ls : List Nat
  rs : List Nat
  doc : Int

/-- The polynomials have at least one and at most `T` coefficients, the long-term key is not zero, the keys are group elements
and the document is a uint256. -/
structure Group.Sound (g : Group) : Prop where
  long : (g.ls.length : Int) ≤ g.T
  key : g.ls.headD 0 % secp256k1N ≠ 0
  random : g.rs ≠ [] ∧ (g.rs.length : Int) ≤ g.T
  elts : ∀ p ∈ g.keys, IsElt p
  few : g.keys.length ≤ 2 ^ 63
  doc : 0 ≤ g.doc ∧ g.doc < 2 ^ 256

/-- One node in one run: its generator, environment, history and the state of the run after it. -/
structure Party (K : Type) where
  y : Kyb K
  env : Env
  k : K
  t0 : Int
  h : List (Ev Dto)
  r : Run Dto Obj (Data K)

/-- Member `i` of the group takes part with consistent shares, whatever messages it receives. Its share of the nonce is the one
that its generator gives in the state it is in; a run does not change this state after it has asked for the share. -/
structure Honest {K : Type} (H : List UInt8 → List UInt8) (SH : Share → List UInt8) (g : Group) (i : Nat) (p : Party K) : Prop where
  run : exec (dssConf p.y H SH p.env g.id i g.keys.length) (newRun Dto Obj (newData p.k) p.t0) p.h = .ok p.r
  own : OwnIndex p.env i
  secret : p.env.secret % secp256k1N ≠ 0
  keys : p.env.participants = g.keys
  threshold : p.env.threshold = g.T
  doc : p.env.doc = some g.doc
  long : ∃ long, p.env.long = some long ∧ long.commits = g.ls.map (timesAdd base) ∧
    (long.share.V - peval g.ls (i + 1)) % secp256k1N = 0
  random : ∀ random, p.y.distKeyShare p.r.user.kyb = .ok random → random.commits = g.rs.map (timesAdd base) ∧
    (random.share.V - peval g.rs (i + 1)) % secp256k1N = 0

section
variable {K : Type} {H : List UInt8 → List UInt8} {SH : Share → List UInt8} {g : Group}

/-- The same, with consistent shares in every state of the generator. -/
structure Always (H : List UInt8 → List UInt8) (SH : Share → List UInt8) (g : Group) (i : Nat) (p : Party K) : Prop extends Honest H SH g i p where
  every : ∀ k random, p.y.distKeyShare k = .ok random → random.commits = g.rs.map (timesAdd base) ∧
    (random.share.V - peval g.rs (i + 1)) % secp256k1N = 0

/-- The party with a generator that gives a share in no other state than the present one. -/
noncomputable def Party.pin (p : Party K) : Party K := { p with y := Dkg.pin p.y p.r.user.kyb }

theorem honest_pin {i : Nat} {p : Party K} (hp : Honest H SH g i p) : Always H SH g i p.pin := by
  have key : ∀ k random, p.pin.y.distKeyShare k = .ok random → random.commits = g.rs.map (timesAdd base) ∧
      (random.share.V - peval g.rs (i + 1)) % secp256k1N = 0 := by
    intro k random h
    have hk : k = p.r.user.kyb := pin_only (y := p.y) (by rw [show (Dkg.pin p.y p.r.user.kyb).distKeyShare k = _ from h]; simp)
    subst hk
    exact hp.random random (by rw [← pin_at p.y]; exact h)
  exact ⟨⟨pin_exec hp.run, hp.own, hp.secret, hp.keys, hp.threshold, hp.doc, hp.long, key _⟩, key⟩

/-- A fresh signer of the party. -/
def Fresh (H : List UInt8 → List UInt8) (p : Party K) (d : DSS) : Prop :=
  ∃ k random long doc, p.y.distKeyShare k = .ok random ∧ p.env.long = some long ∧ p.env.doc = some doc ∧
    newDSS H ⟨p.env.secret, p.env.participants, long, random, p.y.qual k, doc, p.env.threshold⟩ = .ok d

theorem own_unique {env : Env} {i j : Nat} (h1 : OwnIndex env i) (h2 : OwnIndex env j) : i = j := by
  obtain ⟨p, a, b⟩ := h1
  obtain ⟨q, c, d⟩ := h2
  have := Outcome.ok.inj (a.symm.trans c)
  subst this
  exact Option.some.inj (b.symm.trans d)

/-- What is known of the signer of an honest party. -/
theorem fresh_facts (hg : g.Sound) {i : Nat} {p : Party K} (hp : Always H SH g i p) {long random : KeyShare} {k : K} {doc : Int}
    {q : List Int} {d : DSS} (h1 : p.y.distKeyShare k = .ok random) (h2 : p.env.long = some long) (h3 : p.env.doc = some doc)
    (h4 : newDSS H ⟨p.env.secret, p.env.participants, long, random, q, doc, p.env.threshold⟩ = .ok d) :
    long.commits = g.ls.map (timesAdd base) ∧ random.commits = g.rs.map (timesAdd base) ∧ doc = g.doc ∧
      d.index = i ∧ Keys d g.ls g.rs ∧ Consistent d g.ls g.rs := by
  obtain ⟨long', e1, e2, e3⟩ := hp.long
  have := Option.some.inj (h2.symm.trans e1)
  subst this
  have := Option.some.inj (h3.symm.trans hp.doc)
  subst this
  obtain ⟨r1, r2⟩ := hp.every k random h1
  obtain ⟨_, _, _, _, _, f1, f2, _, f3, _, _, pub, f4, f5⟩ := newDSS_fresh h4
  have hi : d.index = i := own_unique (⟨pub, f4, f5⟩ : OwnIndex p.env d.index) hp.own
  refine ⟨e2, r1, rfl, hi, ⟨by rw [f1]; exact e2, by rw [f2]; exact r1, hg.random.1, hg.key, by rw [f3]; exact hg.doc⟩, ?_, ?_⟩
  · rw [f1, hi]; exact e3
  · rw [f2, hi]; exact r2

/-- Issued as a partial signature by some signer of the party. -/
def Issued (y : Kyb K) (H : List UInt8 → List UInt8) (SH : Share → List UInt8) (env : Env) (op : Int) (dto : Dto) : Prop :=
  op = 10 → ∃ d ps x, Signer y H SH env d ∧ (partialSig H SH env.nonce d).2 = .ok ps ∧ partsigToDto ps = .ok x ∧ dto = .partsig x

theorem dss_issues (y : Kyb K) (env : Env) (id : String) (self : Int) (members : Nat) :
    Keeps (dssConf y H SH env id self members) (Signing y H SH env) (Issued y H SH env) := by
  have old := dss_keeps (y := y) (H := H) (SH := SH) (env := env) id self members
  have not10 : ∀ op d, DkgTable op d → Issued y H SH env op d := by
    rintro op d ⟨h1, h2⟩ h10
    subst h10
    cases d with
    | partsig s => exact absurd rfl (h2 s)
    | other => exact False.elim h1
    | _ => exact absurd (show (10 : Int) = _ from h1) (by omega)
  refine ⟨fun s hs f hf u u' as hu e => ⟨(old.step s hs f hf u u' as hu e).1, ?_⟩,
    fun s hs f hf u a u' as hu e d hd => ⟨(old.proc s hs f hf u a u' as hu e d hd).1, ?_⟩⟩
  · rw [dssConf, dssStages, List.mem_append] at hs
    rcases hs with hs | hs
    · intro a ha
      exact actOk_mono not10 ((((dkg_sends (y := y) (signing_free (y := y) (H := H) (SH := SH) (env := env)) s hs).1 f hf u hu u' as e).2) a ha)
    simp only [List.mem_cons, List.not_mem_nil, or_false] at hs
    rcases hs with rfl | rfl | rfl
    all_goals simp only [psStep, psProc, Option.some.injEq] at hf
    all_goals subst hf
    · rw [stInit] at e
      have h0 : ∀ (u1 : Data K) (bs : List (Act Dto)), Outcome.ok (u1, bs) = .ok (u', as) → bs = [] ∨ bs = [.abandon] →
          ∀ a ∈ as, ActOk (Issued y H SH env) a := by
        intro u1 bs e1 hb a ha
        have := Outcome.ok.inj e1
        injection this with e2 e3
        subst e3
        rcases hb with rfl | rfl
        · cases ha
        · rw [List.mem_singleton] at ha; subst ha; trivial
      cases hd : y.distKeyShare u.kyb with
      | panic => rw [hd] at e; cases e
      | err => rw [hd] at e; exact h0 _ _ e (.inr rfl)
      | ok random =>
        rw [hd] at e
        dsimp only at e
        cases hl : env.long with
        | none => rw [hl] at e; cases e
        | some long =>
          cases hdoc : env.doc with
          | none => rw [hl, hdoc] at e; cases e
          | some doc =>
            rw [hl, hdoc] at e
            dsimp only at e
            cases hn : newDSS H ⟨env.secret, env.participants, long, random, y.qual u.kyb, doc, env.threshold⟩ with
            | panic => rw [hn] at e; cases e
            | err => rw [hn] at e; exact h0 _ _ e (.inr rfl)
            | ok d => rw [hn] at e; exact h0 _ _ e (.inl rfl)
    · rw [stPartsig.eq_def] at e
      cases hd : u.dss with
      | none => rw [hd] at e; cases e
      | some d =>
        rw [hd] at e
        dsimp only at e
        cases hp : (partialSig H SH env.nonce d).2 with
        | panic => rw [hp] at e; cases e
        | err =>
          rw [hp] at e
          have := Outcome.ok.inj e
          injection this with e2 e3
          subst e3
          intro a ha
          rw [List.mem_singleton] at ha; subst ha; trivial
        | ok ps =>
          rw [hp] at e
          dsimp only at e
          rw [Outcome.bind_eq_ok] at e
          obtain ⟨bs, e1, e2⟩ := e
          have := Outcome.ok.inj e2
          injection this with e3 e4
          subst e4
          rw [broadcastQual] at e1
          cases hm : partsigToDto ps with
          | panic => rw [hm] at e1; cases e1
          | err => rw [hm] at e1; rw [← Outcome.ok.inj e1]; intro a ha; cases ha
          | ok x =>
            rw [hm] at e1
            dsimp only at e1
            cases hq : u.qual with
            | none => rw [hq] at e1; cases e1
            | some q =>
              rw [hq] at e1
              rw [← Outcome.ok.inj e1]
              intro a ha
              rw [List.mem_singleton] at ha
              subst ha
              exact fun _ => ⟨d, ps, x, hu.dss d hd, hp, hm, rfl⟩
    · rw [dssStFinal] at e
      have h0 : ∀ (u1 : Data K) (bs : List (Act Dto)), Outcome.ok (u1, bs) = .ok (u', as) → bs = [] ∨ bs = [.abandon] →
          ∀ a ∈ as, ActOk (Issued y H SH env) a := by
        intro u1 bs e1 hb a ha
        have := Outcome.ok.inj e1
        injection this with e2 e3
        subst e3
        rcases hb with rfl | rfl
        · cases ha
        · rw [List.mem_singleton] at ha; subst ha; trivial
      cases hd : u.dss with
      | none => rw [hd] at e; cases e
      | some d =>
        rw [hd] at e
        dsimp only at e
        by_cases he : (!enoughPartialSig d) = true
        · rw [if_pos he] at e; exact h0 _ _ e (.inr rfl)
        rw [if_neg he] at e
        cases hs : signature H d with
        | panic => rw [hs] at e; cases e
        | err => rw [hs] at e; exact h0 _ _ e (.inr rfl)
        | ok s => rw [hs] at e; exact h0 _ _ e (.inl rfl)
  · rw [dssConf, dssStages, List.mem_append] at hs
    rcases hs with hs | hs
    · intro x hx
      exact actOk_mono not10 ((((dkg_sends (y := y) (signing_free (y := y) (H := H) (SH := SH) (env := env)) s hs).2 f hf u a hu u' as e).2) x hx)
    simp only [List.mem_cons, List.not_mem_nil, or_false] at hs
    rcases hs with rfl | rfl | rfl
    all_goals simp only [psStep, psProc, Option.some.injEq, reduceCtorEq] at hf
    subst hf
    cases a with
    | partsig ps =>
      rw [prPartsig] at e
      cases hd : u.dss with
      | none => rw [hd] at e; cases e
      | some d =>
        rw [hd] at e
        dsimp only at e
        cases hp : (processPartialSig H SH d ps).2 with
        | panic => rw [hp] at e; cases e
        | err => rw [hp] at e; have := Outcome.ok.inj e; injection this with e3 e4; subst e4; intro a ha; cases ha
        | ok _ => rw [hp] at e; have := Outcome.ok.inj e; injection this with e3 e4; subst e4; intro a ha; cases ha
    | _ => cases e

/-- A partial signature sent by honest member `j`. -/
def From (K : Type) (H : List UInt8 → List UInt8) (SH : Share → List UInt8) (g : Group) (j : Nat) (m : Message Dto) : Prop :=
  m.op = 10 ∧ ∃ q : Party K, Always H SH g j q ∧ .request m ∈ q.r.log

/-- What such a message contains. -/
theorem from_content (hH : ∀ b, (H b).length = 32) (hg : g.Sound) {j : Nat} {m : Message Dto} (h : From K H SH g j m) :
    m.sender = j ∧ j < g.keys.length ∧ ∃ ps x a d cs k, m.dto = .partsig x ∧ dtoToPartsig x = .ok ps ∧ ps.part.I = (j : Int) ∧
      newDSS H a = .ok d ∧ a.long.commits = g.ls.map (timesAdd base) ∧ a.random.commits = g.rs.map (timesAdd base) ∧ a.msg = g.doc ∧
      a.participants = g.keys ∧ a.secret % secp256k1N ≠ 0 ∧ d.index = j ∧ Keys d g.ls g.rs ∧ Consistent d g.ls g.rs ∧
      (partialSig H SH k (Dss.run H SH d cs)).2 = .ok ps := by
  obtain ⟨h10, q, hq, hm⟩ := h
  have hs : m.sender = (j : Int) := by
    obtain ⟨l1, l2, e⟩ := List.append_of_mem hm
    exact ((agree_exec hq.run).inv.core.legal l1 _ l2 e).1
  obtain ⟨d', ps, x, ⟨k, random, long, doc, q', d, cs, h1, h2, h3, h4, rfl⟩, h5, h6, h7⟩ :=
    (track_exec (dss_issues q.y q.env g.id j g.keys.length) (newData_signing q.k) hq.run).req m hm h10
  obtain ⟨f1, f2, f3, f4, f5, f6⟩ := fresh_facts hg hq h1 h2 h3 h4
  refine ⟨hs, ?_, ps, x, _, d, cs, q.env.nonce, h7, ?_, ?_, h4, f1, f2, f3, hq.keys, hq.secret, f4, f5, f6, h5⟩
  · have := index_lt h4
    rw [(newDSS_fresh h4).2.2.2.1, f4] at this
    rw [← hq.keys]; exact this
  all_goals
    obtain ⟨v, o1, _⟩ := partialSig_state (H := H) (SH := SH) f5 q.env.nonce
    have hI := (Inv.init (ls := g.ls) (rs := g.rs) h4).run (SH := SH) hH f5 cs
    have o2 := (ownShare_same (H := H) hI.same).trans o1
    have o3 := h5
    rw [partialSig, o2] at o3
    dsimp only at o3
    rw [Outcome.bind_eq_ok] at o3
    obtain ⟨sig, _, o4⟩ := o3
    rw [Outcome.pure_eq] at o4
    have o5 := Outcome.ok.inj o4
  · obtain ⟨y', c1, c2⟩ := (C29_partsig ps).1 (by
      rw [← o5]
      show CanonicalShare ⟨d.index, v⟩
      rw [ownShare, Outcome.bind_eq_ok] at o1
      obtain ⟨e, _, o6⟩ := o1
      rw [Outcome.pure_eq] at o6
      have o7 := Outcome.ok.inj o6
      injection o7 with _ o8
      rw [CanonicalShare, ← o8]
      exact Scalar.modG_range _)
    rw [Outcome.ok.inj (h6.symm.trans c1)]; exact c2
  · rw [← o5]; show (d.index : Int) = j; rw [f4]

/-- Enough honest members other than `i` whose partial signatures are among the messages, all in QUAL whenever party `p` has a
share of the nonce. -/
def Enough (H : List UInt8 → List UInt8) (SH : Share → List UInt8) (g : Group) (i : Nat) (p : Party K) (ms : List (Message Dto)) : Prop :=
  ∃ js : List Nat, js.Nodup ∧ i ∉ js ∧ g.T ≤ js.length + 1 ∧ ∀ j ∈ js, (∃ m ∈ ms, From K H SH g j m) ∧
    ∀ k random, p.y.distKeyShare k = .ok random → (j : Int) ∈ p.y.qual k

/-- What holds of the data of a signing run in each stage. -/
structure Stages (H : List UInt8 → List UInt8) (SH : Share → List UInt8) (g : Group) (i : Nat) (p : Party K) (n : Int)
    (ms : List (Message Dto)) (u : Data K) : Prop where
  low : ∀ m ∈ ms, m.op ≤ n
  init : n = 9 → ∃ d, Fresh H p d ∧ u.dss = some d
  partsig : n = 10 → ∃ d cs, Fresh H p d ∧ u.dss = some (Dss.run H SH d (.partialSig p.env.nonce :: cs)) ∧
    ∀ j m, m ∈ ms → From K H SH g j m → (∀ k random, p.y.distKeyShare k = .ok random → (j : Int) ∈ p.y.qual k) →
      (j : Int) ∈ (Dss.run H SH d (.partialSig p.env.nonce :: cs)).partialsIdx
  final : 11 ≤ n → Enough H SH g i p ms → ∃ sig, .sig sig ∈ u.out

/-- When the run may be abandoned: in the generation, after it if there is no share, or in the end if there were not enough. -/
def MayGiveUp (H : List UInt8 → List UInt8) (SH : Share → List UInt8) (g : Group) (i : Nat) (p : Party K) (n : Int)
    (ms : List (Message Dto)) : Prop := n ≤ 8 ∨ (n = 9 ∧ ∃ k, p.y.distKeyShare k = .err) ∨ n = 11 ∧ ¬ Enough H SH g i p ms

theorem enough_snoc {i : Nat} {p : Party K} {ms : List (Message Dto)} {m : Message Dto} (hm : m.op ≠ 10)
    (h : Enough H SH g i p (ms ++ [m])) : Enough H SH g i p ms := by
  obtain ⟨js, h1, h2, h3, h4⟩ := h
  refine ⟨js, h1, h2, h3, fun j hj => ?_⟩
  obtain ⟨⟨m', g1, g2⟩, g3⟩ := h4 j hj
  rcases List.mem_append.1 g1 with g1 | g1
  · exact ⟨⟨m', g1, g2⟩, g3⟩
  · rw [List.mem_singleton] at g1
    subst g1
    exact absurd g2.1 hm

theorem process_mono (d : DSS) (ps : PartialSig) {x : Int} (h : x ∈ d.partialsIdx) : x ∈ (processPartialSig H SH d ps).1.partialsIdx := by
  rw [C21_effect]
  by_cases hok : (processPartialSig H SH d ps).2 = .ok ()
  · rw [if_pos hok]; exact List.mem_cons_of_mem _ h
  · rw [if_neg hok]; exact h

theorem partialSig_ok {d : DSS} {ls rs : List Nat} (hk : Keys d ls rs) (hs : (d.secret : Fn) ≠ 0) (k : Int) :
    ∃ ps, (partialSig H SH k d).2 = .ok ps := by
  obtain ⟨v, h1, _⟩ := partialSig_state (H := H) (SH := SH) hk k
  rw [partialSig, h1]
  dsimp only
  rw [Schnorr.signWith_eq H (k := k) hs]
  exact ⟨_, rfl⟩

/-- With the own key among the participants, a signer is made. -/
theorem newDSS_own {env : Env} {i : Nat} (h : OwnIndex env i) (long random : KeyShare) (q : List Int) (doc : Int) :
    ∃ d, newDSS H ⟨env.secret, env.participants, long, random, q, doc, env.threshold⟩ = .ok d := by
  obtain ⟨pub, h1, h2⟩ := h
  rw [newDSS, h1]
  show ∃ d, (Outcome.ofOption (env.participants.findIdx? fun p => equal p pub) >>= _) = Outcome.ok d
  rw [h2]
  exact ⟨_, rfl⟩

theorem dss_stage_cases {y : Kyb K} {env : Env} {id : String} {self : Int} {members : Nat} {n : Int} {s : Stage Dto Obj (Data K)}
    (h : (dssConf y H SH env id self members).stage? n = some s) :
    n ≤ 8 ∨ (n = 9 ∧ s = psStep (stInit y H env)) ∨
      (n = 10 ∧ s = psProc (some (stPartsig H SH env)) (prPartsig H SH) .partsig partsigV) ∨ (n = 11 ∧ s = psStep (dssStFinal H)) := by
  obtain ⟨h0, h1⟩ := stage?_some h
  by_cases h8 : n ≤ 8
  · exact .inl h8
  right
  obtain ⟨k, hk⟩ : ∃ k : Nat, n.toNat = 9 + k := ⟨n.toNat - 9, by omega⟩
  rw [hk] at h1
  have h2 : [psStep (stInit y H env), psProc (some (stPartsig H SH env)) (prPartsig H SH) .partsig partsigV,
      psStep (dssStFinal H)][k]? = some s := by
    rw [dssConf] at h1
    dsimp only at h1
    rw [dssStages, List.getElem?_append_right (by simp [dkgStages])] at h1
    rw [← h1]
    congr 1
    simp [dkgStages]
  match k, h2 with
  | 0, h2 => exact .inl ⟨by omega, (Option.some.inj h2).symm⟩
  | 1, h2 => exact .inr (.inl ⟨by omega, (Option.some.inj h2).symm⟩)
  | 2, h2 => exact .inr (.inr ⟨by omega, (Option.some.inj h2).symm⟩)
  | k + 3, h2 => simp at h2

theorem dss_stage_10 {y : Kyb K} {env : Env} {id : String} {self : Int} {members : Nat} :
    (dssConf y H SH env id self members).stages[(10 : Int).toNat]? =
      some (psProc (some (stPartsig H SH env)) (prPartsig H SH) .partsig partsigV) := rfl

/-- The messages of honest members pass the checks. -/
theorem from_accepted (hH : ∀ b, (H b).length = 32) (hg : g.Sound) {j : Nat} {m : Message Dto} (h : From K H SH g j m) (i : Nat)
    (p : Party K) : ∃ ps, Accepts (dssConf p.y H SH p.env g.id i g.keys.length) m (.partsig ps) := by
  obtain ⟨h1, h2, ps, x, a, d, cs, k, h3, h4, h5, _⟩ := from_content hH hg h
  refine ⟨ps, _, by rw [h.1]; exact dss_stage_10, by rw [h.1]; decide, rfl, ?_, ?_, by omega, ?_, ?_⟩
  · rw [h3]; rfl
  · show unmarshal .partsig m.dto = _
    rw [h3, unmarshal, h4]; rfl
  · show m.sender < (g.keys.length : Int)
    rw [h1]; omega
  · show partsigV (.partsig ps) m.sender = .ok true
    rw [partsigV, h1, h5]; simp

theorem stages_follow (hH : ∀ b, (H b).length = 32) (hg : g.Sound) {i : Nat} {p : Party K} (hp : Always H SH g i p) :
    Follow (dssConf p.y H SH p.env g.id i g.keys.length) (Stages H SH g i p) (MayGiveUp H SH g i p) := by
  refine ⟨?_, ?_, ?_, ?_⟩
  · intro n s ms u hs hst hj
    have h8 : n ≤ 8 := by
      rcases dss_stage_cases hs with h | ⟨_, rfl⟩ | ⟨_, rfl⟩ | ⟨_, rfl⟩
      · exact h
      all_goals cases hst
    exact ⟨fun m hm => by have := hj.low m hm; omega, fun h => by omega, fun h => by omega, fun h => by omega⟩
  · intro n s f ms u u' as hs hf hj hr
    have hlow : ∀ m ∈ ms, m.op ≤ n := fun m hm => by have := hj.low m hm; omega
    rcases dss_stage_cases hs with h | ⟨hn, rfl⟩ | ⟨hn, rfl⟩ | ⟨hn, rfl⟩
    · exact ⟨fun _ => ⟨hlow, fun h => by omega, fun h => by omega, fun h => by omega⟩, fun _ => .inl (by omega)⟩
    · have e := Option.some.inj hf
      subst e
      rw [stInit] at hr
      cases hd : p.y.distKeyShare u.kyb with
      | panic => rw [hd] at hr; cases hr
      | err =>
        rw [hd] at hr; have := Outcome.ok.inj hr; injection this with e1 e2; subst e2
        exact ⟨fun hab => absurd (by simp) hab, fun _ => .inr (.inl ⟨hn, _, hd⟩)⟩
      | ok random =>
        rw [hd] at hr
        dsimp only at hr
        cases hl : p.env.long with
        | none => rw [hl] at hr; cases hr
        | some long =>
        cases hdoc : p.env.doc with
        | none => rw [hl, hdoc] at hr; cases hr
        | some doc =>
        rw [hl, hdoc] at hr
        dsimp only at hr
        obtain ⟨d, hnew⟩ := newDSS_own (H := H) hp.own long random (p.y.qual u.kyb) doc
        rw [hnew] at hr
        have := Outcome.ok.inj hr
        injection this with e1 e2
        subst e1; subst e2
        exact ⟨fun _ => ⟨hlow, fun _ => ⟨d, ⟨u.kyb, random, long, doc, hd, hl, hdoc, hnew⟩, rfl⟩, fun h => by omega, fun h => by omega⟩,
          fun h => absurd h List.not_mem_nil⟩
    · obtain ⟨d, hfr, hd⟩ := hj.init (by omega)
      have e := Option.some.inj hf
      subst e
      rw [stPartsig.eq_def, hd] at hr
      dsimp only at hr
      have fin : ∀ u1 : Data K, u1.dss = some (partialSig H SH p.env.nonce d).1 → Stages H SH g i p n ms u1 := by
        intro u1 h1
        refine ⟨hlow, fun h => by omega, fun _ => ⟨d, [], hfr, h1, fun j m hm hfrom => ?_⟩, fun h => by omega⟩
        have := hj.low m hm
        have := hfrom.1
        omega
      obtain ⟨k, random, long, doc, g1, g2, g3, g4⟩ := hfr
      obtain ⟨_, _, _, _, hk, hc⟩ := fresh_facts hg hp g1 g2 g3 g4
      obtain ⟨ps, c1⟩ := partialSig_ok (SH := SH) hk (by
        rw [(newDSS_fresh g4).2.2.2.2.2.2.2.2.2.1]
        intro h; exact hp.secret ((emod_zero_iff _).2 h)) p.env.nonce
      rw [c1] at hr
      dsimp only at hr
      rw [Outcome.bind_eq_ok] at hr
      obtain ⟨bs, e1, e2⟩ := hr
      have := Outcome.ok.inj e2
      injection this with e3 e4
      subst e3; subst e4
      refine ⟨fun _ => fin _ rfl, fun hab => absurd hab ?_⟩
      rw [broadcastQual] at e1
      cases hm : partsigToDto ps with
      | panic => rw [hm] at e1; cases e1
      | err => rw [hm] at e1; rw [← Outcome.ok.inj e1]; simp
      | ok x =>
        rw [hm] at e1
        dsimp only at e1
        cases hq : u.qual with
        | none => rw [hq] at e1; cases e1
        | some q => rw [hq] at e1; rw [← Outcome.ok.inj e1]; simp
    · obtain ⟨d, cs, hfr, hd, hidx⟩ := hj.partsig (by omega)
      obtain ⟨k, random, long, doc, g1, g2, g3, g4⟩ := hfr
      obtain ⟨_, _, _, hi, hk, hc⟩ := fresh_facts hg hp g1 g2 g3 g4
      have e := Option.some.inj hf
      subst e
      have hI := (Inv.init (ls := g.ls) (rs := g.rs) g4).run (SH := SH) hH hk (.partialSig p.env.nonce :: cs)
      have hD := (InvD.init (SH := SH) hk g4 p.env.nonce).run (SH := SH) hk hH
        (step_same (SameSession.refl d) hk (.partialSig p.env.nonce)) cs
      have hT : (Dss.run H SH d (.partialSig p.env.nonce :: cs)).T = p.env.threshold := by
        rw [hI.same]; exact (newDSS_fresh g4).2.2.2.2.1
      have hix : (Dss.run H SH d (.partialSig p.env.nonce :: cs)).index = i := by rw [hI.same]; exact hi
      have key : Enough H SH g i p ms → p.env.threshold ≤ (Dss.run H SH d (.partialSig p.env.nonce :: cs)).partials.length := by
        rintro ⟨js, h1, h2, h3, h4⟩
        have hsub : (i :: js).map (fun j : Nat => (j : Int)) ⊆
            (Dss.run H SH d (.partialSig p.env.nonce :: cs)).partials.map Share.I := by
          intro x hx
          rw [List.mem_map] at hx
          obtain ⟨j, hj', rfl⟩ := hx
          rcases List.mem_cons.1 hj' with rfl | hj'
          · have := hD.own
            rwa [show (Dss.run H SH (Dss.step H SH d (.partialSig p.env.nonce)) cs).index = j from hix] at this
          · obtain ⟨⟨m, q1, q2⟩, q3⟩ := h4 j hj'
            have := hidx j m q1 q2 q3
            rw [hI.idx, List.mem_reverse] at this
            exact this
        have hnd : ((i :: js).map (fun j : Nat => (j : Int))).Nodup :=
          List.Nodup.map (fun a b h => Int.ofNat.inj h) (List.nodup_cons.2 ⟨h2, h1⟩)
        have := (List.subperm_of_subset hnd hsub).length_le
        simp only [List.length_map, List.length_cons] at this
        rw [hp.threshold]
        omega
      rw [dssStFinal, hd] at hr
      dsimp only at hr
      by_cases he : (!enoughPartialSig (Dss.run H SH d (.partialSig p.env.nonce :: cs))) = true
      · have hne : ¬ Enough H SH g i p ms := by
          intro hE
          rw [enoughPartialSig, hT, decide_eq_true (key hE)] at he
          cases he
        rw [if_pos he] at hr
        have := Outcome.ok.inj hr
        injection this with e1 e2
        subst e2
        exact ⟨fun h => absurd (by simp) h, fun _ => .inr (.inr ⟨hn, hne⟩)⟩
      rw [if_neg he] at hr
      have he' : p.env.threshold ≤ ((Dss.run H SH d (.partialSig p.env.nonce :: cs)).partials.length : Int) := by
        rw [enoughPartialSig, hT] at he
        simpa using he
      obtain ⟨sig, hsig⟩ := C23_returns H SH hH _ d g4 g.ls g.rs hk hc
        ⟨by rw [hp.threshold]; exact hg.long, by rw [hp.threshold]; exact hg.random.2⟩ (by rw [hp.keys]; exact hg.few) p.env.nonce cs he'
      rw [hsig] at hr
      have := Outcome.ok.inj hr
      injection this with e1 e2
      subst e1; subst e2
      exact ⟨fun _ => ⟨hlow, fun h => by omega, fun h => by omega, fun _ _ => ⟨sig, by simp⟩⟩, fun h => by cases h⟩
  · intro m ms u hj hna
    refine ⟨fun m' hm' => ?_, fun h9 => hj.init h9, fun h10 => ?_, fun h11 hE => hj.final h11 (enough_snoc (by omega) hE)⟩
    · rcases List.mem_append.1 hm' with hm' | hm'
      · exact hj.low m' hm'
      · rw [List.mem_singleton] at hm'; subst hm'; exact le_refl _
    · obtain ⟨d, cs, h1, h2, h3⟩ := hj.partsig h10
      refine ⟨d, cs, h1, h2, fun j m' hm' hf hq => ?_⟩
      rcases List.mem_append.1 hm' with hm' | hm'
      · exact h3 j m' hm' hf hq
      · rw [List.mem_singleton] at hm'
        subst hm'
        obtain ⟨ps, hps⟩ := from_accepted hH hg hf i p
        exact absurd ⟨_, hps⟩ hna
  · intro s f m a ms u u' as hs hf hacc hj hr
    have hlow : ∀ m' ∈ ms ++ [m], m'.op ≤ m.op := by
      intro m' hm'
      rcases List.mem_append.1 hm' with hm' | hm'
      · exact hj.low m' hm'
      · rw [List.mem_singleton] at hm'; subst hm'; exact le_refl _
    rcases dss_stage_cases hs with h | ⟨hn, rfl⟩ | ⟨hn, rfl⟩ | ⟨hn, rfl⟩
    · exact ⟨fun _ => ⟨hlow, fun h => by omega, fun h => by omega, fun h => by omega⟩, fun _ => .inl (by omega)⟩
    · cases hf
    · have e := Option.some.inj hf
      subst e
      obtain ⟨d, cs, hfr, hd, hidx⟩ := hj.partsig hn
      cases a with
      | partsig ps =>
        rw [prPartsig, hd] at hr
        dsimp only at hr
        have hr' : (({ u with dss := some (processPartialSig H SH (Dss.run H SH d (.partialSig p.env.nonce :: cs)) ps).1 } : Data K),
            ([] : List (Act Dto))) = (u', as) := by
          cases hpp : (processPartialSig H SH (Dss.run H SH d (.partialSig p.env.nonce :: cs)) ps).2 with
          | panic => rw [hpp] at hr; cases hr
          | err => rw [hpp] at hr; exact Outcome.ok.inj hr
          | ok _ => rw [hpp] at hr; exact Outcome.ok.inj hr
        injection hr' with e1 e2
        subst e1; subst e2
        refine ⟨fun _ => ⟨hlow, fun h => by omega, fun _ => ⟨d, cs ++ [.process ps], hfr, ?_, fun j m' hm' hf' hq => ?_⟩,
          fun h => by omega⟩, fun h => by cases h⟩
        · show some _ = some _
          rw [← List.cons_append, Dss.run, Dss.run, List.foldl_append]; rfl
        · have hrun : Dss.run H SH d (.partialSig p.env.nonce :: (cs ++ [.process ps])) =
              (processPartialSig H SH (Dss.run H SH d (.partialSig p.env.nonce :: cs)) ps).1 := by
            rw [← List.cons_append, Dss.run, Dss.run, List.foldl_append]; rfl
          rw [hrun]
          rcases List.mem_append.1 hm' with hm' | hm'
          · exact process_mono _ _ (hidx j m' hm' hf' hq)
          · rw [List.mem_singleton] at hm'
            subst hm'
            obtain ⟨c1, c2, ps', x, a', d', cs', k', c3, c4, c5, c6, c7, c8, c9, c10, c11, c12, c13, c14, c15⟩ :=
              from_content hH hg hf'
            have hps : ps' = ps := by
              obtain ⟨s', b1, _, _, _, b2, _⟩ := hacc
              rw [hn, dss_stage_10] at b1
              have := Option.some.inj b1
              subst this
              have b3 : unmarshal .partsig m'.dto = .ok (.partsig ps) := b2
              rw [c3, unmarshal, c4] at b3
              injection (Outcome.ok.inj b3)
            subst hps
            obtain ⟨k, random, long, doc, g1, g2, g3, g4⟩ := hfr
            obtain ⟨f1, f2, f3, hi, hk, hc⟩ := fresh_facts hg hp g1 g2 g3 g4
            obtain ⟨ps2, b1, b2, b3⟩ := C22_honest_accepted H SH hH a' _ d' d c6 g4 (c7.trans f1.symm) (c8.trans f2.symm)
              (c9.trans f3.symm) (c10.trans hp.keys.symm) (by rw [c10]; exact hg.elts) c11 g.ls g.rs c13 c14
              (by rw [c12]; exact hq k random g1) cs' (.partialSig p.env.nonce :: cs) k'
            have := Outcome.ok.inj (b1.symm.trans c15)
            subst this
            rw [C21_effect]
            by_cases hnew : (j : Int) ∈ (Dss.run H SH d (.partialSig p.env.nonce :: cs)).partialsIdx
            · by_cases hok : (processPartialSig H SH (Dss.run H SH d (.partialSig p.env.nonce :: cs)) ps2).2 = .ok ()
              · rw [if_pos hok]; exact List.mem_cons_of_mem _ hnew
              · rw [if_neg hok]; exact hnew
            · rw [if_pos (b3 (by rw [c12]; exact hnew))]
              exact List.mem_cons.2 (.inl c5.symm)
      | _ => cases hr
    · cases hf

/-- After a later stage is entered, no message of this one is handled. -/
theorem handled_before {D A U : Type} {c : Conf D A U} {l1 : List (Entry D A)} (l2 : List (Entry D A)) (n : Int)
    (hl : Legal c (l1 ++ l2)) (h : n < stageOf l1) : n < stageOf (l1 ++ l2) ∧ handledOf n (l1 ++ l2) = handledOf n l1 := by
  induction l2 using List.reverseRecOn with
  | nil => rw [List.append_nil]; exact ⟨h, rfl⟩
  | append_singleton l2 x ih =>
    rw [← List.append_assoc] at hl ⊢
    obtain ⟨h1, h2⟩ := ih fun a y b e => hl a y (b ++ [x]) (by rw [e]; simp)
    have hx := hl (l1 ++ l2) x [] rfl
    rw [stageOf_snoc, handledOf_snoc, h2]
    cases x with
    | entered k => exact ⟨by have := hx.1; dsimp only; omega, by simp⟩
    | handled m => exact ⟨h1, by have := hx.1; dsimp only; rw [if_neg (by omega), List.append_nil]⟩
    | _ => exact ⟨h1, by simp⟩

theorem handledAll_of (n : Int) {l : List (Entry Dto Obj)} {m : Message Dto} (h : m ∈ handledAll l) (hm : m.op = n) : m ∈ handledOf n l := by
  rw [handledAll, List.mem_filterMap] at h
  obtain ⟨x, hx, h⟩ := h
  cases x with
  | handled m' => exact List.mem_filterMap.2 ⟨_, hx, by have := Option.some.inj h; subst this; simp [hm]⟩
  | _ => cases h

theorem ended_stage {D A U : Type} {c : Conf D A U} {u : U} {t0 : Int} {h : List (Ev D)} {r : Run D A U}
    (hr : exec c (newRun D A u t0) h = .ok r) (ht : r.terminated = true) : r.state + 1 = c.stages.length := by
  have i := (agree_exec hr).inv
  have hp : r.phase = .done := by have := i.term; rw [ht] at this; simpa using this.symm
  have := i.done hp
  omega

/-- What an honest member puts out verifies. -/
theorem honest_verifies (hH : ∀ b, (H b).length = 32) (hg : g.Sound) {i : Nat} {p : Party K} (hp : Honest H SH g i p) {sig : Schnorr.Sig}
    (hs : .sig sig ∈ p.r.user.out) : Schnorr.verify H (.pt (timesAdd base (g.ls.headD 0))) g.doc sig = .ok () := by
  obtain ⟨long, e1, e2, e3⟩ := hp.long
  have := C65_verifies_partial p.y H hH SH p.env g.id i g.keys.length p.k p.t0 p.h p.r hp.run long g.doc e1 hp.doc hg.doc g.ls e2
    hg.key (by rw [hp.threshold]; exact hg.long) (by rw [hp.keys]; exact hg.few)
    (fun i' h' => by rw [← own_unique hp.own h']; exact e3)
    (fun random h' => ⟨g.rs, hg.random.1, (hp.random random h').1, by rw [hp.threshold]; exact hg.random.2,
      fun i' h'' => by rw [← own_unique hp.own h'']; exact (hp.random random h').2⟩) sig hs
  rw [e2] at this
  obtain ⟨l, ls', hls⟩ : ∃ l ls', g.ls = l :: ls' := by
    cases hls : g.ls with
    | nil => have := hg.key; rw [hls] at this; exact absurd rfl this
    | cons l ls' => exact ⟨l, ls', rfl⟩
  rw [hls] at this ⊢
  exact this

/-- A run that is not abandoned in the generation, and has a share of the nonce, is not abandoned before the signature is put together. -/
theorem honest_late (hH : ∀ b, (H b).length = 32) (hg : g.Sound) {i : Nat} {p : Party K} (hp : Honest H SH g i p)
    (hgo : ∀ l1 l2, p.r.log = l1 ++ .abandoned :: l2 → 9 ≤ stageOf l1) (hk : p.y.distKeyShare p.r.user.kyb ≠ .err) :
    ∀ l1 l2, p.r.log = l1 ++ .abandoned :: l2 → 11 ≤ stageOf l1 := by
  intro l3 l4 e'
  have hp' := honest_pin hp
  have f := follow_exec (stages_follow hH hg hp') (u := newData p.k)
    ⟨fun m hm => absurd hm List.not_mem_nil, fun h => absurd h (by decide), fun h => absurd h (by decide), fun h => absurd h (by decide)⟩ hp'.run
  have a := (agree_exec hp.run).inv.core
  have hab : p.r.abandon = true := by
    rw [← a.gave, gaveUp, List.any_eq_true]
    exact ⟨.abandoned, by rw [e']; simp, rfl⟩
  obtain ⟨l1, l2, e, hno, h1⟩ := f.gave hab
  have e : p.r.log = l1 ++ .abandoned :: l2 := e
  have h11 : 11 ≤ stageOf l1 := by
    have := hgo l1 l2 e
    rcases h1 with h1 | ⟨h1, k, h2⟩ | ⟨h1, _⟩
    · omega
    · have hk' : k = p.r.user.kyb := pin_only (y := p.y) (by rw [show (Dkg.pin p.y p.r.user.kyb).distKeyShare k = _ from h2]; simp)
      subst hk'
      exact absurd (by rw [← pin_at p.y]; exact h2) hk
    · omega
  obtain ⟨x, rfl⟩ := Generation.first_split (e.symm.trans e') hno
  have legal := a.legal
  rw [e'] at legal
  have := Generation.stage_mono (l1 := l1) (l2 := x) fun p z q e2 => legal p z (q ++ .abandoned :: l4) (by rw [e2]; simp)
  omega

/-- The run of an honest member, given enough partial signatures: unless it was abandoned in the generation, it puts out a signature. -/
theorem honest_signs (hH : ∀ b, (H b).length = 32) (hg : g.Sound) {i : Nat} {p : Party K} (hp : Honest H SH g i p) (hend : p.r.terminated = true)
    (hgo : ∀ l1 l2, p.r.log = l1 ++ .abandoned :: l2 → 8 < stageOf l1 ∧ (stageOf l1 = 9 → p.y.distKeyShare p.r.user.kyb ≠ .err))
    (js : List Nat) (hnd : js.Nodup) (hi : i ∉ js) (hT : g.T ≤ js.length + 1)
    (hq : ∀ j ∈ js, ∀ random, p.y.distKeyShare p.r.user.kyb = .ok random → (j : Int) ∈ p.y.qual p.r.user.kyb)
    (hjs : ∀ j ∈ js, ∃ (q : Party K) (m : Message Dto), Honest H SH g j q ∧ .sent m ∈ q.r.log ∧ m.op = 10 ∧
      m ∈ early 10 p.r.log ++ inTime 10 p.r.log) :
    (∃ sig, .sig sig ∈ p.r.user.out) ∧ p.r.abandon = false := by
  have hp' := honest_pin hp
  have f := follow_exec (stages_follow hH hg hp') (u := newData p.k)
    ⟨fun m hm => absurd hm List.not_mem_nil, fun h => absurd h (by decide), fun h => absurd h (by decide), fun h => absurd h (by decide)⟩ hp'.run
  have hst : p.r.state = 11 := by
    have := ended_stage hp.run hend
    rw [show (dssConf p.y H SH p.env g.id i g.keys.length).stages.length = 12 from rfl] at this
    omega
  have a := agree_exec hp.run
  have hE : ∀ ms, (∀ m ∈ handledOf 10 p.r.log, m ∈ ms) → Enough H SH g i p.pin ms := by
    intro ms hms
    refine ⟨js, hnd, hi, hT, fun j hj => ⟨?_, fun k random hk => ?_⟩⟩
    · obtain ⟨q, m, h1, h2, h3, h4⟩ := hjs j hj
      refine ⟨m, hms m ?_, h3, q.pin, honest_pin h1, sent_requested h1.run h2⟩
      rw [(C43_order _ _ _ _ _ hp.run).2 10, if_pos (by rw [a.inv.core.stage, hst]; decide)]
      exact h4
    · have hk' : k = p.r.user.kyb := pin_only (y := p.y) (by rw [show (Dkg.pin p.y p.r.user.kyb).distKeyShare k = _ from hk]; simp)
      subst hk'
      exact hq j hj random (by rw [← pin_at p.y]; exact hk)
  have hab : p.r.abandon = false := by
    by_contra hc
    obtain ⟨l1, l2, e, _, h1⟩ := f.gave (by rw [show p.pin.r.abandon = p.r.abandon from rfl]; simpa using hc)
    obtain ⟨h9, h9'⟩ := hgo l1 l2 e
    rcases h1 with h1 | ⟨h1, k, hk⟩ | ⟨h1, h2⟩
    · omega
    · have hk' : k = p.r.user.kyb := pin_only (y := p.y) (by rw [show (Dkg.pin p.y p.r.user.kyb).distKeyShare k = _ from hk]; simp)
      subst hk'
      exact h9' h1 (by rw [← pin_at p.y]; exact hk)
    · refine h2 (hE _ fun m hm => ?_)
      have hl := a.inv.core.legal
      rw [show p.pin.r.log = p.r.log from rfl] at e
      rw [e] at hl hm
      rw [(handled_before _ 10 hl (by omega)).2] at hm
      exact (mem_handledAll hm).1
  obtain ⟨sig, hs⟩ := (f.data hab).final (show (11 : Int) ≤ p.r.state by omega) (hE _ fun m hm => (mem_handledAll hm).1)
  exact ⟨⟨sig, hs⟩, hab⟩

end

/-- C72. Let a member of a sound group take part honestly in a signing run that has ended and was not abandoned before the
partial signatures are exchanged. If partial signatures of at least `T - 1` other honest members, all in QUAL, reached it in
time, then whatever else it received it has put out a signature, which verifies under the long-term public key for the
document, and the run was not abandoned. -/
theorem C72_signs {K : Type} (H : List UInt8 → List UInt8) (hH : ∀ b, (H b).length = 32) (SH : Share → List UInt8) (g : Group)
    (hg : g.Sound) (i : Nat) (p : Party K) (hp : Honest H SH g i p) (hend : p.r.terminated = true)
    (hgo : ∀ l1 l2, p.r.log = l1 ++ .abandoned :: l2 → 9 < stageOf l1)
    (js : List Nat) (hnd : js.Nodup) (hi : i ∉ js) (hT : g.T ≤ js.length + 1)
    (hq : ∀ j ∈ js, ∀ random, p.y.distKeyShare p.r.user.kyb = .ok random → (j : Int) ∈ p.y.qual p.r.user.kyb)
    (hjs : ∀ j ∈ js, ∃ (q : Party K) (m : Message Dto), Honest H SH g j q ∧ .sent m ∈ q.r.log ∧ m.op = 10 ∧
      m ∈ early 10 p.r.log ++ inTime 10 p.r.log) :
    (∃ sig, .sig sig ∈ p.r.user.out ∧ Schnorr.verify H (.pt (timesAdd base (g.ls.headD 0))) g.doc sig = .ok ()) ∧
      gaveUp p.r.log = false := by
  obtain ⟨⟨sig, hs⟩, hab⟩ := honest_signs hH hg hp hend (fun l1 l2 e => by have := hgo l1 l2 e; exact ⟨by omega, fun h => by omega⟩)
    js hnd hi hT hq hjs
  exact ⟨⟨sig, hs, honest_verifies hH hg hp hs⟩, by rw [← hab]; exact (agree_exec hp.run).inv.core.gave⟩

/-- C73. All signatures that honest members of a group put out in runs with the same nonce polynomial are equal, whatever each
received. -/
theorem C73_agree {K : Type} (H : List UInt8 → List UInt8) (hH : ∀ b, (H b).length = 32) (SH : Share → List UInt8) (g : Group)
    (hg : g.Sound) (i j : Nat) (p q : Party K) (hp : Honest H SH g i p) (hq : Honest H SH g j q) (s1 s2 : Schnorr.Sig)
    (h1 : .sig s1 ∈ p.r.user.out) (h2 : .sig s2 ∈ q.r.user.out) : s1 = s2 := by
  have hp := honest_pin hp
  have hq := honest_pin hq
  obtain ⟨_, ⟨k1, rd1, lg1, dc1, q1, d1, cs1, a1, a2, a3, a4, rfl⟩, a5⟩ :=
    (track_exec (dss_keeps g.id i g.keys.length) (newData_signing p.k) hp.run).user.out s1 h1
  obtain ⟨_, ⟨k2, rd2, lg2, dc2, q2, d2, cs2, b1, b2, b3, b4, rfl⟩, b5⟩ :=
    (track_exec (dss_keeps g.id j g.keys.length) (newData_signing q.k) hq.run).user.out s2 h2
  obtain ⟨e1, e2, e3, _, e5, e6⟩ := fresh_facts hg hp a1 a2 a3 a4
  obtain ⟨f1, f2, f3, _, f5, f6⟩ := fresh_facts hg hq b1 b2 b3 b4
  exact C24_agree H SH hH _ _ d1 d2 a4 b4 (e1.trans f1.symm) (e2.trans f2.symm) (e3.trans f3.symm) g.ls g.rs e5 e6 f6
    ⟨by rw [hp.threshold]; exact hg.long, by rw [hp.threshold]; exact hg.random.2⟩
    ⟨by rw [hq.threshold]; exact hg.long, by rw [hq.threshold]; exact hg.random.2⟩
    (by rw [hp.keys]; exact hg.few) (by rw [hq.keys]; exact hg.few) cs1 cs2 s1 s2 a5 b5

end Verif.Props
