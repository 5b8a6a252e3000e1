import Verif.Model.Dkg
import Verif.Proofs.ProtUser
import Verif.Props.Dto
import Verif.Props.Dss

/-! The stages of the two protocols: what they send, and when they do not panic. -/
namespace Verif.Dkg
open Verif.Prot Verif.Dto Verif.Dss Verif.Props
variable {K : Type} {y : Kyb K} {H : List UInt8 → List UInt8} {SH : Share → List UInt8} {env : Env}

/-- The op code with which each kind of DTO is sent. -/
def Table : Int → Dto → Prop
  | op, .deal _ => op = 1
  | op, .response _ => op = 2
  | op, .justification _ => op = 3
  | op, .commits _ => op = 5
  | op, .complCommits _ => op = 6
  | op, .reconsCommits _ => op = 7
  | op, .partsig _ => op = 10
  | _, .other => False

/-- The same without partial signatures. -/
def DkgTable (op : Int) (d : Dto) : Prop := Table op d ∧ ∀ s, d ≠ .partsig s

theorem actOk_mono {D : Type} {Q Q' : Int → D → Prop} (h : ∀ op d, Q op d → Q' op d) {a : Act D} (ha : ActOk Q a) : ActOk Q' a := by
  cases a <;> first | exact h _ _ ha | trivial

theorem broadcastQual_acts {T S : Type} {u : Data K} {op : Int} {wrap : S → Dto} {mar : T → Outcome S} {x : T}
    {as : List (Act Dto)} (h : broadcastQual u op wrap mar x = .ok as) {Q : Int → Dto → Prop} (hw : ∀ d, Q op (wrap d)) : ∀ a ∈ as, ActOk Q a := by
  rw [broadcastQual] at h
  cases hm : mar x with
  | panic => rw [hm] at h; cases h
  | err => rw [hm] at h; rw [← Outcome.ok.inj h]; intro a ha; cases ha
  | ok dto =>
    rw [hm] at h
    dsimp only at h
    cases hq : u.qual with
    | none => rw [hq] at h; cases h
    | some q =>
      rw [hq] at h
      rw [← Outcome.ok.inj h]
      intro a ha
      rw [List.mem_singleton] at ha
      subst ha
      exact hw dto

theorem sendDeals_acts (ds : List (Int × Deal)) {as : List (Act Dto)} (h : sendDeals ds = .ok as) : ∀ a ∈ as, ActOk DkgTable a := by
  induction ds generalizing as with
  | nil => rw [sendDeals] at h; rw [← Outcome.ok.inj h]; intro a ha; cases ha
  | cons p ds ih =>
    rw [sendDeals, Outcome.bind_eq_ok] at h
    obtain ⟨dto, _, h⟩ := h
    rw [Outcome.bind_eq_ok] at h
    obtain ⟨as', h1, h2⟩ := h
    rw [Outcome.pure_eq] at h2
    rw [← Outcome.ok.inj h2]
    intro a ha
    rcases List.mem_append.1 ha with ha | ha
    · obtain ⟨d, _, rfl⟩ := List.mem_map.1 ha
      exact ⟨(rfl : opDeal = 1), fun _ e => by cases e⟩
    · exact ih h1 a ha

/-- The acts of a step or processor conform to `Q`, and what it does to the data preserves `P`. -/
def Sends (Q : Int → Dto → Prop) (P : Data K → Prop) (x : Outcome (Data K × List (Act Dto))) : Prop :=
  ∀ u' as, x = .ok (u', as) → P u' ∧ ∀ a ∈ as, ActOk Q a

theorem sends_nil {Q : Int → Dto → Prop} {P : Data K → Prop} {u : Data K} (h : P u) : Sends Q P (.ok (u, [])) := by
  intro u' as e
  have := Outcome.ok.inj e
  injection this with e1 e2
  subst e1; subst e2
  exact ⟨h, by intro a ha; cases ha⟩

theorem sends_one {Q : Int → Dto → Prop} {P : Data K → Prop} {u : Data K} {a : Act Dto} (h : P u) (ha : ActOk Q a) : Sends Q P (.ok (u, [a])) := by
  intro u' as e
  have := Outcome.ok.inj e
  injection this with e1 e2
  subst e1; subst e2
  exact ⟨h, by intro b hb; rw [List.mem_singleton] at hb; subst hb; exact ha⟩

theorem sends_panic {Q : Int → Dto → Prop} {P : Data K → Prop} : Sends Q P .panic := by intro u' as e; cases e

theorem sends_bind {Q : Int → Dto → Prop} {P : Data K → Prop} {x : Outcome (List (Act Dto))} {u : Data K} (h : P u)
    (hx : ∀ as, x = .ok as → ∀ a ∈ as, ActOk Q a) : Sends Q P (x >>= fun as => .ok (u, as)) := by
  intro u' as e
  rw [Outcome.bind_eq_ok] at e
  obtain ⟨as', h1, h2⟩ := e
  have := Outcome.ok.inj h2
  injection this with e1 e2
  subst e1; subst e2
  exact ⟨h, hx _ h1⟩

/-- Only the state of the generator matters to `P`, not what it is. -/
structure KybFree (P : Data K → Prop) : Prop where
  kyb : ∀ u k, P u → P { u with kyb := k }
  qual : ∀ u q, P u → P { u with qual := q }
  key : ∀ u s q, P u → P { u with out := u.out ++ [.key s q] }

theorem kyb_then_qual {P : Data K → Prop} (hP : KybFree P) {u : Data K} (h : P u) (k : K) (q : Option (List Int)) :
    P { u with qual := q, kyb := k } := hP.kyb _ k (hP.qual u q h)

/-- The stages of the key generation conform to the table. -/
theorem dkg_sends {P : Data K → Prop} (hP : KybFree P) (s : Stage Dto Obj (Data K)) (hs : s ∈ dkgStages y) :
    (∀ f, s.step = some f → ∀ u, P u → Sends DkgTable P (f u)) ∧ (∀ f, s.proc = some f → ∀ u a, P u → Sends DkgTable P (f u a)) := by
  simp only [dkgStages, List.mem_cons, List.not_mem_nil, or_false] at hs
  rcases hs with rfl | rfl | rfl | rfl | rfl | rfl | rfl | rfl | rfl
  all_goals refine ⟨?_, ?_⟩
  all_goals (intro f hf u; simp only [psStep, psProc, Option.some.injEq, reduceCtorEq] at hf)
  all_goals subst hf
  · intro h; exact sends_nil (hP.qual _ _ h)
  · intro h
    rw [stepDeal]
    cases hd : (y.deals u.kyb).2 with
    | panic => exact sends_panic
    | err => exact sends_one (hP.kyb _ _ h) trivial
    | ok ds => exact sends_bind (hP.kyb _ _ h) fun as e => sendDeals_acts ds e
  · intro a h
    cases a with
    | deal d =>
      rw [processDeal]
      cases hd : (y.processDeal u.kyb d).2 with
      | panic => exact sends_panic
      | err => exact sends_nil (hP.kyb _ _ h)
      | ok r =>
        cases r with
        | none => exact sends_nil (hP.kyb _ _ h)
        | some r => exact sends_one (hP.kyb _ _ h) ⟨(rfl : opResponse = 2), fun _ e => by cases e⟩
    | _ => exact sends_panic
  · intro a h
    cases a with
    | response r =>
      rw [processResponse]
      cases hd : (y.processResponse u.kyb r).2 with
      | panic => exact sends_panic
      | err => exact sends_nil (hP.kyb _ _ h)
      | ok j =>
        cases j with
        | none => exact sends_nil (hP.kyb _ _ h)
        | some j =>
          dsimp only
          cases hj : justificationToDto j with
          | panic => exact sends_panic
          | err => exact sends_nil (hP.kyb _ _ h)
          | ok dto => exact sends_one (hP.kyb _ _ h) ⟨(rfl : opJustification = 3), fun _ e => by cases e⟩
    | _ => exact sends_panic
  · intro a h
    cases a with
    | justification j =>
      rw [processJustification]
      cases hd : (y.processJustification u.kyb j).2 with
      | panic => exact sends_panic
      | err => exact sends_nil (hP.kyb _ _ h)
      | ok r => exact sends_nil (hP.kyb _ _ h)
    | _ => exact sends_panic
  · intro h; exact sends_nil (hP.kyb _ _ h)
  · intro h
    rw [stepCommits]
    cases hq : u.qual with
    | none => exact sends_panic
    | some q =>
      dsimp only
      by_cases hc : (!y.certified u.kyb) = true
      · rw [if_pos hc]; exact sends_one (hP.qual _ _ h) trivial
      · rw [if_neg hc]
        cases hd : (y.secretCommits u.kyb).2 with
        | panic => exact sends_panic
        | err => exact sends_one (kyb_then_qual hP h _ _) trivial
        | ok sc => exact sends_bind (kyb_then_qual hP h _ _) fun as e => broadcastQual_acts e fun d => ⟨(rfl : opCommits = 5), fun _ e => by cases e⟩
  · intro a h
    cases a with
    | commits c =>
      rw [processCommits]
      cases hd : (y.processSecretCommits u.kyb c).2 with
      | panic => exact sends_panic
      | err => exact sends_nil (hP.kyb _ _ h)
      | ok r =>
        cases r with
        | none => exact sends_nil (hP.kyb _ _ h)
        | some r => exact sends_bind (hP.kyb _ _ h) fun as e => broadcastQual_acts e fun d => ⟨(rfl : opComplCommits = 6), fun _ e => by cases e⟩
    | _ => exact sends_panic
  · intro a h
    cases a with
    | complCommits c =>
      rw [processComplCommits]
      cases hd : (y.processComplaintCommits u.kyb c).2 with
      | panic => exact sends_panic
      | err => exact sends_nil (hP.kyb _ _ h)
      | ok r =>
        cases r with
        | none => exact sends_nil (hP.kyb _ _ h)
        | some r => exact sends_bind (hP.kyb _ _ h) fun as e => broadcastQual_acts e fun d => ⟨(rfl : opReconsCommits = 7), fun _ e => by cases e⟩
    | _ => exact sends_panic
  · intro a h
    cases a with
    | reconsCommits r =>
      rw [processReconsCommits]
      cases hd : (y.processReconstructCommits u.kyb r).2 with
      | panic => exact sends_panic
      | err => exact sends_nil (hP.kyb _ _ h)
      | ok r => exact sends_nil (hP.kyb _ _ h)
    | _ => exact sends_panic
  · intro h
    rw [stepFinal]
    by_cases hf : y.finished u.kyb = true
    · rw [if_pos hf]
      cases hd : y.distKeyShare u.kyb with
      | panic => exact sends_panic
      | err => exact sends_one h trivial
      | ok sh =>
        dsimp only
        cases hq : u.qual with
        | none => exact sends_panic
        | some q =>
          have := hP.key u sh q h
          rw [hq] at this
          exact sends_nil this
    · rw [if_neg hf]; exact sends_one h trivial

/-- The signer of a run: made from the long-term share, the document and some result of the generator, after some calls. -/
def Signer (y : Kyb K) (H : List UInt8 → List UInt8) (SH : Share → List UInt8) (env : Env) (d : DSS) : Prop :=
  ∃ k random long doc q d0 cs, y.distKeyShare k = .ok random ∧ env.long = some long ∧ env.doc = some doc ∧
    newDSS H ⟨env.secret, env.participants, long, random, q, doc, env.threshold⟩ = .ok d0 ∧ d = run H SH d0 cs

theorem Signer.snoc {d : DSS} (h : Signer y H SH env d) (c : Call) : Signer y H SH env (Dss.step H SH d c) := by
  obtain ⟨k, random, long, doc, q, d0, cs, h1, h2, h3, h4, rfl⟩ := h
  exact ⟨k, random, long, doc, q, d0, cs ++ [c], h1, h2, h3, h4, by rw [run, run, List.foldl_append]; rfl⟩

/-- The data of a signing run: its signer is as above, and every signature put out was returned by such a signer. -/
structure Signing (y : Kyb K) (H : List UInt8 → List UInt8) (SH : Share → List UInt8) (env : Env) (u : Data K) : Prop where
  dss : ∀ d, u.dss = some d → Signer y H SH env d
  out : ∀ s, Output.sig s ∈ u.out → ∃ d, Signer y H SH env d ∧ signature H d = .ok s

theorem signing_free : KybFree (Signing y H SH env) := by
  refine ⟨fun u k h => ⟨h.dss, h.out⟩, fun u q h => ⟨h.dss, h.out⟩, fun u s q h => ⟨h.dss, fun x hx => h.out x ?_⟩⟩
  simpa using hx

/-- The stages of the signing protocol conform to the table. -/
theorem dss_sends (s : Stage Dto Obj (Data K)) (hs : s ∈ dssStages y H SH env) :
    (∀ f, s.step = some f → ∀ u, Signing y H SH env u → Sends Table (Signing y H SH env) (f u)) ∧
    (∀ f, s.proc = some f → ∀ u a, Signing y H SH env u → Sends Table (Signing y H SH env) (f u a)) := by
  rw [dssStages, List.mem_append] at hs
  rcases hs with hs | hs
  · have := dkg_sends (y := y) (signing_free (y := y) (H := H) (SH := SH) (env := env)) s hs
    exact ⟨fun f hf u hu u' as e => ⟨(this.1 f hf u hu u' as e).1, fun a ha => actOk_mono (fun _ _ h => h.1) ((this.1 f hf u hu u' as e).2 a ha)⟩,
      fun f hf u a hu u' as e => ⟨(this.2 f hf u a hu u' as e).1, fun x hx => actOk_mono (fun _ _ h => h.1) ((this.2 f hf u a hu u' as e).2 x hx)⟩⟩
  simp only [List.mem_cons, List.not_mem_nil, or_false] at hs
  rcases hs with rfl | rfl | rfl
  all_goals refine ⟨?_, ?_⟩
  all_goals (intro f hf u; simp only [psStep, psProc, Option.some.injEq, reduceCtorEq] at hf)
  all_goals subst hf
  · intro h
    rw [stInit]
    cases hd : y.distKeyShare u.kyb with
    | panic => exact sends_panic
    | err => exact sends_one h trivial
    | ok random =>
      dsimp only
      cases hl : env.long with
      | none => exact sends_panic
      | some long =>
        cases hdoc : env.doc with
        | none => exact sends_panic
        | some doc =>
          dsimp only
          cases hn : newDSS H ⟨env.secret, env.participants, long, random, y.qual u.kyb, doc, env.threshold⟩ with
          | panic => exact sends_panic
          | err => exact sends_one ⟨fun d hd => (by cases hd), h.out⟩ trivial
          | ok d =>
            refine sends_nil ⟨fun d' hd' => ?_, h.out⟩
            have e := Option.some.inj hd'
            subst e
            exact ⟨u.kyb, random, long, doc, y.qual u.kyb, d, [], hd, hl, hdoc, hn, rfl⟩
  · intro h
    rw [stPartsig.eq_def]
    cases hd : u.dss with
    | none => exact sends_panic
    | some d =>
      dsimp only
      have h' : Signing y H SH env { u with dss := some (partialSig H SH env.nonce d).1 } := by
        refine ⟨fun d' hd' => ?_, h.out⟩
        have e := Option.some.inj hd'
        subst e
        exact (h.dss d hd).snoc (.partialSig env.nonce)
      cases hp : (partialSig H SH env.nonce d).2 with
      | panic => exact sends_panic
      | err => exact sends_one h' trivial
      | ok sig => exact sends_bind h' fun as e => broadcastQual_acts e fun d => (rfl : opDssPartsig = 10)
  · intro a h
    cases a with
    | partsig ps =>
      rw [prPartsig]
      cases hd : u.dss with
      | none => exact sends_panic
      | some d =>
        dsimp only
        have h' : Signing y H SH env { u with dss := some (processPartialSig H SH d ps).1 } := by
          refine ⟨fun d' hd' => ?_, h.out⟩
          have e := Option.some.inj hd'
          subst e
          exact (h.dss d hd).snoc (.process ps)
        cases hp : (processPartialSig H SH d ps).2 with
        | panic => exact sends_panic
        | err => exact sends_nil h'
        | ok _ => exact sends_nil h'
    | _ => exact sends_panic
  · intro h
    rw [dssStFinal]
    cases hd : u.dss with
    | none => exact sends_panic
    | some d =>
      dsimp only
      by_cases he : (!enoughPartialSig d) = true
      · rw [if_pos he]; exact sends_one h trivial
      rw [if_neg he]
      cases hs : signature H d with
      | panic => exact sends_panic
      | err => exact sends_one h trivial
      | ok s =>
        refine sends_nil ⟨fun d' hd' => h.dss d' (by rw [hd]; exact hd'), fun x hx => ?_⟩
        rcases List.mem_append.1 hx with hx | hx
        · exact h.out x hx
        · rw [List.mem_singleton, Output.sig.injEq] at hx
          subst hx
          exact ⟨d, h.dss d hd, hs⟩

theorem dkg_keeps (id : String) (self : Int) (members : Nat) {P : Data K → Prop} (hP : KybFree P) :
    Keeps (dkgConf y id self members) P DkgTable :=
  ⟨fun s hs f hf u u' as hu e => (dkg_sends hP s hs).1 f hf u hu u' as e,
   fun s hs f hf u a u' as hu e _ _ => (dkg_sends hP s hs).2 f hf u a hu u' as e⟩

theorem dss_keeps (id : String) (self : Int) (members : Nat) :
    Keeps (dssConf y H SH env id self members) (Signing y H SH env) Table :=
  ⟨fun s hs f hf u u' as hu e => (dss_sends s hs).1 f hf u hu u' as e,
   fun s hs f hf u a u' as hu e _ _ => (dss_sends s hs).2 f hf u a hu u' as e⟩

theorem newData_signing (k : K) : Signing y H SH env (newData k) :=
  ⟨fun d hd => (by cases hd), fun s hs => (by cases hs)⟩

end Verif.Dkg
