import Verif.Model.Tables
import Verif.Props.Dkg
import Mathlib.Data.List.Induction

/-! Properties C52 (outputs) and C66 (documents). -/
namespace Verif.Props
open Verif.Tables

/-- Whether a call concerns the document of a guest and run. -/
def docKey (g : Int) (id : String) : DocOp → Prop
  | .register g' id' _ => g' = g ∧ id' = id
  | .deregister g' id' => g' = g ∧ id' = id

theorem docExec_append (d : Docs) (h1 h2 : List DocOp) : docExec d (h1 ++ h2) = docExec d h1 >>= fun d => docExec d h2 := by
  induction h1 generalizing d with
  | nil => rfl
  | cons op h1 ih =>
    rw [List.cons_append, docExec, docExec]
    cases docStep d op with
    | ok d' => exact ih d'
    | err => rfl
    | panic => rfl

theorem docStep_other {d d' : Docs} {op : DocOp} (h : docStep d op = .ok d') {g : Int} {id : String} (hk : ¬ docKey g id op) :
    docFor d' g id = docFor d g id := by
  have key : ∀ (g' : Int) (id' : String) (m m' : GoMap String Int), d.get? g' = some m → ¬ (g' = g ∧ id' = id) →
      (∀ i, i ≠ id' → m'.get? i = m.get? i) → docFor (d.set g' m') g id = docFor d g id := by
    intro g' id' m m' hm hne hs
    rw [docFor, docFor, GoMap.get?_set]
    by_cases hg : g' = g
    · subst hg
      rw [if_pos rfl, hm]
      exact hs id fun e => hne ⟨rfl, e.symm⟩
    · rw [if_neg hg]
  cases op with
  | register g' id' doc =>
    rw [docStep] at h
    cases hm : d.get? g' with
    | none => rw [hm] at h; cases h
    | some m =>
      rw [hm] at h
      rw [← Outcome.ok.inj h]
      exact key g' id' m _ hm hk fun i hi => by rw [GoMap.get?_set, if_neg (Ne.symm hi)]
  | deregister g' id' =>
    rw [docStep] at h
    cases hm : d.get? g' with
    | none => rw [hm] at h; rw [← Outcome.ok.inj h]
    | some m =>
      rw [hm] at h
      rw [← Outcome.ok.inj h]
      exact key g' id' m _ hm hk fun i hi => by rw [GoMap.get?_delete, if_neg (Ne.symm hi)]

theorem docExec_other {d d' : Docs} {h : List DocOp} (he : docExec d h = .ok d') {g : Int} {id : String}
    (hk : ∀ op ∈ h, ¬ docKey g id op) : docFor d' g id = docFor d g id := by
  induction h generalizing d with
  | nil => rw [← Outcome.ok.inj he]
  | cons op h ih =>
    rw [docExec, Outcome.bind_eq_ok] at he
    obtain ⟨d1, h1, h2⟩ := he
    rw [ih h2 fun op hop => hk op (by simp [hop]), docStep_other h1 (hk op (by simp))]

theorem dssInit_get (guests : List Int) (d : Docs) (g : Int) :
    (dssInit d guests).get? g = if g ∈ guests then some [] else d.get? g := by
  rw [dssInit]
  induction guests generalizing d with
  | nil => simp
  | cons g' gs ih =>
    rw [List.foldl_cons, ih, GoMap.get?_set]
    by_cases h1 : g ∈ gs
    · simp [h1]
    · by_cases h2 : g' = g
      · simp [h2]
      · have : ¬ g ∈ g' :: gs := by simp [h1, Ne.symm h2]
        rw [if_neg h1, if_neg h2, if_neg this]

/-- C66 (last registration). After any history in which a document was registered for a guest and run id, and after which the
calls concern other guests or run ids only, that document is the one the run gets. -/
theorem C66_last_registered (d0 d : Docs) (h1 h2 : List DocOp) (g : Int) (id : String) (doc : Int)
    (he : docExec d0 (h1 ++ .register g id doc :: h2) = .ok d) (hk : ∀ op ∈ h2, ¬ docKey g id op) :
    docFor d g id = some doc := by
  rw [docExec_append, Outcome.bind_eq_ok] at he
  obtain ⟨d1, _, h4⟩ := he
  rw [docExec, Outcome.bind_eq_ok] at h4
  obtain ⟨d2, h5, h6⟩ := h4
  rw [docExec_other h6 hk]
  rw [docStep] at h5
  cases hm : d1.get? g with
  | none => rw [hm] at h5; cases h5
  | some m =>
    rw [hm] at h5
    rw [← Outcome.ok.inj h5, docFor, GoMap.get?_set, if_pos rfl]
    exact (GoMap.get?_set m id doc id).trans (if_pos rfl)

/-- C66 (none). Without a registration since the start, or since the last deregistration, the run gets no document. -/
theorem C66_none (guests : List Int) (d : Docs) (h1 h2 : List DocOp) (g : Int) (id : String)
    (hk : ∀ op ∈ h2, ¬ docKey g id op) :
    (docExec (dssInit [] guests) h2 = .ok d → docFor d g id = none) ∧
    (docExec (dssInit [] guests) (h1 ++ .deregister g id :: h2) = .ok d → docFor d g id = none) := by
  refine ⟨fun he => ?_, fun he => ?_⟩
  · rw [docExec_other he hk, docFor, dssInit_get]
    by_cases h : g ∈ guests <;> simp [h]
  · rw [docExec_append, Outcome.bind_eq_ok] at he
    obtain ⟨d1, _, h4⟩ := he
    rw [docExec, Outcome.bind_eq_ok] at h4
    obtain ⟨d2, h5, h6⟩ := h4
    rw [docExec_other h6 hk]
    rw [docStep] at h5
    cases hm : d1.get? g with
    | none => rw [hm] at h5; rw [← Outcome.ok.inj h5, docFor, hm]; rfl
    | some m =>
      rw [hm] at h5
      rw [← Outcome.ok.inj h5, docFor, GoMap.get?_set, if_pos rfl]
      exact (GoMap.get?_delete m id id).trans (if_pos rfl)

/-- C66 (no failure). No history of calls for the guests of the node panics. -/
theorem C66_total (guests : List Int) (h : List DocOp) (hg : ∀ g id doc, .register g id doc ∈ h → g ∈ guests) :
    ∃ d, docExec (dssInit [] guests) h = .ok d := by
  have key : ∀ (h : List DocOp) (d : Docs), (∀ g id doc, .register g id doc ∈ h → g ∈ guests) →
      (∀ g ∈ guests, (d.get? g).isSome = true) → ∃ d', docExec d h = .ok d' := by
    intro h
    induction h with
    | nil => exact fun d _ _ => ⟨d, rfl⟩
    | cons op h ih =>
      intro d hg hd
      have hset : ∀ g' m, ∀ g ∈ guests, ((d.set g' m).get? g).isSome = true := by
        intro g' m g hgg
        rw [GoMap.get?_set]
        by_cases e : g' = g
        · rw [if_pos e]; rfl
        · rw [if_neg e]; exact hd g hgg
      have hg' : ∀ g id doc, DocOp.register g id doc ∈ h → g ∈ guests := fun g id doc hm => hg g id doc (by simp [hm])
      rw [docExec]
      cases op with
      | register g' id' doc =>
        obtain ⟨m, hm⟩ := Option.isSome_iff_exists.1 (hd g' (hg g' id' doc (by simp)))
        rw [docStep, hm]
        exact ih _ hg' (hset _ _)
      | deregister g' id' =>
        rw [docStep]
        cases hm : d.get? g' with
        | none => exact ih _ hg' hd
        | some m => exact ih _ hg' (hset _ _)
  refine key h _ hg fun g hgg => ?_
  rw [dssInit_get, if_pos hgg]; rfl

open Verif.Prot Verif.Dkg Verif.Dss in
/-- C66 (the run signs it). In any history of a signing run, the signer signs the document that `_doc_for` gave. -/
theorem C66_signs {K : Type} (y : Kyb K) (H : List UInt8 → List UInt8) (SH : Share → List UInt8) (env : Env) (id : String) (self : Int)
    (members : Nat) (k : K) (t0 : Int) (h : List (Ev Dto)) (r : Run Dto Obj (Data K))
    (hr : exec (dssConf y H SH env id self members) (newRun Dto Obj (newData k) t0) h = .ok r)
    (docs : Docs) (henv : env.doc = docFor docs self id) (d : DSS) (hd : r.user.dss = some d) :
    docFor docs self id = some d.msg := by
  obtain ⟨k', random, long', doc', q, d0, cs, h1, h2, h3, h4, rfl⟩ :=
    (track_exec (dss_keeps id self members) (newData_signing k) hr).user.dss d hd
  obtain ⟨_, _, _, _, _, _, _, _, f3, _⟩ := newDSS_fresh h4
  have hmsg : ∀ (cs : List Call) (d : DSS), (run H SH d cs).msg = d.msg := by
    intro cs
    induction cs with
    | nil => exact fun d => rfl
    | cons c cs ih =>
      intro d
      rw [run, List.foldl_cons]
      have := ih (Dss.step H SH d c)
      rw [run] at this
      rw [this]
      cases c with
      | partialSig n =>
        rw [Dss.step, partialSig]
        cases ownShare H d with
        | ok s => dsimp only; by_cases hs : d.signed = true <;> simp [hs]
        | err => rfl
        | panic => rfl
      | process ps => rw [Dss.step, C21_effect]; by_cases hs : (processPartialSig H SH d ps).2 = .ok () <;> simp [hs]
  rw [← henv, h3, hmsg, f3]

/-- Two guests with the same run id: each gets its own document, and a deregistration of one leaves the other. -/
example :
    let h := [.register 0 "a" 5, .register 1 "a" 6, .register 0 "b" 7, .register 0 "a" 8, DocOp.deregister 1 "a"]
    (docExec (dssInit [] [0, 1]) h >>= fun d => .ok (docFor d 0 "a", docFor d 0 "b", docFor d 1 "a")) =
      .ok (some 8, some 7, none) := by
  decide +kernel

/-! Outputs. -/

variable {V : Type}

/-- Whether a call concerns the output of a protocol, guest and run. -/
def outKey (pc g : Int) (id : String) : OutOp V → Prop
  | .push pc' g' id' _ => pc' = pc ∧ g' = g ∧ id' = id
  | .pop pc' g' id' => pc' = pc ∧ g' = g ∧ id' = id

/-- What a pop would return. -/
def waiting (o : Outputs V) (pc g : Int) (id : String) : Option V := (o.get? (pc, g)).bind fun m => m.get? id

theorem outExec_append {o o2 : Outputs V} {h1 h2 : List (OutOp V)} {vs : List (Option V)}
    (h : outExec o (h1 ++ h2) = .ok (o2, vs)) : ∃ o1 vs1 vs2, outExec o h1 = .ok (o1, vs1) ∧ outExec o1 h2 = .ok (o2, vs2) ∧
      vs = vs1 ++ vs2 := by
  induction h1 generalizing o vs with
  | nil => exact ⟨o, [], vs, rfl, h, rfl⟩
  | cons op h1 ih =>
    cases op with
    | push pc g id v =>
      rw [List.cons_append, outExec, Outcome.bind_eq_ok] at h
      obtain ⟨o', e1, e2⟩ := h
      obtain ⟨o1, vs1, vs2, f1, f2, f3⟩ := ih e2
      exact ⟨o1, vs1, vs2, by rw [outExec, e1]; exact f1, f2, f3⟩
    | pop pc g id =>
      rw [List.cons_append, outExec, Outcome.bind_eq_ok] at h
      obtain ⟨⟨o', v⟩, e1, e2⟩ := h
      dsimp only at e2
      rw [Outcome.bind_eq_ok] at e2
      obtain ⟨⟨o'', vs'⟩, e3, e4⟩ := e2
      have e5 := Outcome.ok.inj e4
      injection e5 with e6 e7
      subst e6; subst e7
      obtain ⟨o1, vs1, vs2, f1, f2, f3⟩ := ih e3
      exact ⟨o1, v :: vs1, vs2, by rw [outExec, e1]; dsimp only [Outcome.bind_ok]; rw [f1]; rfl, f2, by rw [f3]; rfl⟩

theorem set_waiting (o : Outputs V) (pc' g' pc g : Int) (id' id : String) (m m' : GoMap String V)
    (hm : o.get? (pc', g') = some m) (hs : ∀ i, i ≠ id' → m'.get? i = m.get? i) :
    waiting (o.set (pc', g') m') pc g id = if pc' = pc ∧ g' = g ∧ id' = id then m'.get? id else waiting o pc g id := by
  rw [waiting, waiting, GoMap.get?_set]
  by_cases hk : pc' = pc ∧ g' = g ∧ id' = id
  · obtain ⟨rfl, rfl, rfl⟩ := hk
    simp
  · rw [if_neg hk]
    by_cases he : (pc', g') = (pc, g)
    · rw [if_pos he]
      injection he with e1 e2
      subst e1; subst e2
      rw [hm]
      exact hs id fun e => hk ⟨rfl, rfl, e.symm⟩
    · rw [if_neg he]

theorem push_waiting {o o' : Outputs V} {pc' g' : Int} {id' : String} {v : V} (h : pushOutput o pc' g' id' v = .ok o')
    (pc g : Int) (id : String) :
    waiting o' pc g id = if pc' = pc ∧ g' = g ∧ id' = id then some v else waiting o pc g id := by
  rw [pushOutput] at h
  cases hm : o.get? (pc', g') with
  | none => rw [hm] at h; cases h
  | some m =>
    rw [hm] at h
    rw [← Outcome.ok.inj h, set_waiting o pc' g' pc g id' id m _ hm fun i hi => by rw [GoMap.get?_set, if_neg (Ne.symm hi)]]
    by_cases hk : pc' = pc ∧ g' = g ∧ id' = id
    · rw [if_pos hk, if_pos hk, GoMap.get?_set, if_pos hk.2.2]
    · rw [if_neg hk, if_neg hk]

theorem pop_waiting {o o' : Outputs V} {pc' g' : Int} {id' : String} {v : Option V}
    (h : popOutput o pc' g' id' = .ok (o', v)) (pc g : Int) (id : String) :
    v = waiting o pc' g' id' ∧ waiting o' pc g id = if pc' = pc ∧ g' = g ∧ id' = id then none else waiting o pc g id := by
  rw [popOutput] at h
  cases hm : o.get? (pc', g') with
  | none => rw [hm] at h; cases h
  | some m =>
    rw [hm] at h
    have e := Outcome.ok.inj h
    injection e with e1 e2
    refine ⟨by rw [← e2, waiting, hm]; rfl, ?_⟩
    rw [← e1, set_waiting o pc' g' pc g id' id m _ hm fun i hi => by rw [GoMap.get?_delete, if_neg (Ne.symm hi)]]
    by_cases hk : pc' = pc ∧ g' = g ∧ id' = id
    · rw [if_pos hk, if_pos hk, GoMap.get?_delete, if_pos hk.2.2]
    · rw [if_neg hk, if_neg hk]

theorem outExec_other {o o' : Outputs V} {h : List (OutOp V)} {vs : List (Option V)} (he : outExec o h = .ok (o', vs))
    {pc g : Int} {id : String} (hk : ∀ op ∈ h, ¬ outKey pc g id op) : waiting o' pc g id = waiting o pc g id := by
  induction h generalizing o vs with
  | nil =>
    have e := Outcome.ok.inj he
    injection e with e1 e2
    rw [e1]
  | cons op h ih =>
    have hk' : ∀ op ∈ h, ¬ outKey pc g id op := fun op hop => hk op (by simp [hop])
    have hop := hk op (by simp)
    cases op with
    | push pc' g' id' v =>
      rw [outExec, Outcome.bind_eq_ok] at he
      obtain ⟨o1, e1, e2⟩ := he
      rw [ih e2 hk', push_waiting e1]; exact if_neg hop
    | pop pc' g' id' =>
      rw [outExec, Outcome.bind_eq_ok] at he
      obtain ⟨⟨o1, v⟩, e1, e2⟩ := he
      dsimp only at e2
      rw [Outcome.bind_eq_ok] at e2
      obtain ⟨⟨o2, vs'⟩, e3, e4⟩ := e2
      have e5 := Outcome.ok.inj e4
      injection e5 with e6 e7
      subst e6
      rw [ih e3 hk', (pop_waiting e1 pc g id).2]; exact if_neg hop

/-- C52 (most recent push). A pop returns the value pushed last for exactly this protocol, guest and run id, when nothing was
pushed or popped for them in between, whatever happened before and for others. -/
theorem C52_last_pushed (o o' : Outputs V) (h1 h2 : List (OutOp V)) (pc g : Int) (id : String) (v : V) (vs : List (Option V))
    (he : outExec o (h1 ++ .push pc g id v :: h2 ++ [.pop pc g id]) = .ok (o', vs)) (hk : ∀ op ∈ h2, ¬ outKey pc g id op) :
    ∃ vs', vs = vs' ++ [some v] := by
  obtain ⟨o1, vs1, vs2, e1, e2, e3⟩ := outExec_append he
  obtain ⟨o2, vs3, vs4, e4, e5, e6⟩ := outExec_append e1
  rw [outExec, Outcome.bind_eq_ok] at e5
  obtain ⟨o3, e7, e8⟩ := e5
  have hw := outExec_other e8 hk
  rw [push_waiting e7, if_pos ⟨rfl, rfl, rfl⟩] at hw
  rw [outExec, Outcome.bind_eq_ok] at e2
  obtain ⟨⟨o4, w⟩, f1, f2⟩ := e2
  dsimp only at f2
  have hp := (pop_waiting f1 pc g id).1
  rw [hw] at hp
  rw [Outcome.bind_eq_ok] at f2
  obtain ⟨⟨o5, ws⟩, f3, f4⟩ := f2
  have f5 := Outcome.ok.inj f3
  injection f5 with f6 f7
  have f8 := Outcome.ok.inj f4
  injection f8 with f9 f10
  exact ⟨vs1, by rw [e3, ← f10, ← f7, hp]⟩

/-- C52 (once). A second pop without another push for the same protocol, guest and run id returns nothing. -/
theorem C52_once (o o' : Outputs V) (h1 h2 : List (OutOp V)) (pc g : Int) (id : String) (vs : List (Option V))
    (he : outExec o (h1 ++ .pop pc g id :: h2 ++ [.pop pc g id]) = .ok (o', vs)) (hk : ∀ v, .push pc g id v ∉ h2) :
    ∃ vs', vs = vs' ++ [none] := by
  obtain ⟨o1, vs1, vs2, e1, e2, e3⟩ := outExec_append he
  obtain ⟨o2, vs3, vs4, e4, e5, e6⟩ := outExec_append e1
  rw [outExec, Outcome.bind_eq_ok] at e5
  obtain ⟨⟨o3, w3⟩, e7, e8⟩ := e5
  dsimp only at e8
  rw [Outcome.bind_eq_ok] at e8
  obtain ⟨⟨o6, w6⟩, e9, e10⟩ := e8
  have e11 := Outcome.ok.inj e10
  injection e11 with e12 e13
  subst e12
  have h0 : waiting o3 pc g id = none := by rw [(pop_waiting e7 pc g id).2, if_pos ⟨rfl, rfl, rfl⟩]
  have key : ∀ (h : List (OutOp V)) (o o' : Outputs V) (vs : List (Option V)), outExec o h = .ok (o', vs) →
      (∀ v, .push pc g id v ∉ h) → waiting o pc g id = none → waiting o' pc g id = none := by
    intro h
    induction h with
    | nil =>
      intro o o' vs he _ hw
      have e := Outcome.ok.inj he
      injection e with e1 e2
      rw [← e1]; exact hw
    | cons op h ih =>
      intro o o' vs he hn hw
      have hn' : ∀ v, OutOp.push pc g id v ∉ h := fun v hv => hn v (by simp [hv])
      cases op with
      | push pc' g' id' v =>
        rw [outExec, Outcome.bind_eq_ok] at he
        obtain ⟨o1, e1, e2⟩ := he
        refine ih _ _ _ e2 hn' ?_
        rw [push_waiting e1, if_neg, hw]
        rintro ⟨rfl, rfl, rfl⟩
        exact hn v (by simp)
      | pop pc' g' id' =>
        rw [outExec, Outcome.bind_eq_ok] at he
        obtain ⟨⟨o1, v⟩, e1, e2⟩ := he
        dsimp only at e2
        rw [Outcome.bind_eq_ok] at e2
        obtain ⟨⟨o2, vs'⟩, e3, e4⟩ := e2
        have e5 := Outcome.ok.inj e4
        injection e5 with e6 e7
        subst e6
        refine ih _ _ _ e3 hn' ?_
        rw [(pop_waiting e1 pc g id).2, hw, ite_self]
  have hw := key h2 o3 o6 w6 e9 hk h0
  rw [outExec, Outcome.bind_eq_ok] at e2
  obtain ⟨⟨o4, w⟩, f1, f2⟩ := e2
  dsimp only at f2
  have hp := (pop_waiting f1 pc g id).1
  rw [hw] at hp
  rw [Outcome.bind_eq_ok] at f2
  obtain ⟨⟨o5, ws⟩, f3, f4⟩ := f2
  have f5 := Outcome.ok.inj f3
  injection f5 with f6 f7
  have f8 := Outcome.ok.inj f4
  injection f8 with f9 f10
  exact ⟨vs1, by rw [e3, ← f10, ← f7, hp]⟩

/-- Outputs for two protocols, two guests and two run ids do not mix, and each is delivered once. -/
example :
    (outExec (initOutputs Nat 2 [0, 1]) [.push 0 0 "a" 1, .push 1 0 "a" 2, .push 0 1 "a" 3, .push 0 0 "b" 4, .push 0 0 "a" 5,
      .pop 0 0 "a", .pop 0 0 "a", .pop 1 0 "a", .pop 0 1 "a", .pop 0 0 "b", .pop 0 1 "b"] >>= fun x => .ok x.2) =
      .ok [some 5, none, some 2, some 3, some 4, none] := by
  decide +kernel

end Verif.Props
