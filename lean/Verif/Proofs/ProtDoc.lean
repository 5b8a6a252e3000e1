import Verif.Proofs.Dkg

/-! Receiving a message does not involve the steps of a protocol, and what the stages of the signing protocol do to the outputs. -/
namespace Verif.Prot
variable {D A U : Type}

/-- A stage without its step. -/
def Stage.noStep (s : Stage D A U) : Stage D A U := { s with step := none }

/-- A protocol without its steps. -/
def Conf.noSteps (c : Conf D A U) : Conf D A U := { c with stages := c.stages.map Stage.noStep }

theorem noSteps_stage (c : Conf D A U) (n : Int) : c.noSteps.stage? n = (c.stage? n).map Stage.noStep := by
  rw [Conf.stage?, Conf.stage?, Conf.noSteps]
  by_cases h : n < 0
  · rw [if_pos h, if_pos h]; rfl
  · rw [if_neg h, if_neg h, List.getElem?_map]

theorem noSteps_process (c : Conf D A U) (r : Run D A U) (m : Message D) : processMsg c.noSteps r m = processMsg c r m := by
  rw [processMsg, processMsg, noSteps_stage]
  cases c.stage? m.op <;> rfl

theorem noSteps_receive (c : Conf D A U) (r : Run D A U) (m : Message D) : receive c.noSteps r m = receive c r m := by
  rw [receive, receive]
  dsimp only
  rw [noSteps_process]

/-- The clock and messages are independent of the steps. -/
theorem exec_msg_congr {c c' : Conf D A U} (h : c.noSteps = c'.noSteps) (r : Run D A U) (t : Int) (m : Message D) :
    exec c r [.tick t, .msg m] = exec c' r [.tick t, .msg m] := by
  have key : ∀ r : Run D A U, step c r (.msg m) = step c' r (.msg m) := by
    intro r
    rw [step, step, ← noSteps_receive c, ← noSteps_receive c', h]
  have kt : step c r (.tick t) = step c' r (.tick t) := rfl
  rw [exec, exec, kt]
  cases step c' r (.tick t) with
  | panic => rfl
  | err => rfl
  | ok r1 =>
    rw [Outcome.bind_ok, Outcome.bind_ok, exec, exec, key]
    rfl

/-- What the processors preserve is preserved by messages. -/
theorem track_msg {c : Conf D A U} {P : U → Prop}
    (hp : ∀ s ∈ c.stages, ∀ f, s.proc = some f → ∀ u a u' as, P u → f u a = .ok (u', as) → P u')
    {r r' : Run D A U} {t : Int} {m : Message D} (hr : P r.user) (h : exec c r [.tick t, .msg m] = .ok r') : P r'.user := by
  have e : c.noSteps = c.noSteps.noSteps := by
    simp only [Conf.noSteps, List.map_map]
    rfl
  rw [exec_msg_congr e] at h
  have k : Keeps c.noSteps P (fun _ _ => True) := by
    refine ⟨fun s hs f hf => ?_, fun s hs f hf u a u' as hu e _ _ => ⟨?_, fun a _ => ?_⟩⟩
    · obtain ⟨s', _, rfl⟩ := List.mem_map.1 hs
      cases hf
    · obtain ⟨s', h1, rfl⟩ := List.mem_map.1 hs
      exact hp s' h1 f hf u a u' as hu e
    · cases a <;> trivial
  have t0 : Track P (fun _ _ => True) r := ⟨hr, fun _ _ => trivial⟩
  rw [exec, Outcome.bind_eq_ok] at h
  obtain ⟨r1, h1, h⟩ := h
  rw [exec, Outcome.bind_eq_ok] at h
  obtain ⟨r2, h2, h⟩ := h
  rw [exec] at h
  rw [← Outcome.ok.inj h]
  exact (track_step k (track_step k t0 h1) h2).user

end Verif.Prot

namespace Verif.Dkg
open Verif.Prot Verif.Dto Verif.Dss Verif.Props
variable {K : Type} {y : Kyb K} {H : List UInt8 → List UInt8} {SH : Share → List UInt8}

theorem dss_noSteps (env env' : Env) (id : String) (self : Int) (n : Nat) :
    (dssConf y H SH env id self n).noSteps = (dssConf y H SH env' id self n).noSteps := by
  simp only [Conf.noSteps, dssConf, dssStages, List.map_append, List.map_cons, List.map_nil, psStep, psProc, Stage.noStep]

/-- A property of data that depends only on the outputs, and survives further ones. -/
theorem outFree (P : List Output → Prop) (hP : ∀ l x, P l → P (l ++ [x])) : KybFree (K := K) fun u => P u.out :=
  ⟨fun _ _ h => h, fun _ _ h => h, fun _ _ _ h => hP _ _ h⟩

/-- The steps of the signing protocol only add outputs. -/
theorem dss_grow (env : Env) (id : String) (self : Int) (n : Nat) (out : List Output) :
    Keeps (dssConf y H SH env id self n) (fun u => out <+: u.out) (fun _ _ => True) := by
  have hP : ∀ (l : List Output) (x : Output), out <+: l → out <+: l ++ [x] := fun l x h => h.trans (List.prefix_append l [x])
  have ht : ∀ a : Act Dto, ActOk (fun _ _ => True) a := fun a => by cases a <;> trivial
  suffices h : ∀ s ∈ dssStages y H SH env, (∀ f, s.step = some f → ∀ u : Data K, out <+: u.out → Sends (fun _ _ => True) (fun u => out <+: u.out) (f u)) ∧
      (∀ f, s.proc = some f → ∀ (u : Data K) a, out <+: u.out → Sends (fun _ _ => True) (fun u => out <+: u.out) (f u a)) from
    ⟨fun s hs f hf u u' as hu e => (h s hs).1 f hf u hu u' as e, fun s hs f hf u a u' as hu e _ _ => (h s hs).2 f hf u a hu u' as e⟩
  intro s hs
  rw [dssStages, List.mem_append] at hs
  rcases hs with hs | hs
  · have := dkg_sends (y := y) (outFree _ hP) s hs
    exact ⟨fun f hf u hu u' as e => ⟨(this.1 f hf u hu u' as e).1, fun a _ => ht a⟩,
      fun f hf u a hu u' as e => ⟨(this.2 f hf u a hu u' as e).1, fun a _ => ht a⟩⟩
  simp only [List.mem_cons, List.not_mem_nil, or_false] at hs
  rcases hs with rfl | rfl | rfl
  all_goals refine ⟨?_, ?_⟩
  all_goals (intro f hf u; simp only [psStep, psProc, Option.some.injEq, reduceCtorEq] at hf)
  all_goals subst hf
  · intro h
    rw [stInit]
    cases hd : y.distKeyShare u.kyb with
    | panic => exact sends_panic
    | err => exact sends_one h trivial
    | ok random =>
      dsimp only
      cases hl : env.long with
      | none => exact sends_panic
      | some long =>
        cases hdoc : env.doc with
        | none => exact sends_panic
        | some doc =>
          dsimp only
          cases hn : newDSS H ⟨env.secret, env.participants, long, random, y.qual u.kyb, doc, env.threshold⟩ with
          | panic => exact sends_panic
          | err => exact sends_one h trivial
          | ok d => exact sends_nil h
  · intro h
    rw [stPartsig.eq_def]
    cases hd : u.dss with
    | none => exact sends_panic
    | some d =>
      dsimp only
      cases hp : (partialSig H SH env.nonce d).2 with
      | panic => exact sends_panic
      | err => exact sends_one h trivial
      | ok sig => exact sends_bind h fun as e a _ => ht a
  · intro a h
    cases a with
    | partsig ps =>
      rw [prPartsig]
      cases hd : u.dss with
      | none => exact sends_panic
      | some d =>
        dsimp only
        cases hp : (processPartialSig H SH d ps).2 with
        | panic => exact sends_panic
        | err => exact sends_nil h
        | ok _ => exact sends_nil h
    | _ => exact sends_panic
  · intro h
    rw [dssStFinal]
    cases hd : u.dss with
    | none => exact sends_panic
    | some d =>
      dsimp only
      by_cases he : (!enoughPartialSig d) = true
      · rw [if_pos he]; exact sends_one h trivial
      rw [if_neg he]
      cases hs : signature H d with
      | panic => exact sends_panic
      | err => exact sends_one h trivial
      | ok s => exact sends_nil (hP _ _ h)

/-- The processors of the signing protocol leave the outputs alone. -/
theorem dss_proc_out (env : Env) (s : Stage Dto Obj (Data K)) (hs : s ∈ dssStages y H SH env)
    (f : Data K → Obj → Outcome (Data K × List (Act Dto))) (hf : s.proc = some f) (u : Data K) (a : Obj) (u' : Data K)
    (as : List (Act Dto)) (e : f u a = .ok (u', as)) : u'.out = u.out := by
  suffices h : Sends (fun _ _ => True) (fun v => v.out = u.out) (f u a) from (h u' as e).1
  have h : u.out = u.out := rfl
  have ht : ∀ a : Act Dto, ActOk (fun _ _ => True) a := fun a => by cases a <;> trivial
  rw [dssStages, List.mem_append, dkgStages] at hs
  simp only [List.mem_cons, List.not_mem_nil, or_false] at hs
  rcases hs with (rfl | rfl | rfl | rfl | rfl | rfl | rfl | rfl | rfl) | rfl | rfl | rfl
  all_goals simp only [psStep, psProc, Option.some.injEq, reduceCtorEq] at hf
  all_goals subst hf
  · cases a with
    | deal d =>
      rw [processDeal]
      cases hd : (y.processDeal u.kyb d).2 with
      | panic => exact sends_panic
      | err => exact sends_nil h
      | ok r => cases r with
        | none => exact sends_nil h
        | some r => exact sends_one h trivial
    | _ => exact sends_panic
  · cases a with
    | response r =>
      rw [processResponse]
      cases hd : (y.processResponse u.kyb r).2 with
      | panic => exact sends_panic
      | err => exact sends_nil h
      | ok j => cases j with
        | none => exact sends_nil h
        | some j =>
          dsimp only
          cases hj : justificationToDto j with
          | panic => exact sends_panic
          | err => exact sends_nil h
          | ok dto => exact sends_one h trivial
    | _ => exact sends_panic
  · cases a with
    | justification j =>
      rw [processJustification]
      cases hd : (y.processJustification u.kyb j).2 with
      | panic => exact sends_panic
      | err => exact sends_nil h
      | ok r => exact sends_nil h
    | _ => exact sends_panic
  · cases a with
    | commits c =>
      rw [processCommits]
      cases hd : (y.processSecretCommits u.kyb c).2 with
      | panic => exact sends_panic
      | err => exact sends_nil h
      | ok r => cases r with
        | none => exact sends_nil h
        | some r => exact sends_bind h fun as e a _ => ht a
    | _ => exact sends_panic
  · cases a with
    | complCommits c =>
      rw [processComplCommits]
      cases hd : (y.processComplaintCommits u.kyb c).2 with
      | panic => exact sends_panic
      | err => exact sends_nil h
      | ok r => cases r with
        | none => exact sends_nil h
        | some r => exact sends_bind h fun as e a _ => ht a
    | _ => exact sends_panic
  · cases a with
    | reconsCommits r =>
      rw [processReconsCommits]
      cases hd : (y.processReconstructCommits u.kyb r).2 with
      | panic => exact sends_panic
      | err => exact sends_nil h
      | ok r => exact sends_nil h
    | _ => exact sends_panic
  · cases a with
    | partsig ps =>
      rw [prPartsig]
      cases hd : u.dss with
      | none => exact sends_panic
      | some d =>
        dsimp only
        cases hp : (processPartialSig H SH d ps).2 with
        | panic => exact sends_panic
        | err => exact sends_nil h
        | ok _ => exact sends_nil h
    | _ => exact sends_panic

/-- A message leaves the outputs alone. -/
theorem dss_msg_out {env : Env} {id : String} {self : Int} {n : Nat} {r r' : Run Dto Obj (Data K)} {t : Int} {m : Message Dto}
    (h : exec (dssConf y H SH env id self n) r [.tick t, .msg m] = .ok r') : r'.user.out = r.user.out :=
  track_msg (P := fun u => u.out = r.user.out)
    (fun s hs f hf u a u' as hu e => (dss_proc_out env s hs f hf u a u' as e).trans hu) rfl h

/-- The stepping thread only adds outputs. -/
theorem dss_thread_out {env : Env} {id : String} {self : Int} {n : Nat} {r r' : Run Dto Obj (Data K)} {es : List (Prot.Ev Dto)}
    (h : exec (dssConf y H SH env id self n) r es = .ok r') : r.user.out <+: r'.user.out := by
  have key : ∀ (es : List (Prot.Ev Dto)) (r1 : Run Dto Obj (Data K)), r.user.out <+: r1.user.out →
      exec (dssConf y H SH env id self n) r1 es = .ok r' → r.user.out <+: r'.user.out := by
    intro es
    induction es with
    | nil => intro r1 h1 h; rw [exec] at h; rw [← Outcome.ok.inj h]; exact h1
    | cons e es ih =>
      intro r1 h1 h
      rw [exec, Outcome.bind_eq_ok] at h
      obtain ⟨r2, h2, h⟩ := h
      exact ih r2 (track_step (dss_grow env id self n r.user.out) ⟨h1, fun _ _ => trivial⟩ h2).user h
  exact key es r (List.prefix_refl _) h

end Verif.Dkg
