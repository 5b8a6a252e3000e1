import Verif.Proofs.ProtStage
import Verif.Proofs.ProtLog
import Verif.Proofs.Generation

/-!
A run asks its generator for the share of the key in one state only. So it is also a run of the generator that gives a share in
no other state.
-/
namespace Verif.Prot
open Verif.Spec.Prot
variable {D A U : Type}

/-- A run passes through all stages up to the one it is in. -/
theorem passes {c : Conf D A U} {u : U} {t0 : Int} {h : List (Ev D)} {r : Run D A U} (hr : exec c (newRun D A u t0) h = .ok r) {n : Int} (h0 : -1 ≤ n)
    (hn : n ≤ r.state) : ∃ h1 h2 r1, exec c (newRun D A u t0) h1 = .ok r1 ∧ exec c r1 h2 = .ok r ∧ r1.state = n ∧ r1.log <+: r.log := by
  induction h using List.reverseRecOn generalizing r with
  | nil =>
    have e := hr
    rw [exec] at e
    rw [← Outcome.ok.inj e] at hn ⊢
    have : n = -1 := by have : n ≤ -1 := hn; omega
    exact ⟨[], [], _, rfl, rfl, this.symm, List.prefix_refl _⟩
  | append_singleton h e ih =>
    by_cases he : r.state = n
    · exact ⟨_, [], r, hr, rfl, he, List.prefix_refl _⟩
    obtain ⟨q, e1, e2⟩ := exec_snoc hr
    have := (stays_step (J := fun _ _ => True) ⟨fun _ _ _ => trivial, fun _ _ _ _ _ _ _ _ _ _ => trivial, fun _ _ _ _ _ _ _ _ _ _ _ => trivial⟩
      (agree_exec e1).inv trivial e2).2
    obtain ⟨h1, h2, r1, g1, g2, g3, g4⟩ := ih e1 (by omega)
    exact ⟨h1, h2 ++ [e], r1, g1, by rw [exec_append, g2]; show exec c q [e] = _; rw [exec, e2]; rfl, g3, g4.trans (step_log e2)⟩

/-- Each stage of `c'` is that of `c` with another step, which does the same to the data allowed there. -/
def Alike (c : Conf D A U) (st : List (Stage D A U)) (P : Int → U → Prop) : Prop :=
  st.length = c.stages.length ∧ ∀ n s, c.stage? n = some s → ∃ t, ({ c with stages := st } : Conf D A U).stage? n = some { s with step := t } ∧
    ∀ u, P n u → t.map (fun f => f u) = s.step.map (fun f => f u)

section
variable {c : Conf D A U} {st : List (Stage D A U)} {P : Int → U → Prop}

theorem alike_processMsg (ha : Alike c st P) {r r' : Run D A U} {m : Message D} (h : processMsg c r m = .ok r') :
    processMsg { c with stages := st } r m = .ok r' := by
  rw [← h, processMsg, processMsg]
  dsimp only
  by_cases hb : r.abandon = true
  · rw [if_pos hb, if_pos hb]
  rw [if_neg hb, if_neg hb]
  cases hs : c.stage? m.op with
  | none =>
    rw [processMsg] at h
    dsimp only at h
    rw [if_neg hb, hs] at h
    cases h
  | some s =>
    obtain ⟨t, h1, _⟩ := ha.2 _ s hs
    rw [h1]
    rfl

theorem alike_processAll (ha : Alike c st P) (ms : List (Message D)) {r r' : Run D A U} (h : processAll c r ms = .ok r') :
    processAll { c with stages := st } r ms = .ok r' := by
  induction ms generalizing r with
  | nil => exact h
  | cons m ms ih =>
    rw [processAll, Outcome.bind_eq_ok] at h ⊢
    obtain ⟨r1, h1, h2⟩ := h
    exact ⟨r1, alike_processMsg ha h1, ih h2⟩

theorem alike_callStep {s : Stage D A U} {t : Option (U → Outcome (U × List (Act D)))} {r : Run D A U}
    (ht : t.map (fun f => f r.user) = s.step.map (fun f => f r.user)) :
    callStep { c with stages := st } r { s with step := t } = callStep c r s := by
  rw [callStep, callStep]
  dsimp only
  by_cases hb : r.abandon = true
  · rw [if_pos hb, if_pos hb]
  rw [if_neg hb, if_neg hb]
  cases hs : s.step with
  | none =>
    rw [hs] at ht
    cases t with
    | none => rfl
    | some f => cases ht
  | some f =>
    rw [hs] at ht
    cases t with
    | none => cases ht
    | some f' =>
      dsimp only
      rw [show f' r.user = f r.user from Option.some.inj ht]
      rfl

theorem callStep_gone {r : Run D A U} (s : Stage D A U) (h : r.abandon = true) : callStep c r s = .ok r := by
  rw [callStep, if_pos h]

theorem alike_enterStage (ha : Alike c st P) {r r' : Run D A U} (hP : r.abandon = false → P (r.state + 1) r.user) (h : enterStage c r = .ok r') :
    enterStage { c with stages := st } r = .ok r' := by
  rw [enterStage] at h ⊢
  dsimp only at h ⊢
  cases hs : c.stage? (r.state + 1) with
  | none => rw [hs] at h; cases h
  | some s =>
  obtain ⟨t, h1, h2⟩ := ha.2 _ s hs
  rw [hs] at h
  rw [h1]
  dsimp only at h ⊢
  rw [Outcome.bind_eq_ok] at h ⊢
  obtain ⟨q, h3, h⟩ := h
  refine ⟨q, ?_, ?_⟩
  · rw [← h3]
    by_cases hb : r.abandon = true
    · refine Eq.trans (callStep_gone (r := flushSndBuf { r with state := r.state + 1, deadline := r.deadline + s.timeout, log := r.log ++ [.entered (r.state + 1)] })
        _ hb) (callStep_gone (r := flushSndBuf { r with state := r.state + 1, deadline := r.deadline + s.timeout, log := r.log ++ [.entered (r.state + 1)] }) _ hb).symm
    · exact alike_callStep (h2 _ (hP (by simpa using hb)))
  · rw [Outcome.bind_eq_ok] at h ⊢
    obtain ⟨q', h4, h⟩ := h
    exact ⟨q', alike_processAll ha _ h4, h⟩

/-- What is in `r` when it enters a stage. -/
def Enters (c : Conf D A U) (r r' : Run D A U) : Prop :=
  ∃ q : Run D A U, q.user = r.user ∧ q.state = r.state ∧ q.rcvbuf = r.rcvbuf ∧ enterStage c q = .ok r'

/-- A step that is legal in one run is legal in the other, if the data is allowed in a stage that is entered by it. -/
theorem alike_step (ha : Alike c st P) {r r' : Run D A U} {e : Ev D} (hP : Enters c r r' → P (r.state + 1) r.user)
    (h : step c r e = .ok r') : step { c with stages := st } r e = .ok r' := by
  have ent : ∀ q : Run D A U, q.state = r.state → q.user = r.user → q.rcvbuf = r.rcvbuf →
      enterStage c q = .ok r' → enterStage { c with stages := st } q = .ok r' := by
    intro q e2 e3 e4 he
    refine alike_enterStage ha (fun _ => ?_) he
    rw [e2, e3]
    exact hP ⟨q, e3, e2, e4, he⟩
  have top : loopTop c r = .ok r' → loopTop { c with stages := st } r = .ok r' := by
    intro h
    rw [loopTop] at h ⊢
    dsimp only
    rw [ha.1]
    by_cases g1 : r.state < (c.stages.length : Int) - 1
    · rw [if_pos g1] at h ⊢
      by_cases g2 : r.state > -1
      · rw [if_pos g2] at h ⊢; exact h
      · rw [if_neg g2] at h ⊢
        exact ent r rfl rfl rfl h
    · rw [if_neg g1] at h ⊢; exact h
  cases e with
  | tick t => exact h
  | thread =>
    rw [step, thread] at h ⊢
    cases hp : r.phase with
    | fresh => rw [hp] at h; exact h
    | started => rw [hp] at h; exact top h
    | staged =>
      rw [hp] at h
      dsimp only at h ⊢
      by_cases hd : r.deadline ≤ r.now
      · rw [if_pos hd] at h ⊢; exact top h
      · rw [if_neg hd] at h; cases h
    | pausing =>
      rw [hp] at h
      dsimp only at h ⊢
      by_cases hd : r.pauseEnd ≤ r.now
      · rw [if_pos hd] at h ⊢
        exact ent _ rfl rfl rfl h
      · rw [if_neg hd] at h; cases h
    | done => rw [hp] at h; cases h
  | msg m =>
    rw [step, receive] at h ⊢
    dsimp only at h ⊢
    by_cases g1 : (m.op < r.state || (decide (m.op = r.state) && r.paused)) = true
    · rw [if_pos g1] at h ⊢; exact h
    rw [if_neg g1] at h ⊢
    by_cases g2 : m.op > r.state
    · rw [if_pos g2] at h ⊢; exact h
    rw [if_neg g2] at h ⊢
    exact alike_processMsg ha h

end
end Verif.Prot

namespace Verif.Dkg
open Verif.Prot Verif.Spec.Prot Verif.Dto Verif.Dss Verif.Generation
variable {K : Type}

open Classical in
/-- The generator that gives shares in no state but `k`. -/
noncomputable def pin (y : Kyb K) (k : K) : Kyb K := { y with distKeyShare := fun k' => if k' = k then y.distKeyShare k' else .panic }

theorem pin_at (y : Kyb K) (k : K) : (pin y k).distKeyShare k = y.distKeyShare k := by
  rw [pin]; exact if_pos rfl

theorem pin_only {y : Kyb K} {k k' : K} (h : (pin y k).distKeyShare k' ≠ .panic) : k' = k := by
  by_contra hc
  exact h (by rw [pin]; exact if_neg hc)

variable {H : List UInt8 → List UInt8} {SH : Share → List UInt8}

theorem pin_alike (y : Kyb K) (k : K) (env : Env) (id : String) (self : Int) (n : Nat) :
    Alike (dssConf y H SH env id self n) (dssConf (pin y k) H SH env id self n).stages (fun n u => n = 8 ∨ n = 9 → u.kyb = k) := by
  refine ⟨rfl, fun n' s h => ?_⟩
  obtain ⟨h0, h1⟩ := stage?_some h
  have go : ∀ t, (dssConf (pin y k) H SH env id self n).stages[n'.toNat]? = some { s with step := t } →
      ({ dssConf y H SH env id self n with stages := (dssConf (pin y k) H SH env id self n).stages } : Conf Dto Obj (Data K)).stage? n' =
        some { s with step := t } := by
    intro t ht
    rw [Conf.stage?, if_neg (by omega)]
    exact ht
  generalize hm : n'.toNat = m at *
  match m, h1 with
  | 0, h1 => rw [← Option.some.inj h1] at go ⊢; exact ⟨_, go _ rfl, fun _ _ => rfl⟩
  | 1, h1 => rw [← Option.some.inj h1] at go ⊢; exact ⟨_, go _ rfl, fun _ _ => rfl⟩
  | 2, h1 => rw [← Option.some.inj h1] at go ⊢; exact ⟨_, go _ rfl, fun _ _ => rfl⟩
  | 3, h1 => rw [← Option.some.inj h1] at go ⊢; exact ⟨_, go _ rfl, fun _ _ => rfl⟩
  | 4, h1 => rw [← Option.some.inj h1] at go ⊢; exact ⟨_, go _ rfl, fun _ _ => rfl⟩
  | 5, h1 => rw [← Option.some.inj h1] at go ⊢; exact ⟨_, go _ rfl, fun _ _ => rfl⟩
  | 6, h1 => rw [← Option.some.inj h1] at go ⊢; exact ⟨_, go _ rfl, fun _ _ => rfl⟩
  | 7, h1 => rw [← Option.some.inj h1] at go ⊢; exact ⟨_, go _ rfl, fun _ _ => rfl⟩
  | 8, h1 =>
    rw [← Option.some.inj h1] at go ⊢
    refine ⟨_, go _ rfl, fun u hu => ?_⟩
    have hu : u.kyb = k := hu (by omega)
    subst hu
    show some (stepFinal (pin y u.kyb) u) = some (stepFinal y u)
    rw [stepFinal, stepFinal, pin_at]
    rfl
  | 9, h1 =>
    rw [← Option.some.inj h1] at go ⊢
    refine ⟨_, go _ rfl, fun u hu => ?_⟩
    have hu : u.kyb = k := hu (by omega)
    subst hu
    show some (stInit (pin y u.kyb) H env u) = some (stInit y H env u)
    rw [stInit, stInit, pin_at]
    rfl
  | 10, h1 => rw [← Option.some.inj h1] at go ⊢; exact ⟨_, go _ rfl, fun _ _ => rfl⟩
  | 11, h1 => rw [← Option.some.inj h1] at go ⊢; exact ⟨_, go _ rfl, fun _ _ => rfl⟩
  | m + 12, h1 => simp [dssConf, dssStages, dkgStages] at h1

theorem orPanic_ok' {T : Type} {x : Outcome T} {v : T} (h : x.orPanic = .ok v) : x = .ok v := by
  cases x with
  | ok w => exact congrArg Outcome.ok (Outcome.ok.inj h)
  | err => cases h
  | panic => cases h

theorem final_kyb {y : Kyb K} {u u' : Data K} {as : List (Act Dto)} (h : stepFinal y u = .ok (u', as)) : u'.kyb = u.kyb := by
  rw [stepFinal] at h
  by_cases hf : y.finished u.kyb = true
  · rw [if_pos hf] at h
    cases hd : y.distKeyShare u.kyb with
    | panic => rw [hd] at h; cases h
    | err => rw [hd] at h; have := Outcome.ok.inj h; injection this with e1 e2; rw [← e1]
    | ok sh =>
      rw [hd] at h
      dsimp only at h
      cases hq : u.qual with
      | none => rw [hq] at h; cases h
      | some q => rw [hq] at h; have := Outcome.ok.inj h; injection this with e1 e2; rw [← e1]
  · rw [if_neg hf] at h; have := Outcome.ok.inj h; injection this with e1 e2; rw [← e1]

/-- From the last stage of the generation on, a signing run leaves the generator and QUAL alone, and only adds to its outputs. -/
theorem late_stays (y : Kyb K) (env : Env) (id : String) (i : Int) (n : Nat) (k : Data K) :
    Stays (dssConf y H SH env id i n) (fun n u => 8 ≤ n ∧ u.kyb = k.kyb ∧ u.qual = k.qual ∧ ∃ o, u.out = k.out ++ o) := by
  have hl := later_dss y H SH env
  have mem : ∀ {n' : Int} {s}, 8 < n' → (dssConf y H SH env id i n).stages[n'.toNat]? = some s →
      s ∈ [psStep (stInit y H env), psProc (some (stPartsig H SH env)) (prPartsig H SH) .partsig partsigV, psStep (dssStFinal H)] := by
    intro n' s h8 h1
    rw [dssConf] at h1
    dsimp only at h1
    rw [dssStages, List.getElem?_append_right (by simp [dkgStages]; omega)] at h1
    exact List.mem_of_getElem? h1
  refine ⟨fun n u h => ⟨by omega, h.2⟩, fun n' s f hs hf u u' as hj h => ?_, fun n' s f hs hf u a u' as hj h => ?_⟩
  · obtain ⟨h0, h1⟩ := stage?_some hs
    obtain ⟨d1, d2, ⟨o, d3⟩, _⟩ := hl.step s (mem (by omega) h1) f hf u u' as h
    obtain ⟨_, j1, j2, o', j3⟩ := hj
    exact ⟨by omega, d1.trans j1, d2.trans j2, o' ++ o, by rw [d3, j3, List.append_assoc]⟩
  · obtain ⟨h0, h1⟩ := stage?_some hs
    refine ⟨hj.1, ?_⟩
    by_cases h8 : n' = 8
    · rw [h8] at h1
      have h1 : some (psStep (stepFinal y)) = some s := h1
      rw [← Option.some.inj h1] at hf
      cases hf
    · obtain ⟨d1, d2, ⟨o, d3⟩, _⟩ := hl.proc s (mem (by omega) h1) f hf u a u' as h
      obtain ⟨_, j1, j2, o', j3⟩ := hj
      exact ⟨d1.trans j1, d2.trans j2, o' ++ o, by rw [d3, j3, List.append_assoc]⟩

/-- Of this, the generator. -/
theorem kyb_stays (y : Kyb K) (env : Env) (id : String) (i : Int) (n : Nat) (k : K) :
    Stays (dssConf y H SH env id i n) (fun n u => 8 ≤ n ∧ u.kyb = k) := by
  refine ⟨fun n u h => ⟨by omega, h.2⟩, fun n' s f hs hf u u' as hj h => ?_, fun n' s f hs hf u a u' as hj h => ?_⟩
  · obtain ⟨h1, h2, _⟩ := (late_stays y env id i n u).step n' s f hs hf u u' as ⟨hj.1, rfl, rfl, [], (List.append_nil _).symm⟩ h
    exact ⟨h1, h2.trans hj.2⟩
  · obtain ⟨h1, h2, _⟩ := (late_stays y env id i n u).proc n' s f hs hf u a u' as ⟨hj.1, rfl, rfl, [], (List.append_nil _).symm⟩ h
    exact ⟨h1, h2.trans hj.2⟩

theorem final_callStep {c : Conf Dto Obj (Data K)} {y : Kyb K} {q q' : Run Dto Obj (Data K)} (h : callStep c q (psStep (stepFinal y)) = .ok q') :
    q'.state = q.state ∧ q'.user.kyb = q.user.kyb ∧ q'.rcvbuf = q.rcvbuf := by
  rw [callStep] at h
  by_cases ha : q.abandon = true
  · rw [if_pos ha] at h
    rw [← Outcome.ok.inj h]
    exact ⟨rfl, rfl, rfl⟩
  rw [if_neg ha, psStep] at h
  dsimp only at h
  rw [Outcome.bind_eq_ok] at h
  obtain ⟨⟨u, as⟩, g1, g2⟩ := h
  dsimp only at g2
  rw [← Outcome.ok.inj g2]
  obtain ⟨d1, d2, d3⟩ := doActs_user (c := c) as { q with log := q.log ++ [.stepped q.state], user := u }
  exact ⟨d2, (congrArg Data.kyb d1).trans (final_kyb (orPanic_ok' g1)), d3⟩

theorem enter_kyb {y : Kyb K} {env : Env} {id : String} {i : Int} {n : Nat} {r r' : Run Dto Obj (Data K)} (h7 : r.state = 7)
    (hb : ∀ m ∈ (r.rcvbuf.get? (r.state + 1)).getD [], m.op = r.state + 1) (h : enterStage (dssConf y H SH env id i n) r = .ok r') :
    r'.state = 8 ∧ r'.user.kyb = r.user.kyb := by
  rw [enterStage] at h
  dsimp only at h
  have hs : (dssConf y H SH env id i n).stage? (r.state + 1) = some (psStep (stepFinal y)) := by rw [h7]; rfl
  rw [hs] at h
  dsimp only at h
  rw [Outcome.bind_eq_ok] at h
  obtain ⟨q, h1, h⟩ := h
  rw [Outcome.bind_eq_ok] at h
  obtain ⟨q', h2, h⟩ := h
  have h3 : q.state = 8 ∧ q.user.kyb = r.user.kyb ∧ q.rcvbuf = r.rcvbuf := by
    obtain ⟨d1, d2, d3⟩ := final_callStep h1
    exact ⟨d1.trans (by show r.state + 1 = 8; omega), d2, d3⟩
  obtain ⟨d1, d2⟩ := stays_processAll (kyb_stays (H := H) (SH := SH) y env id i n r.user.kyb) (n := 8) _
    (by rw [h3.2.2]; intro m hm; have := hb m hm; omega) h3.1 ⟨by omega, h3.2.1⟩ h2
  rw [← Outcome.ok.inj h]
  exact ⟨d1, d2.2⟩

/-- The generator and QUAL are the same from the last stage of the generation on, and outputs are only added. -/
theorem late_same {y : Kyb K} {env : Env} {id : String} {i : Int} {n : Nat} {k0 : K} {t0 : Int} {h1 h2 : List (Ev Dto)} {r1 r : Run Dto Obj (Data K)}
    (e1 : exec (dssConf y H SH env id i n) (newRun Dto Obj (newData k0) t0) h1 = .ok r1) (e2 : exec (dssConf y H SH env id i n) r1 h2 = .ok r)
    (h8 : 8 ≤ r1.state) : r.user.kyb = r1.user.kyb ∧ r.user.qual = r1.user.qual ∧ ∃ o, r.user.out = r1.user.out ++ o := by
  have : 8 ≤ r.state ∧ r.user.kyb = r1.user.kyb ∧ r.user.qual = r1.user.qual ∧ ∃ o, r.user.out = r1.user.out ++ o := by
    induction h2 using List.reverseRecOn generalizing r with
    | nil => rw [exec] at e2; rw [← Outcome.ok.inj e2]; exact ⟨h8, rfl, rfl, [], (List.append_nil _).symm⟩
    | append_singleton h2 e ih =>
      obtain ⟨q, g1, g2⟩ := exec_snoc e2
      have e3 : exec (dssConf y H SH env id i n) (newRun Dto Obj (newData k0) t0) (h1 ++ h2) = .ok q := by
        rw [exec_append, e1]; exact g1
      exact (stays_step (late_stays (H := H) (SH := SH) y env id i n r1.user) (agree_exec e3).inv (ih g1) g2).1
  exact this.2

theorem kyb_same {y : Kyb K} {env : Env} {id : String} {i : Int} {n : Nat} {k0 : K} {t0 : Int} {h1 h2 : List (Ev Dto)} {r1 r : Run Dto Obj (Data K)}
    (e1 : exec (dssConf y H SH env id i n) (newRun Dto Obj (newData k0) t0) h1 = .ok r1) (e2 : exec (dssConf y H SH env id i n) r1 h2 = .ok r)
    (h8 : 8 ≤ r1.state) : r.user.kyb = r1.user.kyb := (late_same e1 e2 h8).1

/-- A signing run is one of the generator that gives a share only in the state the run has in the end. -/
theorem pin_exec {y : Kyb K} {env : Env} {id : String} {i : Int} {n : Nat} {k0 : K} {t0 : Int} {h : List (Ev Dto)} {r : Run Dto Obj (Data K)}
    (hr : exec (dssConf y H SH env id i n) (newRun Dto Obj (newData k0) t0) h = .ok r) :
    exec (dssConf (pin y r.user.kyb) H SH env id i n) (newRun Dto Obj (newData k0) t0) h = .ok r := by
  have key : ∀ (h2 h1 : List (Ev Dto)) (r1 : Run Dto Obj (Data K)), exec (dssConf y H SH env id i n) (newRun Dto Obj (newData k0) t0) h1 = .ok r1 →
      exec (dssConf y H SH env id i n) r1 h2 = .ok r → exec (dssConf (pin y r.user.kyb) H SH env id i n) r1 h2 = .ok r := by
    intro h2
    induction h2 with
    | nil => intro h1 r1 _ e2; exact e2
    | cons e h2 ih =>
      intro h1 r1 e1 e2
      rw [exec, Outcome.bind_eq_ok] at e2 ⊢
      obtain ⟨r2, g1, g2⟩ := e2
      have e3 : exec (dssConf y H SH env id i n) (newRun Dto Obj (newData k0) t0) (h1 ++ [e]) = .ok r2 := by
        rw [exec_append, e1]
        show (step (dssConf y H SH env id i n) r1 e >>= fun r => exec (dssConf y H SH env id i n) r []) = _
        rw [g1]; rfl
      refine ⟨r2, ?_, ih (h1 ++ [e]) r2 e3 g2⟩
      have a1 := (agree_exec e1).inv
      refine alike_step (pin_alike (H := H) (SH := SH) y r.user.kyb env id i n) (fun ⟨q, q1, q2, q3, q4⟩ hn => ?_) g1
      rcases hn with hn | hn
      · have hk := enter_kyb (y := y) (by omega) (by
          intro m hm
          rw [q2, q3, a1.core.rcv _ (by omega)] at hm
          rw [q2]
          exact early_op hm) q4
        rw [← q1, ← hk.2]
        exact (kyb_same e3 g2 (by omega)).symm
      · have hk := kyb_same e1 (h2 := e :: h2) (r := r) (by rw [exec, Outcome.bind_eq_ok]; exact ⟨r2, g1, g2⟩) (by omega)
        exact hk.symm
  exact key h [] _ rfl hr

/-- With all that honest members say handled, the share and who qualified in the state the generator ends in, whatever happened after the
generation. -/
theorem key_end {y : Kyb K} {env : Env} {id : String} {i n : Nat} {k0 : K} {t0 : Int} {h : List (Ev Dto)} {r : Run Dto Obj (Data K)}
    {net : Spec.Generation.Net} {ph : Spec.Generation.Phases K} (hi : net.on i) (hn : Spec.Generation.Proper net n)
    (g : Spec.Generation.Generates y net n i k0 ph) (hr : exec (dssConf y H SH env id i n) (newRun Dto Obj (newData k0) t0) h = .ok r)
    (hF : Spec.Generation.Honestly (dssConf y H SH env id i n) net 7 r.log) (hG : Spec.Generation.Heard (dssConf y H SH env id i n) net 7 r.log)
    (h8 : 8 ≤ r.state) : (∀ l1 l2, r.log = l1 ++ .abandoned :: l2 → 9 ≤ stageOf l1) ∧
      ∃ q o, r.user.qual = some q ∧ Spec.Generation.Qualify net q ∧ r.user.out = .key (net.key i) q :: o ∧
        y.distKeyShare r.user.kyb = .ok (net.key i) ∧ Spec.Generation.Qualify net (y.qual r.user.kyb) := by
  have first := (Generation.gets_key hi hn g (Generation.later_dss y H SH env) hr hF hG).1
  refine ⟨first, ?_⟩
  obtain ⟨h1, h2, r1, e1, e2, e3, l, e4⟩ := passes hr (n := 8) (by omega) h8
  have legal : Legal (dssConf y H SH env id i n) (r1.log ++ l) := e4 ▸ (agree_exec hr).inv.core.legal
  have a1 := (agree_exec e1).inv.core
  have f1 := Generation.generation_trailed hi hn g (Generation.later_dss y H SH env) e1
  have hab : r1.abandon = false := by
    by_contra hc
    obtain ⟨l1, l2, e, _⟩ := f1.gave (by simpa using hc)
    have h9 := first l1 (l2 ++ l) (by rw [← e4, e]; simp)
    have := Generation.stage_mono (c := dssConf y H SH env id i n) (l1 := l1) (l2 := .abandoned :: l2) (e ▸ a1.legal)
    rw [← e, a1.stage, e3] at this
    omega
  obtain ⟨k1, k2, o', k3⟩ := late_same e1 e2 (by omega)
  obtain ⟨q, o, d1, d2, d3, _, d4, d5⟩ := (Generation.gets_key hi hn g (Generation.later_dss y H SH env) e1
    (fun m hm ho ha => hF m (by rw [← e4]; exact List.mem_append_left _ hm) ho ha)
    (fun m hs hrc ho => Generation.handled_after legal (by rw [e4]; exact hG m hs hrc ho) (by rw [a1.stage, e3]; omega))).2 hab (by omega)
  exact ⟨q, o ++ o', k2.trans d1, d2, by rw [k3, d3, List.cons_append], by rw [k1]; exact d4, by rw [k1]; exact d5⟩

end Verif.Dkg
