import Verif.Proofs.Prot

/-! What the functions of a protocol preserve holds throughout a run. -/
namespace Verif.Prot
open Verif.Spec.Prot
variable {D A U : Type}

/-- Every message that the act asks to send has an op code and DTO related by `Q`. -/
def ActOk (Q : Int → D → Prop) : Act D → Prop
  | .send _ op dto => Q op dto
  | .broadcast op dto => Q op dto
  | .multicast _ op dto => Q op dto
  | .abandon => True

/-- The functions of the protocol preserve `P` and send only what `Q` allows. -/
structure Keeps (c : Conf D A U) (P : U → Prop) (Q : Int → D → Prop) : Prop where
  step : ∀ s ∈ c.stages, ∀ f, s.step = some f → ∀ u u' as, P u → f u = .ok (u', as) → P u' ∧ ∀ a ∈ as, ActOk Q a
  proc : ∀ s ∈ c.stages, ∀ f, s.proc = some f → ∀ u a u' as, P u → f u a = .ok (u', as) → ∀ d, s.unmarshal d = .ok a → P u' ∧ ∀ a ∈ as, ActOk Q a

/-- The property of runs. -/
structure Track (P : U → Prop) (Q : Int → D → Prop) (r : Run D A U) : Prop where
  user : P r.user
  req : ∀ m, Entry.request m ∈ r.log → Q m.op m.dto

section
variable {c : Conf D A U} {P : U → Prop} {Q : Int → D → Prop}

/-- Other entries do not matter. -/
theorem Track.log {r r' : Run D A U} (t : Track P Q r) (hu : r'.user = r.user)
    (hl : ∀ m, Entry.request m ∈ r'.log → Entry.request m ∈ r.log) : Track P Q r' :=
  ⟨by rw [hu]; exact t.user, fun m hm => t.req m (hl m hm)⟩

theorem track_send {r : Run D A U} (t : Track P Q r) (i op : Int) (dto : D) (h : Q op dto) : Track P Q (send c r i op dto) := by
  rw [send]
  by_cases ho : op > r.state
  · rw [if_pos ho]
    refine ⟨t.user, fun m hm => ?_⟩
    rcases List.mem_append.1 hm with hm | hm
    · exact t.req m hm
    · simp only [List.mem_singleton, Entry.request.injEq] at hm; subst hm; exact h
  · rw [if_neg ho]
    refine ⟨t.user, fun m hm => ?_⟩
    rcases List.mem_append.1 hm with hm | hm
    · exact t.req m hm
    · simp only [List.mem_cons, Entry.request.injEq, reduceCtorEq, List.not_mem_nil, or_false] at hm; subst hm; exact h

theorem track_multicast (is : List Int) (op : Int) (dto : D) (h : Q op dto) {r : Run D A U} (t : Track P Q r) :
    Track P Q (multicast c r is op dto) := by
  induction is generalizing r with
  | nil => exact t
  | cons i is ih =>
    refine ih (r := send1 c r i op dto) ?_
    rw [send1]
    by_cases hi : i ≠ c.self
    · rw [if_pos hi]; exact track_send t i op dto h
    · rw [if_neg hi]; exact t

theorem track_doActs (as : List (Act D)) {r : Run D A U} (t : Track P Q r) (h : ∀ a ∈ as, ActOk Q a) :
    Track P Q (doActs c r as) := by
  induction as generalizing r with
  | nil => exact t
  | cons a as ih =>
    refine ih (r := doAct c r a) ?_ fun x hx => h x (by simp [hx])
    have ha := h a (by simp)
    cases a with
    | send i op dto => exact track_send t i op dto ha
    | broadcast op dto => exact track_multicast _ op dto ha t
    | multicast is op dto => exact track_multicast is op dto ha t
    | abandon => exact t.log rfl (by simp [doAct])

theorem track_processMsg (k : Keeps c P Q) {r r' : Run D A U} {m : Message D} (t : Track P Q r)
    (h : processMsg c r m = .ok r') : Track P Q r' := by
  have hh : Track P Q { r with log := r.log ++ [.handled m] } := t.log rfl (by simp)
  rw [processMsg] at h
  dsimp only at h
  by_cases ha : r.abandon = true
  · rw [if_pos ha] at h; rw [← Outcome.ok.inj h]; exact hh
  rw [if_neg ha] at h
  cases hs : c.stage? m.op with
  | none => rw [hs] at h; cases h
  | some s =>
  rw [hs] at h
  dsimp only at h
  cases hpr : s.proc with
  | none => rw [hpr] at h; rw [← Outcome.ok.inj h]; exact hh
  | some proc =>
  rw [hpr] at h
  dsimp only at h
  cases ht : s.typeOk m.dto with
  | false => rw [ht] at h; rw [← Outcome.ok.inj h]; exact hh
  | true =>
  rw [ht] at h
  simp only [Bool.not_true, Bool.false_eq_true, if_false] at h
  cases hu : s.unmarshal m.dto with
  | panic => rw [hu] at h; cases h
  | err => rw [hu] at h; rw [← Outcome.ok.inj h]; exact hh
  | ok a =>
  rw [hu] at h
  dsimp only at h
  by_cases hr : (!(decide (0 ≤ m.sender) && decide (m.sender < c.members))) = true
  · rw [if_pos hr] at h; rw [← Outcome.ok.inj h]; exact hh
  rw [if_neg hr] at h
  cases hv : s.senderValid a m.sender with
  | panic => rw [hv] at h; cases h
  | err => rw [hv] at h; cases h
  | ok b =>
    rw [hv] at h
    cases b with
    | false => rw [← Outcome.ok.inj h]; exact hh
    | true =>
      dsimp only at h
      rw [Outcome.bind_eq_ok] at h
      obtain ⟨⟨u, acts⟩, h1, h⟩ := h
      rw [Outcome.pure_eq] at h
      rw [← Outcome.ok.inj h]
      have h2 : proc r.user a = .ok (u, acts) := by
        cases hp : proc r.user a with
        | ok y => rw [hp] at h1; exact h1
        | err => rw [hp] at h1; cases h1
        | panic => rw [hp] at h1; cases h1
      obtain ⟨k1, k2⟩ := k.proc s (List.mem_of_getElem? (stage?_some hs).2) proc hpr r.user a u acts t.user h2 m.dto hu
      exact track_doActs acts ⟨k1, (t.log (r' := { r with log := (r.log ++ [.handled m]) ++ [.invoked m a] }) rfl (by simp)).req⟩ k2

theorem track_processAll (k : Keeps c P Q) (ms : List (Message D)) {r r' : Run D A U} (t : Track P Q r)
    (h : processAll c r ms = .ok r') : Track P Q r' := by
  induction ms generalizing r with
  | nil => rw [processAll] at h; rw [← Outcome.ok.inj h]; exact t
  | cons m ms ih =>
    rw [processAll, Outcome.bind_eq_ok] at h
    obtain ⟨r1, h1, h2⟩ := h
    exact ih (track_processMsg k t h1) h2

theorem track_callStep (k : Keeps c P Q) {r r' : Run D A U} {s : Stage D A U} (hs : s ∈ c.stages) (t : Track P Q r)
    (h : callStep c r s = .ok r') : Track P Q r' := by
  rw [callStep] at h
  by_cases ha : r.abandon = true
  · rw [if_pos ha] at h; rw [← Outcome.ok.inj h]; exact t
  rw [if_neg ha] at h
  cases hst : s.step with
  | none => rw [hst] at h; rw [← Outcome.ok.inj h]; exact t
  | some f =>
    rw [hst] at h
    dsimp only at h
    rw [Outcome.bind_eq_ok] at h
    obtain ⟨⟨u, acts⟩, h1, h⟩ := h
    rw [Outcome.pure_eq] at h
    rw [← Outcome.ok.inj h]
    have h2 : f r.user = .ok (u, acts) := by
      cases hp : f r.user with
      | ok y => rw [hp] at h1; exact h1
      | err => rw [hp] at h1; cases h1
      | panic => rw [hp] at h1; cases h1
    obtain ⟨k1, k2⟩ := k.step s hs f hst r.user u acts t.user h2
    exact track_doActs acts ⟨k1, (t.log (r' := { r with log := r.log ++ [.stepped r.state] }) rfl (by simp)).req⟩ k2

theorem track_enterStage (k : Keeps c P Q) {r r' : Run D A U} (t : Track P Q r) (h : enterStage c r = .ok r') :
    Track P Q r' := by
  rw [enterStage] at h
  dsimp only at h
  cases hs : c.stage? (r.state + 1) with
  | none => rw [hs] at h; cases h
  | some s =>
  rw [hs] at h
  dsimp only at h
  rw [Outcome.bind_eq_ok] at h
  obtain ⟨r1, h1, h⟩ := h
  rw [Outcome.bind_eq_ok] at h
  obtain ⟨r2, h2, h⟩ := h
  rw [Outcome.pure_eq] at h
  rw [← Outcome.ok.inj h]
  have t0 : Track P Q (flushSndBuf { r with
      state := r.state + 1, deadline := r.deadline + s.timeout, log := r.log ++ [.entered (r.state + 1)] }) :=
    t.log rfl (by simp [flushSndBuf])
  have t1 := track_callStep k (List.mem_of_getElem? (stage?_some hs).2) t0 h1
  exact (track_processAll k _ t1 h2).log rfl fun m hm => hm

theorem track_loopTop (k : Keeps c P Q) {r r' : Run D A U} (t : Track P Q r) (h : loopTop c r = .ok r') : Track P Q r' := by
  rw [loopTop] at h
  by_cases h1 : r.state < (c.stages.length : Int) - 1
  · rw [if_pos h1] at h
    by_cases h2 : r.state > -1
    · rw [if_pos h2] at h; rw [← Outcome.ok.inj h]; exact t.log rfl (by simp)
    · rw [if_neg h2] at h; exact track_enterStage k t h
  · rw [if_neg h1] at h; rw [← Outcome.ok.inj h]; exact t.log rfl (by simp)

theorem track_step (k : Keeps c P Q) {r r' : Run D A U} {e : Ev D} (t : Track P Q r) (h : step c r e = .ok r') :
    Track P Q r' := by
  cases e with
  | tick n =>
    rw [step] at h
    by_cases hn : r.now ≤ n
    · rw [if_pos hn] at h; rw [← Outcome.ok.inj h]; exact t.log rfl fun m hm => hm
    · rw [if_neg hn] at h; cases h
  | thread =>
    rw [step, thread] at h
    cases hp : r.phase with
    | fresh => rw [hp] at h; rw [← Outcome.ok.inj h]; exact t.log rfl fun m hm => hm
    | started => rw [hp] at h; exact track_loopTop k t h
    | staged =>
      rw [hp] at h; dsimp only at h
      by_cases hd : r.deadline ≤ r.now
      · rw [if_pos hd] at h; exact track_loopTop k t h
      · rw [if_neg hd] at h; cases h
    | pausing =>
      rw [hp] at h; dsimp only at h
      by_cases hd : r.pauseEnd ≤ r.now
      · rw [if_pos hd, ← hp] at h; exact track_enterStage k (t.log (r' := { r with paused := false }) rfl fun m hm => hm) h
      · rw [if_neg hd] at h; cases h
    | done => rw [hp] at h; cases h
  | msg m =>
    rw [step, receive] at h
    dsimp only at h
    have hh : Track P Q { r with log := r.log ++ [.received m] } := t.log rfl (by simp)
    by_cases h1 : (m.op < r.state || (decide (m.op = r.state) && r.paused)) = true
    · rw [if_pos h1] at h; rw [← Outcome.ok.inj h]; exact hh
    rw [if_neg h1] at h
    by_cases h2 : m.op > r.state
    · rw [if_pos h2] at h; rw [← Outcome.ok.inj h]; exact hh.log rfl fun m hm => hm
    · rw [if_neg h2] at h; exact track_processMsg k hh h

/-- What the functions of the protocol preserve holds after every history. -/
theorem track_exec (k : Keeps c P Q) {u : U} (hu : P u) {t0 : Int} {h : List (Ev D)} {r : Run D A U}
    (hr : exec c (newRun D A u t0) h = .ok r) : Track P Q r := by
  induction h using List.reverseRecOn generalizing r with
  | nil =>
    rw [exec] at hr
    rw [← Outcome.ok.inj hr]
    exact ⟨hu, fun m hm => by cases hm⟩
  | append_singleton h e ih =>
    obtain ⟨r1, h1, h2⟩ := exec_snoc hr
    exact track_step k (ih h1) h2

end

/-! Absence of panics. -/

/-- Some act gives up. -/
def GivesUp (as : List (Act D)) : Prop := Act.abandon ∈ as

/-- `J n` holds of the data in stage `n` unless the run is abandoned, and then no function of the protocol panics on messages
whose sender and DTO satisfy `W`. -/
structure Safe (c : Conf D A U) (J : Int → U → Prop) (W : Int → D → Prop) : Prop where
  skip : ∀ n s, c.stage? n = some s → s.step = none → ∀ u, J (n - 1) u → J n u
  step : ∀ n s f, c.stage? n = some s → s.step = some f → ∀ u, J (n - 1) u → ∃ u' as, f u = .ok (u', as) ∧ (J n u' ∨ GivesUp as)
  unmarshal : ∀ n s, c.stage? n = some s → s.proc.isSome = true → ∀ i d, W i d → s.typeOk d = true → s.unmarshal d ≠ .panic
  valid : ∀ n s, c.stage? n = some s → s.proc.isSome = true → ∀ (i : Int) d, W i d → s.typeOk d = true → ∀ a, s.unmarshal d = .ok a →
    0 ≤ i → i < c.members → ∃ b, s.senderValid a i = .ok b
  proc : ∀ n s f, c.stage? n = some s → s.proc = some f → ∀ (i : Int) d, W i d → s.typeOk d = true → ∀ a, s.unmarshal d = .ok a →
    0 ≤ i → i < c.members → s.senderValid a i = .ok true → ∀ u, J n u → ∃ u' as, f u a = .ok (u', as) ∧ (J n u' ∨ GivesUp as)

section
variable {c : Conf D A U} {J : Int → U → Prop} {W : Int → D → Prop}

theorem doAct_abandon {r : Run D A U} (a : Act D) (h : r.abandon = true ∨ a = .abandon) : (doAct c r a).abandon = true := by
  have hs : ∀ (r : Run D A U) (i op : Int) (dto : D), (send c r i op dto).abandon = r.abandon := by
    intro r i op dto; rw [send]; by_cases ho : op > r.state
    · rw [if_pos ho]
    · rw [if_neg ho]
  have hm : ∀ (is : List Int) (r : Run D A U) (op : Int) (dto : D), (multicast c r is op dto).abandon = r.abandon := by
    intro is
    induction is with
    | nil => intro r op dto; rfl
    | cons i is ih =>
      intro r op dto
      refine (ih (send1 c r i op dto) op dto).trans ?_
      rw [send1]
      by_cases hi : i ≠ c.self
      · rw [if_pos hi]; exact hs r i op dto
      · rw [if_neg hi]
  cases a with
  | send i op dto => rcases h with h | h; exacts [(hs r i op dto).trans h, by cases h]
  | broadcast op dto => rcases h with h | h; exacts [(hm _ r op dto).trans h, by cases h]
  | multicast is op dto => rcases h with h | h; exacts [(hm _ r op dto).trans h, by cases h]
  | abandon => rfl

theorem doActs_abandon (as : List (Act D)) {r : Run D A U} (h : r.abandon = true ∨ GivesUp as) : (doActs c r as).abandon = true := by
  induction as generalizing r with
  | nil => rcases h with h | h; exacts [h, by cases h]
  | cons a as ih =>
    refine ih (r := doAct c r a) ?_
    rcases h with h | h
    · exact .inl (doAct_abandon a (.inl h))
    · rcases List.mem_cons.1 h with h | h
      · exact .inl (doAct_abandon a (.inr h.symm))
      · exact .inr h

theorem doActs_user (as : List (Act D)) (r : Run D A U) :
    (doActs c r as).user = r.user ∧ (doActs c r as).state = r.state ∧ (doActs c r as).rcvbuf = r.rcvbuf := by
  have hs : ∀ (r : Run D A U) (i op : Int) (dto : D), (send c r i op dto).user = r.user ∧
      (send c r i op dto).state = r.state ∧ (send c r i op dto).rcvbuf = r.rcvbuf := by
    intro r i op dto; rw [send]; by_cases ho : op > r.state
    · rw [if_pos ho]; exact ⟨rfl, rfl, rfl⟩
    · rw [if_neg ho]; exact ⟨rfl, rfl, rfl⟩
  have hm : ∀ (is : List Int) (r : Run D A U) (op : Int) (dto : D), (multicast c r is op dto).user = r.user ∧
      (multicast c r is op dto).state = r.state ∧ (multicast c r is op dto).rcvbuf = r.rcvbuf := by
    intro is
    induction is with
    | nil => intro r op dto; exact ⟨rfl, rfl, rfl⟩
    | cons i is ih =>
      intro r op dto
      have h1 := ih (send1 c r i op dto) op dto
      have h2 : (send1 c r i op dto).user = r.user ∧ (send1 c r i op dto).state = r.state ∧
          (send1 c r i op dto).rcvbuf = r.rcvbuf := by
        rw [send1]
        by_cases hi : i ≠ c.self
        · rw [if_pos hi]; exact hs r i op dto
        · rw [if_neg hi]; exact ⟨rfl, rfl, rfl⟩
      exact ⟨h1.1.trans h2.1, h1.2.1.trans h2.2.1, h1.2.2.trans h2.2.2⟩
  induction as generalizing r with
  | nil => exact ⟨rfl, rfl, rfl⟩
  | cons a as ih =>
    have h1 := ih (doAct c r a)
    have h2 : (doAct c r a).user = r.user ∧ (doAct c r a).state = r.state ∧ (doAct c r a).rcvbuf = r.rcvbuf := by
      cases a with
      | send i op dto => exact hs r i op dto
      | broadcast op dto => exact hm _ r op dto
      | multicast is op dto => exact hm is r op dto
      | abandon => exact ⟨rfl, rfl, rfl⟩
    exact ⟨h1.1.trans h2.1, h1.2.1.trans h2.2.1, h1.2.2.trans h2.2.2⟩

/-- In stage `n`, and the data satisfies `J n` unless abandoned. -/
def InStage (J : Int → U → Prop) (n : Int) (r : Run D A U) : Prop := r.state = n ∧ (r.abandon = true ∨ J n r.user)

theorem safe_acts {n : Int} {r : Run D A U} (hst : r.state = n) {u : U} {as : List (Act D)} (h : J n u ∨ GivesUp as) :
    InStage J n (doActs c { r with user := u } as) ∧ (doActs c { r with user := u } as).rcvbuf = r.rcvbuf := by
  obtain ⟨h1, h2, h3⟩ := doActs_user (c := c) as { r with user := u }
  refine ⟨⟨h2.trans hst, ?_⟩, h3⟩
  rcases h with h | h
  · exact .inr (by rw [h1]; exact h)
  · exact .inl (doActs_abandon as (.inr h))

theorem safe_processMsg (k : Safe c J W) {n : Int} {r : Run D A U} {m : Message D} {s : Stage D A U}
    (i : InStage J n r) (hm : m.op = n) (hs : c.stage? n = some s) (hw : W m.sender m.dto) :
    ∃ r', processMsg c r m = .ok r' ∧ InStage J n r' ∧ r'.rcvbuf = r.rcvbuf := by
  rw [processMsg]
  dsimp only
  by_cases ha : r.abandon = true
  · rw [if_pos ha]; exact ⟨_, rfl, ⟨i.1, .inl ha⟩, rfl⟩
  rw [if_neg ha, hm, hs]
  dsimp only
  have hJ : J n r.user := i.2.resolve_left ha
  have hh : InStage J n { r with log := r.log ++ [.handled m] } := ⟨i.1, .inr hJ⟩
  cases hpr : s.proc with
  | none => exact ⟨_, rfl, hh, rfl⟩
  | some proc =>
  have hps : s.proc.isSome = true := by rw [hpr]; rfl
  dsimp only
  cases ht : s.typeOk m.dto with
  | false => exact ⟨_, rfl, hh, rfl⟩
  | true =>
  simp only [Bool.not_true, Bool.false_eq_true, if_false]
  cases hu : s.unmarshal m.dto with
  | panic => exact absurd hu (k.unmarshal n s hs hps m.sender m.dto hw ht)
  | err => exact ⟨_, rfl, hh, rfl⟩
  | ok a =>
  dsimp only
  by_cases hr : (!(decide (0 ≤ m.sender) && decide (m.sender < c.members))) = true
  · rw [if_pos hr]; exact ⟨_, rfl, hh, rfl⟩
  rw [if_neg hr]
  simp only [Bool.not_eq_true', Bool.not_eq_false, Bool.and_eq_true, decide_eq_true_eq] at hr
  obtain ⟨b, hb⟩ := k.valid n s hs hps m.sender m.dto hw ht a hu hr.1 hr.2
  rw [hb]
  cases b with
  | false => exact ⟨_, rfl, hh, rfl⟩
  | true =>
    obtain ⟨u', as, h1, h2⟩ := k.proc n s proc hs hpr m.sender m.dto hw ht a hu hr.1 hr.2 hb r.user hJ
    dsimp only
    rw [h1]
    exact ⟨_, rfl, safe_acts (r := { r with log := (r.log ++ [.handled m]) ++ [.invoked m a] }) i.1 h2⟩

theorem safe_processAll (k : Safe c J W) {n : Int} {s : Stage D A U} (hs : c.stage? n = some s) (ms : List (Message D))
    (hms : ∀ m ∈ ms, m.op = n ∧ W m.sender m.dto) {r : Run D A U} (i : InStage J n r) :
    ∃ r', processAll c r ms = .ok r' ∧ InStage J n r' := by
  induction ms generalizing r with
  | nil => exact ⟨r, rfl, i⟩
  | cons m ms ih =>
    obtain ⟨h1, h2⟩ := hms m (by simp)
    obtain ⟨r1, e1, i1, _⟩ := safe_processMsg k i h1 hs h2
    rw [processAll, e1]
    exact ih (fun x hx => hms x (by simp [hx])) i1

theorem safe_enterStage (k : Safe c J W) {r : Run D A U} (hl : -1 ≤ r.state) (hL : r.state + 1 < c.stages.length)
    (i : InStage J r.state r) (hb : ∀ m ∈ (r.rcvbuf.get? (r.state + 1)).getD [], m.op = r.state + 1 ∧ W m.sender m.dto) :
    ∃ r', enterStage c r = .ok r' ∧ InStage J (r.state + 1) r' := by
  have hs : ∃ s, c.stage? (r.state + 1) = some s := by
    rw [Conf.stage?, if_neg (by omega)]
    exact ⟨_, List.getElem?_eq_getElem (by omega)⟩
  obtain ⟨s, hs⟩ := hs
  rw [enterStage]
  dsimp only
  rw [hs]
  dsimp only
  have key : ∀ q : Run D A U, q.state = r.state + 1 → q.abandon = r.abandon → q.user = r.user →
      ∃ q', callStep c q s = .ok q' ∧ InStage J (r.state + 1) q' ∧ q'.rcvbuf = q.rcvbuf := by
    intro q q1 q2 q3
    rw [callStep]
    by_cases ha : q.abandon = true
    · rw [if_pos ha]; exact ⟨q, rfl, ⟨q1, .inl ha⟩, rfl⟩
    rw [if_neg ha]
    have hJ : J (r.state + 1 - 1) q.user := by
      rw [q3, show r.state + 1 - 1 = r.state by omega]; exact i.2.resolve_left (by rw [← q2]; exact ha)
    cases hst : s.step with
    | none => exact ⟨q, rfl, ⟨q1, .inr (k.skip _ s hs hst _ hJ)⟩, rfl⟩
    | some f =>
      obtain ⟨u', as, h1, h2⟩ := k.step _ s f hs hst _ hJ
      dsimp only
      rw [h1]
      exact ⟨_, rfl, safe_acts (r := { q with log := q.log ++ [.stepped q.state] }) q1 h2⟩
  obtain ⟨q, e1, i1, b1⟩ := key (flushSndBuf { r with
    state := r.state + 1, deadline := r.deadline + s.timeout, log := r.log ++ [.entered (r.state + 1)] }) rfl rfl rfl
  rw [e1, Outcome.bind_ok]
  have b2 : q.rcvbuf = r.rcvbuf := b1
  obtain ⟨q', e2, i2⟩ := safe_processAll k hs ((q.rcvbuf.get? (r.state + 1)).getD []) (by rw [b2]; exact hb) i1
  rw [e2]
  exact ⟨_, rfl, i2⟩

theorem safe_loopTop (k : Safe c J W) {r : Run D A U} (hl : -1 ≤ r.state)
    (i : InStage J r.state r) (hb : ∀ m ∈ (r.rcvbuf.get? (r.state + 1)).getD [], m.op = r.state + 1 ∧ W m.sender m.dto) :
    ∃ r', loopTop c r = .ok r' ∧ InStage J r'.state r' := by
  rw [loopTop]
  by_cases h1 : r.state < (c.stages.length : Int) - 1
  · rw [if_pos h1]
    by_cases h2 : r.state > -1
    · rw [if_pos h2]; exact ⟨_, rfl, rfl, i.2⟩
    · rw [if_neg h2]
      obtain ⟨r', e, j⟩ := safe_enterStage k hl (by omega) i hb
      exact ⟨r', e, rfl, by have := j.2; rw [← j.1] at this; exact this⟩
  · rw [if_neg h1]; exact ⟨_, rfl, rfl, i.2⟩

theorem early_received {n : Int} {l : List (Entry D A)} {m : Message D} (h : m ∈ early n l) : m ∈ receivedOf l := by
  obtain ⟨l1, l2, e, _⟩ := recvFrom_mem h
  rw [receivedOf, List.mem_filterMap]
  exact ⟨.received m, by rw [e]; simp, rfl⟩

/-- A protocol with safe functions never panics, whatever the history, if every message has a non-negative op code and an
acceptable DTO. -/
theorem safe_exec (k : Safe c J W) {u : U} (hu : J (-1) u) {t0 : Int} (h : List (Ev D))
    (hm : ∀ m ∈ msgs h, 0 ≤ m.op ∧ W m.sender m.dto) :
    exec c (newRun D A u t0) h ≠ .panic ∧ ∀ r, exec c (newRun D A u t0) h = .ok r → InStage J r.state r := by
  induction h using List.reverseRecOn with
  | nil => exact ⟨by simp [exec], fun r hr => by rw [exec] at hr; rw [← Outcome.ok.inj hr]; exact ⟨rfl, .inr hu⟩⟩
  | append_singleton h e ih =>
    obtain ⟨ih1, ih2⟩ := ih fun m hx => hm m (by rw [msgs_snoc]; simp [hx])
    have key : ∀ r, exec c (newRun D A u t0) h = .ok r → step c r e ≠ .panic ∧ ∀ r', step c r e = .ok r' → InStage J r'.state r' := by
      intro r hr
      have a := agree_exec hr
      have i := ih2 r hr
      have hlow := a.inv.core.low
      have hb : ∀ m ∈ (r.rcvbuf.get? (r.state + 1)).getD [], m.op = r.state + 1 ∧ W m.sender m.dto := by
        intro m hx
        rw [a.inv.core.rcv _ (by omega)] at hx
        refine ⟨early_op hx, (hm m ?_).2⟩
        rw [msgs_snoc, ← a.received]
        exact List.mem_append_left _ (early_received hx)
      have fin : ∀ x : Outcome (Run D A U), (∃ r', x = .ok r' ∧ InStage J r'.state r') →
          x ≠ .panic ∧ ∀ r', x = .ok r' → InStage J r'.state r' := by
        rintro x ⟨r', rfl, j⟩
        exact ⟨by simp, fun r'' h => by rw [← Outcome.ok.inj h]; exact j⟩
      cases e with
      | tick t =>
        rw [step]
        by_cases ht : r.now ≤ t
        · rw [if_pos ht]; exact fin _ ⟨_, rfl, i⟩
        · rw [if_neg ht]; exact ⟨by simp, fun r' h => by cases h⟩
      | thread =>
        rw [step, thread]
        cases hp : r.phase with
        | fresh => exact fin _ ⟨_, rfl, i⟩
        | started => exact fin _ (safe_loopTop k hlow i hb)
        | staged =>
          dsimp only
          by_cases hd : r.deadline ≤ r.now
          · rw [if_pos hd]; exact fin _ (safe_loopTop k hlow i hb)
          · rw [if_neg hd]; exact ⟨by simp, fun r' h => by cases h⟩
        | pausing =>
          dsimp only
          by_cases hd : r.pauseEnd ≤ r.now
          · rw [if_pos hd, ← hp]
            obtain ⟨r', e1, j⟩ := safe_enterStage (r := { r with paused := false }) k hlow (a.inv.pausing hp).2.1 i hb
            exact fin _ ⟨r', e1, rfl, by have := j.2; rw [← j.1] at this; exact this⟩
          · rw [if_neg hd]; exact ⟨by simp, fun r' h => by cases h⟩
        | done => exact ⟨by simp, fun r' h => by cases h⟩
      | msg m =>
        have hmm := hm m (by rw [msgs_snoc]; simp)
        rw [step, receive]
        dsimp only
        by_cases h1 : (m.op < r.state || (decide (m.op = r.state) && r.paused)) = true
        · rw [if_pos h1]; exact fin _ ⟨_, rfl, i⟩
        rw [if_neg h1]
        by_cases h2 : m.op > r.state
        · rw [if_pos h2]; exact fin _ ⟨_, rfl, i⟩
        rw [if_neg h2]
        simp only [Bool.or_eq_true, decide_eq_true_eq, not_or] at h1
        have hst : m.op = r.state := by omega
        have hlt : r.state < c.stages.length := by
          have h3 := a.inv.staged
          have h4 := a.inv.pausing
          have h5 := a.inv.done
          have h6 := a.inv.fresh
          cases hp : r.phase with
          | fresh => have := (h6 (.inl hp)).1; omega
          | started => have := (h6 (.inr hp)).1; omega
          | staged => exact (h3 hp).2.1
          | pausing => have := (h4 hp).2.1; omega
          | done => have := (h5 hp).1; omega
        have hs : c.stage? r.state = some c.stages[r.state.toNat] := by
          rw [Conf.stage?, if_neg (by omega)]
          exact List.getElem?_eq_getElem (by omega)
        obtain ⟨r', e1, j, _⟩ := safe_processMsg (r := { r with log := r.log ++ [.received m] }) k i hst hs hmm.2
        exact fin _ ⟨r', e1, rfl, by have := j.2; rw [← j.1] at this; exact this⟩
    rw [exec_append]
    cases hr : exec c (newRun D A u t0) h with
    | panic => exact absurd hr ih1
    | err => exact ⟨by simp, fun r h => by cases h⟩
    | ok r =>
      obtain ⟨k1, k2⟩ := key r hr
      rw [Outcome.bind_ok, exec]
      cases hs : step c r e with
      | panic => exact absurd hs k1
      | err => exact ⟨by simp, fun r h => by cases h⟩
      | ok r' => exact ⟨by simp [exec], fun r'' h => by rw [Outcome.bind_ok, exec] at h; rw [← Outcome.ok.inj h]; exact k2 r' hs⟩

end

end Verif.Prot
