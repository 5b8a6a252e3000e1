import Verif.Proofs.ProtUser

/-! What holds of the data of a run in each stage, given the messages handled and those asked for so far. -/
namespace Verif.Prot
open Verif.Spec.Prot
variable {D A U : Type}

/-- The messages handed to processing, in order. -/
def handledAll (l : List (Entry D A)) : List (Message D) := l.filterMap fun x => match x with | .handled m => some m | _ => none

theorem handledAll_append (l l' : List (Entry D A)) : handledAll (l ++ l') = handledAll l ++ handledAll l' := by
  rw [handledAll, List.filterMap_append]; rfl

theorem mem_handledAll {n : Int} {l : List (Entry D A)} {m : Message D} (h : m ∈ handledOf n l) : m ∈ handledAll l ∧ m.op = n := by
  rw [handledOf, List.mem_filterMap] at h
  obtain ⟨x, hx, h⟩ := h
  cases x with
  | handled m' =>
    dsimp only at h
    by_cases hm : m'.op = n
    · rw [if_pos hm] at h
      have := Option.some.inj h
      subst this
      exact ⟨List.mem_filterMap.2 ⟨_, hx, rfl⟩, hm⟩
    · rw [if_neg hm] at h; cases h
  | _ => cases h

/-- Neither enters a stage nor hands a message to processing. -/
def Quiet : Entry D A → Prop
  | .entered _ => False
  | .handled _ => False
  | _ => True

theorem quiet_append {l : List (Entry D A)} {l' : List (Entry D A)} (h : ∀ x ∈ l', Quiet x) :
    stageOf (l ++ l') = stageOf l ∧ handledAll (l ++ l') = handledAll l := by
  induction l' using List.reverseRecOn with
  | nil => simp
  | append_singleton l' x ih =>
    obtain ⟨h1, h2⟩ := ih fun y hy => h y (by simp [hy])
    have hx := h x (by simp)
    rw [← List.append_assoc, stageOf_snoc, handledAll_append, h2]
    cases x <;> first | exact absurd hx id | exact ⟨h1, by simp [handledAll]⟩


/-- The messages asked to be sent, in order. -/
def askedAll (l : List (Entry D A)) : List (Message D) := l.filterMap fun x => match x with | .request m => some m | _ => none

theorem askedAll_append (l l' : List (Entry D A)) : askedAll (l ++ l') = askedAll l ++ askedAll l' := by
  rw [askedAll, List.filterMap_append]; rfl

theorem mem_askedAll {l : List (Entry D A)} {m : Message D} : m ∈ askedAll l ↔ .request m ∈ l := by
  rw [askedAll, List.mem_filterMap]
  constructor
  · rintro ⟨x, hx, h⟩
    cases x with
    | request m' => dsimp only at h; rw [← Option.some.inj h]; exact hx
    | _ => cases h
  · exact fun h => ⟨_, h, rfl⟩

/-- Does not ask to send. -/
def Mute : Entry D A → Prop
  | .request _ => False
  | _ => True

theorem mute_append {l : List (Entry D A)} {l' : List (Entry D A)} (h : ∀ x ∈ l', Mute x) : askedAll (l ++ l') = askedAll l := by
  rw [askedAll_append, show askedAll l' = [] from ?_, List.append_nil]
  rw [askedAll, List.filterMap_eq_nil_iff]
  intro x hx
  have := h x hx
  cases x <;> first | rfl | exact absurd this id

/-- What an act asks to send. -/
def asks (c : Conf D A U) : Act D → List (Message D)
  | .send i op dto => [makeMsg c i op dto]
  | .broadcast op dto => (((List.range c.members).map Int.ofNat).filter fun i => decide (i ≠ c.self)).map fun i => makeMsg c i op dto
  | .multicast is op dto => (is.filter fun i => decide (i ≠ c.self)).map fun i => makeMsg c i op dto
  | .abandon => []

theorem doActs_asks {c : Conf D A U} (as : List (Act D)) (r : Run D A U) :
    askedAll (doActs c r as).log = askedAll r.log ++ as.flatMap (asks c) := by
  have hs : ∀ (r : Run D A U) (i op : Int) (dto : D), askedAll (send c r i op dto).log = askedAll r.log ++ [makeMsg c i op dto] := by
    intro r i op dto
    rw [send]
    by_cases ho : op > r.state
    · rw [if_pos ho]; exact askedAll_append ..
    · rw [if_neg ho]; exact askedAll_append ..
  have hm : ∀ (is : List Int) (r : Run D A U) (op : Int) (dto : D), askedAll (multicast c r is op dto).log =
      askedAll r.log ++ (is.filter fun i => decide (i ≠ c.self)).map fun i => makeMsg c i op dto := by
    intro is
    induction is with
    | nil => intro r op dto; exact (List.append_nil _).symm
    | cons i is ih =>
      intro r op dto
      refine (ih (send1 c r i op dto) op dto).trans ?_
      rw [send1]
      by_cases hi : i ≠ c.self
      · rw [if_pos hi, hs, List.filter_cons_of_pos (by simpa using hi), List.map_cons, List.append_assoc]; rfl
      · rw [if_neg hi, List.filter_cons_of_neg (by simpa using hi)]
  induction as generalizing r with
  | nil => exact (List.append_nil _).symm
  | cons a as ih =>
    refine (ih (doAct c r a)).trans ?_
    rw [List.flatMap_cons, ← List.append_assoc]
    congr 1
    cases a with
    | send i op dto => exact hs r i op dto
    | broadcast op dto => exact hm _ r op dto
    | multicast is op dto => exact hm is r op dto
    | abandon => exact (askedAll_append ..).trans (List.append_nil _ ▸ rfl)

/-- `J n ms qs` holds of the data in stage `n` after the messages `ms` were handled and `qs` asked for, and giving up is possible
only in the cases `G`. -/
structure Trail (c : Conf D A U) (J : Int → List (Message D) → List (Message D) → U → Prop)
    (G : Int → List (Message D) → List (Message D) → Prop) : Prop where
  skip : ∀ n s ms qs u, c.stage? n = some s → s.step = none → J (n - 1) ms qs u → J n ms qs u
  step : ∀ n s f ms qs u u' as, c.stage? n = some s → s.step = some f → J (n - 1) ms qs u → f u = .ok (u', as) →
    (Act.abandon ∉ as → J n ms (qs ++ as.flatMap (asks c)) u') ∧ (Act.abandon ∈ as → G n ms (qs ++ as.flatMap (asks c)))
  reject : ∀ m ms qs u, J m.op ms qs u → (¬ ∃ a, Accepts c m a) → J m.op (ms ++ [m]) qs u
  proc : ∀ s f m a ms qs u u' as, c.stage? m.op = some s → s.proc = some f → Accepts c m a → J m.op ms qs u → f u a = .ok (u', as) →
    (Act.abandon ∉ as → J m.op (ms ++ [m]) (qs ++ as.flatMap (asks c)) u') ∧
    (Act.abandon ∈ as → G m.op (ms ++ [m]) (qs ++ as.flatMap (asks c)))

/-- The property of runs. -/
structure Trailed (J : Int → List (Message D) → List (Message D) → U → Prop) (G : Int → List (Message D) → List (Message D) → Prop)
    (r : Run D A U) : Prop where
  stage : stageOf r.log = r.state
  data : r.abandon = false → J r.state (handledAll r.log) (askedAll r.log) r.user
  none : r.abandon = false → Entry.abandoned ∉ r.log
  gave : r.abandon = true → ∃ l1 l2, r.log = l1 ++ .abandoned :: l2 ∧ Entry.abandoned ∉ l1 ∧
    G (stageOf l1) (handledAll l1) (askedAll r.log)

section
variable {c : Conf D A U} {J : Int → List (Message D) → List (Message D) → U → Prop} {G : Int → List (Message D) → List (Message D) → Prop}

theorem doActs_log (as : List (Act D)) (r : Run D A U) : ∃ l : List (Entry D A), (doActs c r as).log = r.log ++ l ∧ (∀ x ∈ l, Quiet x) ∧
    (Act.abandon ∈ as → Entry.abandoned ∈ l) ∧
    (Act.abandon ∉ as → (doActs c r as).abandon = r.abandon ∧ Entry.abandoned ∉ l) := by
  have hs : ∀ (r : Run D A U) (i op : Int) (dto : D), ∃ l : List (Entry D A), (send c r i op dto).log = r.log ++ l ∧ (∀ x ∈ l, Quiet x) ∧
      (send c r i op dto).abandon = r.abandon ∧ Entry.abandoned ∉ l := by
    intro r i op dto; rw [send]; by_cases ho : op > r.state
    · rw [if_pos ho]; exact ⟨_, rfl, by simp [Quiet], rfl, by simp⟩
    · rw [if_neg ho]; exact ⟨_, rfl, by simp [Quiet], rfl, by simp⟩
  have hm : ∀ (is : List Int) (r : Run D A U) (op : Int) (dto : D), ∃ l : List (Entry D A),
      (multicast c r is op dto).log = r.log ++ l ∧ (∀ x ∈ l, Quiet x) ∧
      (multicast c r is op dto).abandon = r.abandon ∧ Entry.abandoned ∉ l := by
    intro is
    induction is with
    | nil => intro r op dto; exact ⟨[], (List.append_nil _).symm, by simp, rfl, by simp⟩
    | cons i is ih =>
      intro r op dto
      obtain ⟨l2, h1, h2, h3, h4⟩ := ih (send1 c r i op dto) op dto
      have : ∃ l : List (Entry D A), (send1 c r i op dto).log = r.log ++ l ∧ (∀ x ∈ l, Quiet x) ∧
          (send1 c r i op dto).abandon = r.abandon ∧ Entry.abandoned ∉ l := by
        rw [send1]
        by_cases hi : i ≠ c.self
        · rw [if_pos hi]; exact hs r i op dto
        · rw [if_neg hi]; exact ⟨[], (List.append_nil _).symm, by simp, rfl, by simp⟩
      obtain ⟨l1, g1, g2, g3, g4⟩ := this
      refine ⟨l1 ++ l2, ?_, ?_, h3.trans g3, by simp [g4, h4]⟩
      · refine h1.trans ?_; rw [g1, List.append_assoc]
      · intro x hx; rcases List.mem_append.1 hx with hx | hx; exacts [g2 x hx, h2 x hx]
  induction as generalizing r with
  | nil => exact ⟨[], (List.append_nil _).symm, by simp, by simp, fun _ => ⟨rfl, by simp⟩⟩
  | cons a as ih =>
    obtain ⟨l2, h1, h2, h3, h4⟩ := ih (doAct c r a)
    have : ∃ l : List (Entry D A), (doAct c r a).log = r.log ++ l ∧ (∀ x ∈ l, Quiet x) ∧ (a = .abandon → Entry.abandoned ∈ l) ∧
        (a ≠ .abandon → (doAct c r a).abandon = r.abandon ∧ Entry.abandoned ∉ l) := by
      cases a with
      | send i op dto => obtain ⟨l, e1, e2, e3⟩ := hs r i op dto; exact ⟨l, e1, e2, nofun, fun _ => e3⟩
      | broadcast op dto =>
        obtain ⟨l, e1, e2, e3⟩ := hm ((List.range c.members).map Int.ofNat) r op dto; exact ⟨l, e1, e2, nofun, fun _ => e3⟩
      | multicast is op dto => obtain ⟨l, e1, e2, e3⟩ := hm is r op dto; exact ⟨l, e1, e2, nofun, fun _ => e3⟩
      | abandon => exact ⟨[.abandoned], rfl, by simp [Quiet], by simp, fun h => absurd rfl h⟩
    obtain ⟨l1, g1, g2, g3, g4⟩ := this
    refine ⟨l1 ++ l2, ?_, ?_, fun h => ?_, fun h => ?_⟩
    · refine h1.trans ?_; rw [g1, List.append_assoc]
    · intro x hx; rcases List.mem_append.1 hx with hx | hx; exacts [g2 x hx, h2 x hx]
    · rcases List.mem_cons.1 h with h | h
      · exact List.mem_append_left _ (g3 h.symm)
      · exact List.mem_append_right _ (h3 h)
    · rw [List.mem_cons, not_or] at h
      exact ⟨(h4 h.2).1.trans (g4 (Ne.symm h.1)).1, by simp [(h4 h.2).2, (g4 (Ne.symm h.1)).2]⟩

/-- Entries that are quiet do not matter. -/
theorem Trailed.quiet {r r' : Run D A U} (f : Trailed J G r) {l : List (Entry D A)} (hl : r'.log = r.log ++ l) (hq : ∀ x ∈ l, Quiet x)
    (hmu : ∀ x ∈ l, Mute x) (hna : Entry.abandoned ∉ l) (hs : r'.state = r.state) (ha : r'.abandon = r.abandon) (hu : r'.user = r.user) : Trailed J G r' := by
  obtain ⟨h1, h2⟩ := quiet_append (l := r.log) hq
  refine ⟨by rw [hl, h1, hs]; exact f.stage, fun h => ?_, fun h => ?_, fun h => ?_⟩
  · rw [hl, h2, mute_append hmu, hs, hu]; exact f.data (ha ▸ h)
  · rw [hl, List.mem_append, not_or]; exact ⟨f.none (ha ▸ h), hna⟩
  · obtain ⟨l1, l2, e, g0, g⟩ := f.gave (ha ▸ h)
    exact ⟨l1, l2 ++ l, by rw [hl, e]; simp, g0, by rw [hl, mute_append hmu]; exact g⟩

/-- After the acts of a step or processor. -/
theorem trailed_acts {r : Run D A U} (as : List (Act D)) (hst : stageOf r.log = r.state) (hab : r.abandon = false)
    (hno : Entry.abandoned ∉ r.log) {u : U}
    (h1 : Act.abandon ∉ as → J r.state (handledAll r.log) (askedAll r.log ++ as.flatMap (asks c)) u)
    (h2 : Act.abandon ∈ as → G r.state (handledAll r.log) (askedAll r.log ++ as.flatMap (asks c))) :
    Trailed J G (doActs c { r with user := u } as) ∧ (doActs c { r with user := u } as).state = r.state := by
  obtain ⟨l, e1, e2, e3, e4⟩ := doActs_log (c := c) as { r with user := u }
  obtain ⟨g1, g2, _⟩ := doActs_user (c := c) as { r with user := u }
  obtain ⟨q1, q2⟩ := quiet_append (l := r.log) e2
  have e6 := doActs_asks (c := c) as { r with user := u }
  refine ⟨⟨?_, fun h => ?_, fun h => ?_, fun h => ?_⟩, g2⟩
  · rw [e1, g2]; exact q1.trans hst
  · rw [e6, e1, g1, g2]
    have hn : Act.abandon ∉ as := fun hm => by rw [doActs_abandon as (.inr hm)] at h; cases h
    show J r.state (handledAll (r.log ++ l)) (askedAll r.log ++ _) u
    rw [q2]; exact h1 hn
  · have hn : Act.abandon ∉ as := fun hm => by rw [doActs_abandon as (.inr hm)] at h; cases h
    rw [e1, List.mem_append, not_or]; exact ⟨hno, (e4 hn).2⟩
  · have hy : Act.abandon ∈ as := by
      by_contra hn
      rw [(e4 hn).1] at h
      rw [show ({ r with user := u } : Run D A U).abandon = r.abandon from rfl, hab] at h
      cases h
    obtain ⟨l1, l2, e5, e7⟩ := List.eq_append_cons_of_mem (e3 hy)
    refine ⟨r.log ++ l1, l2, ?_, by rw [List.mem_append, not_or]; exact ⟨hno, e7⟩, ?_⟩
    · rw [e1, e5]; simp
    · obtain ⟨p1, p2⟩ := quiet_append (l := r.log) (l' := l1) fun x hx => e2 x (by rw [e5]; simp [hx])
      rw [e6, p1, p2, hst]; exact h2 hy

theorem trailed_processMsg (k : Trail c J G) {r r' : Run D A U} {m : Message D} (f : Trailed J G r) (hm : m.op = r.state)
    (h : processMsg c r m = .ok r') : Trailed J G r' ∧ r'.state = r.state := by
  have hst : stageOf (r.log ++ [.handled m]) = r.state := by rw [stageOf_snoc]; exact f.stage
  have hha : handledAll (r.log ++ [Entry.handled (A := A) m]) = handledAll r.log ++ [m] := by rw [handledAll_append]; rfl
  have has : askedAll (r.log ++ [Entry.handled (A := A) m]) = askedAll r.log := mute_append (by simp [Mute])
  have rej : (r.abandon = false → ¬ ∃ a, Accepts c m a) → Trailed J G { r with log := r.log ++ [.handled m] } := by
    intro hn
    refine ⟨hst, fun ha => ?_, fun ha => ?_, fun ha => ?_⟩
    · show J r.state (handledAll (r.log ++ [.handled m])) (askedAll (r.log ++ [.handled m])) r.user
      rw [hha, has, ← hm]
      exact k.reject m _ _ _ (by rw [hm]; exact f.data ha) (hn ha)
    · show Entry.abandoned ∉ r.log ++ [.handled m]
      simp [f.none ha]
    · obtain ⟨l1, l2, e, g0, g⟩ := f.gave ha
      exact ⟨l1, l2 ++ [.handled m], by show r.log ++ _ = _; rw [e]; simp, g0, by show G _ _ (askedAll (r.log ++ _)); rw [has]; exact g⟩
  rw [processMsg] at h
  dsimp only at h
  by_cases ha : r.abandon = true
  · rw [if_pos ha] at h; rw [← Outcome.ok.inj h]; exact ⟨rej fun h => (by rw [ha] at h; cases h), rfl⟩
  rw [if_neg ha] at h
  cases hs : c.stage? m.op with
  | none => rw [hs] at h; cases h
  | some s =>
  rw [hs] at h
  dsimp only at h
  obtain ⟨h0, hs'⟩ := stage?_some hs
  have same : ∀ s', c.stages[m.op.toNat]? = some s' → s' = s := fun s' e => Option.some.inj (e.symm.trans hs')
  cases hpr : s.proc with
  | none =>
    rw [hpr] at h; rw [← Outcome.ok.inj h]
    refine ⟨rej fun _ => ?_, rfl⟩
    rintro ⟨a, s', e1, _, e2, _⟩
    rw [same s' e1, hpr] at e2; cases e2
  | some proc =>
  rw [hpr] at h
  dsimp only at h
  cases ht : s.typeOk m.dto with
  | false =>
    rw [ht] at h; rw [← Outcome.ok.inj h]
    refine ⟨rej fun _ => ?_, rfl⟩
    rintro ⟨a, s', e1, _, _, e2, _⟩
    rw [same s' e1, ht] at e2; cases e2
  | true =>
  rw [ht] at h
  simp only [Bool.not_true, Bool.false_eq_true, if_false] at h
  cases hu : s.unmarshal m.dto with
  | panic => rw [hu] at h; cases h
  | err =>
    rw [hu] at h; rw [← Outcome.ok.inj h]
    refine ⟨rej fun _ => ?_, rfl⟩
    rintro ⟨a, s', e1, _, _, _, e2, _⟩
    rw [same s' e1, hu] at e2; cases e2
  | ok a =>
  rw [hu] at h
  dsimp only at h
  by_cases hr : (!(decide (0 ≤ m.sender) && decide (m.sender < c.members))) = true
  · rw [if_pos hr] at h; rw [← Outcome.ok.inj h]
    refine ⟨rej fun _ => ?_, rfl⟩
    rintro ⟨a, s', _, _, _, _, _, e2, e3, _⟩
    simp [e2, e3] at hr
  rw [if_neg hr] at h
  cases hv : s.senderValid a m.sender with
  | panic => rw [hv] at h; cases h
  | err => rw [hv] at h; cases h
  | ok b =>
    rw [hv] at h
    cases b with
    | false =>
      rw [← Outcome.ok.inj h]
      refine ⟨rej fun _ => ?_, rfl⟩
      rintro ⟨a', s', e1, _, _, _, e2, _, _, e3⟩
      rw [same s' e1] at e2 e3
      rw [Outcome.ok.inj (e2.symm.trans hu), hv] at e3; cases e3
    | true =>
      dsimp only at h
      rw [Outcome.bind_eq_ok] at h
      obtain ⟨⟨u, acts⟩, h1, h⟩ := h
      rw [Outcome.pure_eq] at h
      rw [← Outcome.ok.inj h]
      have h2 : proc r.user a = .ok (u, acts) := by
        cases hp : proc r.user a with
        | ok y => rw [hp] at h1; exact h1
        | err => rw [hp] at h1; cases h1
        | panic => rw [hp] at h1; cases h1
      have hacc : Accepts c m a := by
        simp only [Bool.not_eq_true', Bool.and_eq_false_iff, decide_eq_false_iff_not, not_or, not_not] at hr
        exact ⟨s, hs', h0, by rw [hpr]; rfl, ht, hu, hr.1, hr.2, hv⟩
      have hab : r.abandon = false := by simpa using ha
      obtain ⟨k1, k2⟩ := k.proc s proc m a (handledAll r.log) (askedAll r.log) r.user u acts hs hpr hacc (by rw [hm]; exact f.data hab) h2
      have hq : handledAll ((r.log ++ [Entry.handled m]) ++ [Entry.invoked m a]) = handledAll r.log ++ [m] := by
        rw [handledAll_append, hha]; simp [handledAll]
      have hq' : askedAll ((r.log ++ [Entry.handled m]) ++ [Entry.invoked m a]) = askedAll r.log := by
        rw [mute_append (by simp [Mute]), has]
      exact trailed_acts (r := { r with log := (r.log ++ [.handled m]) ++ [.invoked m a] }) acts
        (by show stageOf _ = _; rw [stageOf_snoc]; exact hst) hab (by simp [f.none hab])
        (fun hn => by show J r.state (handledAll _) (askedAll _ ++ _) u; rw [hq, hq', ← hm]; exact k1 hn)
        (fun hy => by show G r.state (handledAll _) (askedAll _ ++ _); rw [hq, hq', ← hm]; exact k2 hy)

theorem trailed_processAll (k : Trail c J G) (ms : List (Message D)) {r r' : Run D A U} (f : Trailed J G r)
    (hm : ∀ m ∈ ms, m.op = r.state) (h : processAll c r ms = .ok r') : Trailed J G r' := by
  induction ms generalizing r with
  | nil => rw [processAll] at h; rw [← Outcome.ok.inj h]; exact f
  | cons m ms ih =>
    rw [processAll, Outcome.bind_eq_ok] at h
    obtain ⟨r1, h1, h2⟩ := h
    obtain ⟨g1, g2⟩ := trailed_processMsg k f (hm m (by simp)) h1
    exact ih g1 (fun m' hm' => (hm m' (by simp [hm'])).trans g2.symm) h2

theorem trailed_callStep (k : Trail c J G) {r r' : Run D A U} {s : Stage D A U} (hs : c.stage? r.state = some s)
    (hst : stageOf r.log = r.state) (hd : r.abandon = false → J (r.state - 1) (handledAll r.log) (askedAll r.log) r.user)
    (ho : r.abandon = false → Entry.abandoned ∉ r.log)
    (hg : r.abandon = true → ∃ l1 l2, r.log = l1 ++ .abandoned :: l2 ∧ Entry.abandoned ∉ l1 ∧
      G (stageOf l1) (handledAll l1) (askedAll r.log))
    (h : callStep c r s = .ok r') : Trailed J G r' ∧ r'.state = r.state := by
  rw [callStep] at h
  by_cases ha : r.abandon = true
  · rw [if_pos ha] at h; rw [← Outcome.ok.inj h]; exact ⟨⟨hst, fun h => (by rw [ha] at h; cases h), ho, hg⟩, rfl⟩
  have hab : r.abandon = false := by simpa using ha
  rw [if_neg ha] at h
  cases hstp : s.step with
  | none => rw [hstp] at h; rw [← Outcome.ok.inj h]; exact ⟨⟨hst, fun _ => k.skip _ s _ _ _ hs hstp (hd hab), ho, hg⟩, rfl⟩
  | some f =>
    rw [hstp] at h
    dsimp only at h
    rw [Outcome.bind_eq_ok] at h
    obtain ⟨⟨u, acts⟩, h1, h⟩ := h
    rw [Outcome.pure_eq] at h
    rw [← Outcome.ok.inj h]
    have h2 : f r.user = .ok (u, acts) := by
      cases hp : f r.user with
      | ok y => rw [hp] at h1; exact h1
      | err => rw [hp] at h1; cases h1
      | panic => rw [hp] at h1; cases h1
    obtain ⟨k1, k2⟩ := k.step r.state s f _ _ _ u acts hs hstp (hd hab) h2
    have hq : handledAll (r.log ++ [Entry.stepped r.state]) = handledAll r.log := by rw [handledAll_append]; simp [handledAll]
    have hq' : askedAll (r.log ++ [Entry.stepped r.state]) = askedAll r.log := mute_append (by simp [Mute])
    exact trailed_acts (r := { r with log := r.log ++ [.stepped r.state] }) acts
      (by show stageOf _ = _; rw [stageOf_snoc]; exact hst) hab (by simp [ho hab])
      (fun hn => by show J r.state (handledAll _) (askedAll _ ++ _) u; rw [hq, hq']; exact k1 hn)
      (fun hy => by show G r.state (handledAll _) (askedAll _ ++ _); rw [hq, hq']; exact k2 hy)

theorem trailed_enterStage (k : Trail c J G) {r r' : Run D A U} (f : Trailed J G r)
    (hb : ∀ m ∈ (r.rcvbuf.get? (r.state + 1)).getD [], m.op = r.state + 1) (h : enterStage c r = .ok r') : Trailed J G r' := by
  rw [enterStage] at h
  dsimp only at h
  cases hs : c.stage? (r.state + 1) with
  | none => rw [hs] at h; cases h
  | some s =>
  rw [hs] at h
  dsimp only at h
  rw [Outcome.bind_eq_ok] at h
  obtain ⟨r1, h1, h⟩ := h
  rw [Outcome.bind_eq_ok] at h
  obtain ⟨r2, h2, h⟩ := h
  rw [Outcome.pure_eq] at h
  rw [← Outcome.ok.inj h]
  obtain ⟨l, ⟨hl, hl', hl2⟩, hlog⟩ : ∃ l : List (Entry D A), ((∀ x ∈ l, Quiet x) ∧ (∀ x ∈ l, Mute x) ∧ Entry.abandoned ∉ l) ∧ (flushSndBuf { r with
      state := r.state + 1, deadline := r.deadline + s.timeout, log := r.log ++ [.entered (r.state + 1)] }).log =
      (r.log ++ [.entered (r.state + 1)]) ++ l := ⟨_, ⟨by simp [Quiet], by simp [Mute], by simp⟩, rfl⟩
  obtain ⟨q1, q2⟩ := quiet_append (l := r.log ++ [.entered (r.state + 1)]) hl
  have q3 : handledAll (r.log ++ [Entry.entered (D := D) (A := A) (r.state + 1)]) = handledAll r.log := by
    rw [handledAll_append]; simp [handledAll]
  have q4 : askedAll ((r.log ++ [Entry.entered (D := D) (A := A) (r.state + 1)]) ++ l) = askedAll r.log := by
    rw [mute_append hl', mute_append (by simp [Mute])]
  obtain ⟨f1, s1⟩ := trailed_callStep k (r := flushSndBuf { r with
      state := r.state + 1, deadline := r.deadline + s.timeout, log := r.log ++ [.entered (r.state + 1)] }) hs
    (by rw [hlog, q1, stageOf_snoc]; rfl)
    (fun ha => by
      rw [hlog, q2, q3, q4]
      show J (r.state + 1 - 1) _ _ r.user
      rw [show r.state + 1 - 1 = r.state by omega]
      exact f.data ha)
    (fun ha => by rw [hlog]; simp [f.none ha, hl2])
    (fun ha => by
      obtain ⟨l1, l2, e, g0, g⟩ := f.gave ha
      exact ⟨l1, l2 ++ [.entered (r.state + 1)] ++ l, by rw [hlog, e]; simp, g0, by rw [hlog, q4]; exact g⟩) h1
  have hbuf : r1.rcvbuf = r.rcvbuf := by
    rw [callStep] at h1
    by_cases ha : (flushSndBuf { r with
        state := r.state + 1, deadline := r.deadline + s.timeout, log := r.log ++ [.entered (r.state + 1)] }).abandon = true
    · rw [if_pos ha] at h1; rw [← Outcome.ok.inj h1]; rfl
    rw [if_neg ha] at h1
    cases hstp : s.step with
    | none => rw [hstp] at h1; rw [← Outcome.ok.inj h1]; rfl
    | some g =>
      rw [hstp] at h1
      dsimp only at h1
      rw [Outcome.bind_eq_ok] at h1
      obtain ⟨⟨u, acts⟩, _, h1⟩ := h1
      rw [Outcome.pure_eq] at h1
      rw [← Outcome.ok.inj h1]
      exact (doActs_user acts _).2.2
  have s1' : r1.state = r.state + 1 := s1
  have hms : ∀ m ∈ (r1.rcvbuf.get? (r.state + 1)).getD [], m.op = r1.state := by
    intro m hm
    rw [hbuf] at hm
    rw [s1']; exact hb m hm
  exact (trailed_processAll k _ f1 hms h2).quiet (l := []) (List.append_nil _).symm (by simp) (by simp) (by simp) rfl rfl rfl

theorem trailed_loopTop (k : Trail c J G) {r r' : Run D A U} (f : Trailed J G r)
    (hb : ∀ m ∈ (r.rcvbuf.get? (r.state + 1)).getD [], m.op = r.state + 1) (h : loopTop c r = .ok r') : Trailed J G r' := by
  rw [loopTop] at h
  by_cases h1 : r.state < (c.stages.length : Int) - 1
  · rw [if_pos h1] at h
    by_cases h2 : r.state > -1
    · rw [if_pos h2] at h; rw [← Outcome.ok.inj h]; exact f.quiet (l := [.paused]) rfl (by simp [Quiet]) (by simp [Mute]) (by simp) rfl rfl rfl
    · rw [if_neg h2] at h; exact trailed_enterStage k f hb h
  · rw [if_neg h1] at h; rw [← Outcome.ok.inj h]; exact f.quiet (l := [.cleanup]) rfl (by simp [Quiet]) (by simp [Mute]) (by simp) rfl rfl rfl

theorem trailed_step (k : Trail c J G) {r r' : Run D A U} {e : Ev D} (f : Trailed J G r)
    (hb : ∀ m ∈ (r.rcvbuf.get? (r.state + 1)).getD [], m.op = r.state + 1) (h : step c r e = .ok r') : Trailed J G r' := by
  have same : ∀ r' : Run D A U, r'.log = r.log → r'.state = r.state → r'.abandon = r.abandon → r'.user = r.user → Trailed J G r' :=
    fun r' h1 h2 h3 h4 => f.quiet (l := []) (by rw [h1, List.append_nil]) (by simp) (by simp) (by simp) h2 h3 h4
  cases e with
  | tick n =>
    rw [step] at h
    by_cases hn : r.now ≤ n
    · rw [if_pos hn] at h; rw [← Outcome.ok.inj h]; exact same _ rfl rfl rfl rfl
    · rw [if_neg hn] at h; cases h
  | thread =>
    rw [step, thread] at h
    cases hp : r.phase with
    | fresh => rw [hp] at h; rw [← Outcome.ok.inj h]; exact same _ rfl rfl rfl rfl
    | started => rw [hp] at h; exact trailed_loopTop k f hb h
    | staged =>
      rw [hp] at h; dsimp only at h
      by_cases hd : r.deadline ≤ r.now
      · rw [if_pos hd] at h; exact trailed_loopTop k f hb h
      · rw [if_neg hd] at h; cases h
    | pausing =>
      rw [hp] at h; dsimp only at h
      by_cases hd : r.pauseEnd ≤ r.now
      · rw [if_pos hd, ← hp] at h
        exact trailed_enterStage k (r := { r with paused := false }) (same _ rfl rfl rfl rfl) hb h
      · rw [if_neg hd] at h; cases h
    | done => rw [hp] at h; cases h
  | msg m =>
    rw [step, receive] at h
    dsimp only at h
    have hh : Trailed J G { r with log := r.log ++ [.received m] } :=
      f.quiet (l := [.received m]) rfl (by simp [Quiet]) (by simp [Mute]) (by simp) rfl rfl rfl
    by_cases h1 : (m.op < r.state || (decide (m.op = r.state) && r.paused)) = true
    · rw [if_pos h1] at h; rw [← Outcome.ok.inj h]; exact hh
    rw [if_neg h1] at h
    by_cases h2 : m.op > r.state
    · rw [if_pos h2] at h; rw [← Outcome.ok.inj h]
      exact hh.quiet (l := []) (List.append_nil _).symm (by simp) (by simp) (by simp) rfl rfl rfl
    · rw [if_neg h2] at h
      have h3 : m.op = r.state := by
        simp only [Bool.or_eq_true, decide_eq_true_eq, not_or] at h1
        omega
      exact (trailed_processMsg k hh h3 h).1

/-- Follows the data of a run through its stages. -/
theorem trail_exec (k : Trail c J G) {u : U} (hu : J (-1) [] [] u) {t0 : Int} {h : List (Ev D)} {r : Run D A U}
    (hr : exec c (newRun D A u t0) h = .ok r) : Trailed J G r := by
  induction h using List.reverseRecOn generalizing r with
  | nil =>
    rw [exec] at hr
    rw [← Outcome.ok.inj hr]
    exact ⟨rfl, fun _ => hu, fun _ => List.not_mem_nil, fun ha => by cases ha⟩
  | append_singleton h e ih =>
    obtain ⟨r1, h1, h2⟩ := exec_snoc hr
    have a := agree_exec h1
    exact trailed_step k (ih h1) (fun m hm => by rw [a.inv.core.rcv _ (by omega)] at hm; exact early_op hm) h2

end

end Verif.Prot
