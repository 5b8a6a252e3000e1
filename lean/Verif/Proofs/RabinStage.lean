import Verif.Proofs.RabinRun

/-! The stages of a run of a member with kyber's generator. -/
namespace Verif.Rabin
open Verif.Point Verif.Props Verif.Dkg Verif.Dto Verif.Dss Verif.Spec.Rabin Verif.Prot
variable {S : Suite} {R : Choice} {i : Nat} {H : List UInt8 → List UInt8} {SH : Share → List UInt8} {env : Env}

/-- The data of a run in stage `n`. -/
def Jst (S : Suite) (R : Choice) (i : Nat) (n : Int) (u : Data Gen) : Prop := Kst S R i n u.kyb ∧ (n < 11 → ∀ s, Output.sig s ∉ u.out) ∧ (n < 8 → u.out = [])

/-- The next stage with the same generator. -/
theorem Kst.next {n : Int} {k : Gen} (x : Kst S R i n k) (hn : n ≠ 0 ∧ n ≠ 3 ∧ n ≠ 4) : Kst S R i (n + 1) k :=
  ⟨fun h => x.first (by omega), fun h => x.inv (by omega), fun h1 h2 => x.synced (by omega) (by omega), fun h => (by omega), fun h => x.own (by omega)⟩

theorem Jst.next {n : Int} {u u' : Data Gen} (x : Jst S R i n u) (hn : n ≠ 0 ∧ n ≠ 3 ∧ n ≠ 4) (hk : u'.kyb = u.kyb)
    (ho : n + 1 < 11 → ∀ s, Output.sig s ∈ u'.out → Output.sig s ∈ u.out) (h8 : n + 1 < 8 → u'.out = u.out) : Jst S R i (n + 1) u' :=
  ⟨by rw [hk]; exact x.1.next hn, fun h s hs => x.2.1 (by omega) s (ho h s hs), fun h => (h8 h).trans (x.2.2 (by omega))⟩

theorem Jst.same {n : Int} {u u' : Data Gen} (x : Jst S R i n u) (hk : u'.kyb = u.kyb) (ho : n < 11 → u'.out = u.out) : Jst S R i n u' :=
  ⟨by rw [hk]; exact x.1, fun h s hs => x.2.1 h s (by rw [← ho h]; exact hs), fun h => (ho (by omega)).trans (x.2.2 h)⟩

theorem kst_deal {k : Gen} (x : Kst S R i 1 k) (d : Deal) : Kst S R i 1 (processDeal S (R.member i) k d).1 :=
  ⟨fun h => by omega, fun _ => (x.inv (by omega)).deal d, fun _ _ => synced_deal (x.synced (by omega) (by omega)) _ d, fun h => by omega, fun h => by omega⟩

theorem kst_resp {k : Gen} (x : Kst S R i 2 k) (r : Response) : Kst S R i 2 (processResponse S (R.member i) k r).1 :=
  ⟨fun h => by omega, fun _ => (x.inv (by omega)).resp r, fun _ _ => synced_resp rfl (x.synced (by omega) (by omega)) r, fun h => by omega, fun h => by omega⟩

theorem kst_timeout {k : Gen} (x : Kst S R i 3 k) : Kst S R i 4 (setTimeout S (R.member i) k) :=
  ⟨fun h => by omega, fun _ => (x.inv (by omega)).timeout, fun h h' => by omega, fun _ hd => cert_timeout (m := R.member i) (x.synced (by omega) (by omega)) hd,
    fun h => by omega⟩

theorem kst_own (h : Able S R i) {k : Gen} (x : Kst S R i 4 k) {sc : SecretCommits} (hs : (secretCommits S (R.member i) k).2 = .ok sc) :
    Kst S R i 5 (secretCommits S (R.member i) k).1 := by
  have hinv : Verif.Rabin.Inv (R.member i) (R.f i) (secretCommits S (R.member i) k).1 := (x.inv (by omega)).step (S := S) rfl .own
  refine ⟨fun h => by omega, fun _ => hinv, fun h h' => by omega, fun h => by omega, fun _ => ?_⟩
  rw [secretCommits] at hs ⊢
  split at hs
  · rename_i hd
    obtain ⟨a, h1, h2⟩ := x.cert rfl hd
    rw [if_pos hd]
    refine ⟨mem_qual h (a := a) h1 h2, ?_⟩
    refine ((GoMap.get?_set _ _ _ _).trans (if_pos rfl)).trans ?_
    rw [(x.inv (by omega)).secret]
  · cases hs

theorem kst_commits {k : Gen} (x : Kst S R i 5 k) {y : CommitsDTO} {c : SecretCommits} (hy : dtoToCommits y = .ok c) (hi : c.index ≠ i) :
    Kst S R i 5 (processSecretCommits S (R.member i) k c).1 := by
  have hinv : Verif.Rabin.Inv (R.member i) (R.f i) (processSecretCommits S (R.member i) k c).1 := (x.inv (by omega)).step (S := S) rfl (.commits y c hy)
  refine ⟨fun h => by omega, fun _ => hinv, fun h h' => by omega, fun h => by omega, fun _ => ?_⟩
  have key := x.own (by omega)
  rw [processSecretCommits]
  split
  · split
    · exact key
    · split
      · split
        · exact key
        · split
          · refine ⟨key.1, ?_⟩
            exact (GoMap.get?_set _ _ _ _).trans ((if_neg hi).trans key.2)
          · exact key
          · exact key
          · exact key
      · exact key
  · exact key

/-- What `Held` asks of a stage. -/
structure Kept (S : Suite) (R : Choice) (i : Nat) (n : Int) (s : Stage Dto Obj (Data Gen)) : Prop where
  skip : s.step = none → ∀ u, Jst S R i (n - 1) u → Jst S R i n u
  step : ∀ f, s.step = some f → ∀ u u' as, Jst S R i (n - 1) u → f u = .ok (u', as) → Jst S R i n u' ∨ (Jst S R i (n - 1) u' ∧ GivesUp as)
  proc : ∀ f, s.proc = some f → ∀ a, (∀ c, a = .commits c → (∃ y, dtoToCommits y = .ok c) ∧ (s.unmarshal = unmarshal .commits → c.index ≠ i)) →
    ∀ u u' as, Jst S R i n u → f u a = .ok (u', as) → Jst S R i n u'

theorem kept_psStep {n : Int} {f : Data Gen → Outcome (Data Gen × List (Act Dto))}
    (h : ∀ u u' as, Jst S R i (n - 1) u → f u = .ok (u', as) → Jst S R i n u' ∨ (Jst S R i (n - 1) u' ∧ GivesUp as)) : Kept S R i n (psStep f) := by
  refine ⟨fun e => (by cases e), fun g e => ?_, fun g e => (by cases e)⟩
  have e := Option.some.inj e
  subst e
  exact h

theorem kept_psProc {n : Int} {step : Option (Data Gen → Outcome (Data Gen × List (Act Dto)))}
    {proc : Data Gen → Obj → Outcome (Data Gen × List (Act Dto))} {kind : Kind} {v : Obj → Int → Outcome Bool}
    (hskip : step = none → n ≠ 1 ∧ n ≠ 4 ∧ n ≠ 5)
    (hstep : ∀ f, step = some f → ∀ u u' as, Jst S R i (n - 1) u → f u = .ok (u', as) → Jst S R i n u' ∨ (Jst S R i (n - 1) u' ∧ GivesUp as))
    (hproc : ∀ a, (∀ c, a = .commits c → (∃ y, dtoToCommits y = .ok c) ∧ (kind = .commits → c.index ≠ i)) → ∀ u u' as, Jst S R i n u →
      proc u a = .ok (u', as) → Jst S R i n u') : Kept S R i n (psProc step proc kind v) := by
  refine ⟨fun e u hu => ?_, hstep, fun g e a ha => ?_⟩
  · have := hu.next (u' := u) (by have := hskip e; omega) rfl (fun _ _ h => h) (fun _ => rfl)
    rwa [Int.sub_add_cancel] at this
  · have e := Option.some.inj e
    subst e
    refine hproc a fun c hc => ⟨(ha c hc).1, fun hk => (ha c hc).2 ?_⟩
    subst hk
    rfl

theorem deals_data {u u' : Data Gen} {as : List (Act Dto)} (h : Able S R i) (hu : Jst S R i 0 u) (e : stepDeal (kyb S (R.member i)) u = .ok (u', as)) :
    Jst S R i 1 u' := by
  have hk : u.kyb = first S R i := hu.1.first (by omega)
  have hd : (kyb S (R.member i)).deals u.kyb = (dealtGen S R i, .ok (otherDeals (R.member i) ((List.range R.keys.length).map (fun b => dealOf S R i b)))) := by
    rw [hk]; exact deals_able h
  rw [stepDeal, hd] at e
  dsimp only at e
  obtain ⟨x, _, e⟩ := (Outcome.bind_eq_ok _ _ _).1 e
  cases e
  exact ⟨kst_deals h, fun _ => hu.2.1 (by omega), fun _ => hu.2.2 (by omega)⟩

/-- Without a step that changes the generator. -/
theorem Jst.keep {n : Int} {u u' : Data Gen} (x : Jst S R i (n - 1) u) (hn : n ≠ 1 ∧ n ≠ 4 ∧ n ≠ 5) (hk : u'.kyb = u.kyb)
    (ho : n < 11 → ∀ s, Output.sig s ∈ u'.out → Output.sig s ∈ u.out) (h8 : n < 8 → u'.out = u.out) : Jst S R i n u' := by
  have := x.next (u' := u') (by omega) hk (fun h => ho (by omega)) (fun h => h8 (by omega))
  rwa [Int.sub_add_cancel] at this

theorem dkg_kept (h : Able S R i) (n : Nat) (s : Stage Dto Obj (Data Gen)) (hs : (dkgStages (kyb S (R.member i)))[n]? = some s) : Kept S R i n s := by
  match n, hs with
  | 0, hs =>
    have e := Option.some.inj hs
    subst e
    refine kept_psStep fun u u' as hu e => ?_
    cases e
    exact .inl (hu.keep (by omega) rfl (fun _ _ h => h) fun _ => rfl)
  | 1, hs =>
    have e := Option.some.inj hs
    subst e
    refine kept_psProc (fun e => by cases e) (fun f e u u' as hu hf => ?_) (fun a ha u u' as hu hf => ?_)
    · have e := Option.some.inj e
      subst e
      exact .inl (deals_data h hu hf)
    · cases a with
      | deal d =>
        have key : Jst S R i 1 { u with kyb := (processDeal S (R.member i) u.kyb d).1 } := ⟨kst_deal hu.1 d, hu.2⟩
        rw [Dkg.processDeal] at hf
        change (match (processDeal S (R.member i) u.kyb d).2 with
          | .panic => _
          | .err => _
          | .ok none => _
          | .ok (some resp) => _) = _ at hf
        split at hf <;> cases hf <;> exact key
      | _ => cases hf
  | 2, hs =>
    have e := Option.some.inj hs
    subst e
    refine kept_psProc (fun _ => by decide) (fun f e => by cases e) (fun a ha u u' as hu hf => ?_)
    cases a with
    | response r =>
      have key : Jst S R i 2 { u with kyb := (processResponse S (R.member i) u.kyb r).1 } := ⟨kst_resp hu.1 r, hu.2⟩
      rw [Dkg.processResponse] at hf
      change (match (processResponse S (R.member i) u.kyb r).2 with
        | .panic => _
        | .err => _
        | .ok none => _
        | .ok (some j) => _) = _ at hf
      split at hf
      · cases hf
      · cases hf; exact key
      · cases hf; exact key
      · split at hf <;> cases hf <;> exact key
    | _ => cases hf
  | 3, hs =>
    have e := Option.some.inj hs
    subst e
    refine kept_psProc (fun _ => by decide) (fun f e => by cases e) (fun a ha u u' as hu hf => ?_)
    cases a with
    | justification j => cases hf; exact hu
    | _ => cases hf
  | 4, hs =>
    have e := Option.some.inj hs
    subst e
    refine kept_psStep fun u u' as hu e => ?_
    cases e
    exact .inl ⟨kst_timeout hu.1, fun _ => hu.2.1 (by decide), fun _ => hu.2.2 (by decide)⟩
  | 5, hs =>
    have e := Option.some.inj hs
    subst e
    refine kept_psProc (fun e => by cases e) (fun f e u u' as hu hf => ?_) (fun a ha u u' as hu hf => ?_)
    · have e := Option.some.inj e
      subst e
      rw [stepCommits] at hf
      split at hf
      · cases hf
      · dsimp only at hf
        split at hf
        · cases hf
          exact .inr ⟨hu.same rfl fun _ => rfl, by simp [GivesUp]⟩
        · change (match (secretCommits S (R.member i) u.kyb).2 with
            | .panic => _
            | .err => _
            | .ok sc => _) = _ at hf
          split at hf
          · cases hf
          · rename_i hsc
            cases hf
            refine .inr ⟨hu.same ?_ fun _ => rfl, by simp [GivesUp]⟩
            show (secretCommits S (R.member i) u.kyb).1 = u.kyb
            rw [secretCommits] at hsc ⊢
            split at hsc
            · cases hsc
            · rename_i hd; rw [if_neg hd]
          · rename_i sc hsc
            obtain ⟨x, _, hf⟩ := (Outcome.bind_eq_ok _ _ _).1 hf
            cases hf
            exact .inl ⟨kst_own h hu.1 hsc, fun _ => hu.2.1 (by decide), fun _ => hu.2.2 (by decide)⟩
    · cases a with
      | commits c =>
        obtain ⟨⟨y, hy⟩, hi⟩ := ha c rfl
        have key : Jst S R i 5 { u with kyb := (processSecretCommits S (R.member i) u.kyb c).1 } := ⟨kst_commits hu.1 hy (hi rfl), hu.2⟩
        rw [processCommits] at hf
        change (match (processSecretCommits S (R.member i) u.kyb c).2 with
          | .panic => _
          | .err => _
          | .ok none => _
          | .ok (some cc) => _) = _ at hf
        split at hf
        · cases hf
        · cases hf; exact key
        · cases hf; exact key
        · obtain ⟨x, _, hf⟩ := (Outcome.bind_eq_ok _ _ _).1 hf
          cases hf
          exact key
      | _ => cases hf
  | 6, hs =>
    have e := Option.some.inj hs
    subst e
    refine kept_psProc (fun _ => by decide) (fun f e => by cases e) (fun a ha u u' as hu hf => ?_)
    cases a with
    | complCommits j => cases hf; exact hu
    | _ => cases hf
  | 7, hs =>
    have e := Option.some.inj hs
    subst e
    refine kept_psProc (fun _ => by decide) (fun f e => by cases e) (fun a ha u u' as hu hf => ?_)
    cases a with
    | reconsCommits j => cases hf; exact hu
    | _ => cases hf
  | 8, hs =>
    have e := Option.some.inj hs
    subst e
    refine kept_psStep fun u u' as hu hf => .inl ?_
    refine hu.keep (by decide) ?_ ?_ (fun h => absurd h (by decide)) <;> rw [stepFinal] at hf
    · split at hf
      · split at hf
        · cases hf
        · cases hf; rfl
        · split at hf <;> cases hf
          rfl
      · cases hf; rfl
    · intro _ s
      split at hf
      · split at hf
        · cases hf
        · cases hf; exact id
        · split at hf <;> cases hf
          intro hs
          simpa using hs
      · cases hf; exact id
  | m + 9, hs => exact absurd hs (by simp [dkgStages])

theorem dss_kept (h : Able S R i) (n : Nat) (s : Stage Dto Obj (Data Gen)) (hs : (dssStages (kyb S (R.member i)) H SH env)[n]? = some s) : Kept S R i n s := by
  rw [dssStages] at hs
  by_cases hn : n < 9
  · rw [List.getElem?_append_left (by simpa [dkgStages] using hn)] at hs
    exact dkg_kept h n s hs
  rw [List.getElem?_append_right (by simpa [dkgStages] using hn)] at hs
  obtain ⟨m, rfl⟩ : ∃ m, n = m + 9 := ⟨n - 9, by omega⟩
  rw [show m + 9 - (dkgStages (kyb S (R.member i))).length = m from by simp [dkgStages]] at hs
  match m, hs with
  | 0, hs =>
    have e := Option.some.inj hs
    subst e
    refine kept_psStep fun u u' as hu hf => .inl ?_
    have key : u'.kyb = u.kyb ∧ u'.out = u.out := by
      rw [stInit] at hf
      split at hf
      · cases hf
      · cases hf; exact ⟨rfl, rfl⟩
      · split at hf
        · split at hf <;> cases hf <;> exact ⟨rfl, rfl⟩
        · cases hf
    exact hu.keep (by decide) key.1 (fun _ s => by rw [key.2]; exact id) fun _ => key.2
  | 1, hs =>
    have e := Option.some.inj hs
    subst e
    refine kept_psProc (fun e => by cases e) (fun f e u u' as hu hf => .inl ?_) (fun a ha u u' as hu hf => ?_)
    · have e := Option.some.inj e
      subst e
      have key : u'.kyb = u.kyb ∧ u'.out = u.out := by
        rw [stPartsig] at hf
        split at hf
        · cases hf
        · dsimp only at hf
          split at hf
          · cases hf
          · cases hf; exact ⟨rfl, rfl⟩
          · obtain ⟨x, _, hf⟩ := (Outcome.bind_eq_ok _ _ _).1 hf
            cases hf
            exact ⟨rfl, rfl⟩
      exact hu.keep (by decide) key.1 (fun _ s => by rw [key.2]; exact id) fun _ => key.2
    · cases a with
      | partsig p =>
        rw [prPartsig] at hf
        split at hf
        · cases hf
        · split at hf <;> cases hf
          exact hu.same rfl fun _ => rfl
      | _ => cases hf
  | 2, hs =>
    have e := Option.some.inj hs
    subst e
    refine kept_psStep fun u u' as hu hf => .inl ?_
    have key : u'.kyb = u.kyb := by
      rw [dssStFinal] at hf
      split at hf
      · cases hf
      · split at hf
        · cases hf; rfl
        · split at hf <;> cases hf <;> rfl
    exact hu.keep (by decide) key (fun h => absurd h (by decide)) (fun h => absurd h (by decide))
  | m + 3, hs => exact absurd hs (by simp)

/-- Messages of others. -/
theorem kept_held (h : Able S R i) {c : Conf Dto Obj (Data Gen)} (hc : ∀ (n : Nat) s, c.stages[n]? = some s → Kept S R i n s)
    (hv : ∀ (n : Nat) s, c.stages[n]? = some s → s.unmarshal = unmarshal .commits → s.senderValid = commitsV)
    (hu : ∀ (n : Nat) s, c.stages[n]? = some s → s.proc.isSome = true → ∃ k, s.unmarshal = unmarshal k) (hn : c.members = R.keys.length) :
    Held c (Jst S R i) (Foreign i) := by
  have key : ∀ n s, c.stage? n = some s → Kept S R i n s ∧ (s.unmarshal = unmarshal .commits → s.senderValid = commitsV) ∧
      (s.proc.isSome = true → ∃ k, s.unmarshal = unmarshal k) := by
    intro n s hs
    obtain ⟨h0, h1⟩ := stage?_some hs
    have := hc n.toNat s h1
    rw [Int.toNat_of_nonneg h0] at this
    exact ⟨this, hv _ s h1, hu _ s h1⟩
  refine ⟨fun n s hs he u hu => (key _ s hs).1.skip he u (by rwa [Int.add_sub_cancel]), fun n s f hs he u u' as hu hf => ?_,
    fun n s f hs hf m a hm h0 h1 ha hb u u' as hu e => (key _ s hs).1.proc f hf a (fun c' hc' => ?_) u u' as hu e⟩
  · have := (key _ s hs).1.step f he u u' as (by rwa [Int.add_sub_cancel]) hf
    rwa [Int.add_sub_cancel] at this
  · subst hc'
    refine ⟨?_, fun hk => ?_⟩
    · obtain ⟨k, hk⟩ := (key _ s hs).2.2 (by rw [hf]; rfl)
      rw [hk] at ha
      cases k <;> cases hd : m.dto <;> rw [hd] at ha <;> (try cases ha) <;> rw [unmarshal] at ha <;>
        obtain ⟨o, h1, h2⟩ := (Outcome.bind_eq_ok _ _ _).1 ha <;> cases h2
      exact ⟨_, h1⟩
    · obtain ⟨x, hx⟩ : ∃ x, m.dto = .commits x := by
        rw [hk] at ha
        cases hd : m.dto <;> rw [hd] at ha <;> first | exact ⟨_, rfl⟩ | cases ha
      rw [(key _ s hs).2.1 hk] at hb
      have hb := of_decide_eq_true (Outcome.ok.inj hb)
      have := h.few
      have e : uint32 m.sender = m.sender.toNat := by
        rw [uint32, Int.emod_eq_of_lt h0 (by rw [hn] at h1; have : ((2 : Nat) ^ 32 : Int) = 2 ^ 32 := by norm_num
                                             omega)]
      rw [hb, e]
      intro hi
      exact hm x hx (by omega)

theorem dss_held (h : Able S R i) (id : String) (self : Int) :
    Held (dssConf (kyb S (R.member i)) H SH env id self R.keys.length) (Jst S R i) (Foreign i) := by
  refine kept_held h (fun n s hs => dss_kept h n s hs) (fun n s hs => ?_) (fun n s hs => ?_) rfl
  all_goals
    have hm := List.mem_of_getElem? hs
    change s ∈ dssStages _ _ _ _ at hm
    rw [dssStages, List.mem_append] at hm
    simp only [dkgStages, List.mem_cons, List.not_mem_nil, or_false] at hm
  · intro hk
    have hk := congrFun hk (.commits ⟨0, [], [], []⟩)
    rcases hm with (rfl | rfl | rfl | rfl | rfl | rfl | rfl | rfl | rfl) | (rfl | rfl | rfl) <;>
      first | rfl | (exfalso; revert hk; simp [psStep, psProc, unmarshal, dtoToCommits, Layout.mapO])
  · rcases hm with (rfl | rfl | rfl | rfl | rfl | rfl | rfl | rfl | rfl) | (rfl | rfl | rfl) <;> intro hp <;>
      first | exact ⟨_, rfl⟩ | cases hp

theorem dkg_held (h : Able S R i) (id : String) (self : Int) :
    Held (dkgConf (kyb S (R.member i)) id self R.keys.length) (Jst S R i) (Foreign i) := by
  refine kept_held h (fun n s hs => dkg_kept h n s hs) (fun n s hs => ?_) (fun n s hs => ?_) rfl
  all_goals
    have hm := List.mem_of_getElem? hs
    change s ∈ dkgStages _ at hm
    simp only [dkgStages, List.mem_cons, List.not_mem_nil, or_false] at hm
  · intro hk
    have hk := congrFun hk (.commits ⟨0, [], [], []⟩)
    rcases hm with (rfl | rfl | rfl | rfl | rfl | rfl | rfl | rfl | rfl) <;>
      first | rfl | (exfalso; revert hk; simp [psStep, psProc, unmarshal, dtoToCommits, Layout.mapO])
  · rcases hm with (rfl | rfl | rfl | rfl | rfl | rfl | rfl | rfl | rfl) <;> intro hp <;>
      first | exact ⟨_, rfl⟩ | cases hp

theorem jst_new (k : Gen) (hk : k = first S R i) : Jst S R i (-1) (newData k) := ⟨by rw [hk]; exact kst_first _ (by decide), fun _ s h => (by cases h), fun _ => rfl⟩

/-! Safety -/

/-- The generator of `y`, where `deals` and `distKeyShare` only do something in some states. -/
noncomputable def tame {K : Type} (y : Kyb K) (A B : K → Prop) : Kyb K := by
  classical
  exact { y with
    deals := fun k => if A k then y.deals k else (k, .err)
    distKeyShare := fun k => if B k then y.distKeyShare k else .err }

/-- Two stages do the same. -/
structure Alike (n : Int) (A B : Gen → Prop) (s s' : Stage Dto Obj (Data Gen)) : Prop where
  proc : s.proc = s'.proc
  unmarshal : s.unmarshal = s'.unmarshal
  valid : s.senderValid = s'.senderValid
  type : s.typeOk = s'.typeOk
  skip : s.step = none → s'.step = none
  step : ∀ f, s.step = some f → ∃ f', s'.step = some f' ∧ ∀ u : Data Gen, (n = 1 → A u.kyb) → (n = 8 ∨ n = 9 → B u.kyb) → f u = f' u

theorem Alike.refl {n : Int} {A B : Gen → Prop} (s : Stage Dto Obj (Data Gen)) : Alike n A B s s :=
  ⟨rfl, rfl, rfl, rfl, id, fun f h => ⟨f, h, fun _ _ _ => rfl⟩⟩

theorem tame_alike {y : Kyb Gen} {A B : Gen → Prop} (n : Nat) (s : Stage Dto Obj (Data Gen)) (hs : (dssStages y H SH env)[n]? = some s) :
    ∃ s', (dssStages (tame y A B) H SH env)[n]? = some s' ∧ Alike n A B s s' ∧ (n < 9 → (dkgStages (tame y A B))[n]? = some s') := by
  have same : ∀ s', (dssStages (tame y A B) H SH env)[n]? = some s' → s' = s → (n < 9 → (dkgStages (tame y A B))[n]? = some s') →
      ∃ s', (dssStages (tame y A B) H SH env)[n]? = some s' ∧ Alike n A B s s' ∧ (n < 9 → (dkgStages (tame y A B))[n]? = some s') := by
    rintro s' h1 rfl h3
    exact ⟨s', h1, .refl _, h3⟩
  match n, hs with
  | 0, hs => exact same _ rfl (Option.some.inj hs) fun _ => rfl
  | 1, hs =>
    have e := Option.some.inj hs
    subst e
    refine ⟨_, rfl, ⟨rfl, rfl, rfl, rfl, fun h => (by cases h), fun f hf => ⟨_, rfl, fun u hA _ => ?_⟩⟩, fun _ => rfl⟩
    have e := Option.some.inj hf
    subst e
    rw [stepDeal, stepDeal]
    have : (tame y A B).deals u.kyb = y.deals u.kyb := if_pos (hA rfl)
    rw [this]
  | 2, hs => exact same _ rfl (Option.some.inj hs) fun _ => rfl
  | 3, hs => exact same _ rfl (Option.some.inj hs) fun _ => rfl
  | 4, hs => exact same _ rfl (Option.some.inj hs) fun _ => rfl
  | 5, hs => exact same _ rfl (Option.some.inj hs) fun _ => rfl
  | 6, hs => exact same _ rfl (Option.some.inj hs) fun _ => rfl
  | 7, hs => exact same _ rfl (Option.some.inj hs) fun _ => rfl
  | 8, hs =>
    have e := Option.some.inj hs
    subst e
    refine ⟨_, rfl, ⟨rfl, rfl, rfl, rfl, fun h => (by cases h), fun f hf => ⟨_, rfl, fun u _ hB => ?_⟩⟩, fun _ => rfl⟩
    have e := Option.some.inj hf
    subst e
    rw [stepFinal, stepFinal]
    have : (tame y A B).distKeyShare u.kyb = y.distKeyShare u.kyb := if_pos (hB (.inl rfl))
    rw [this]
    rfl
  | 9, hs =>
    have e := Option.some.inj hs
    subst e
    refine ⟨_, rfl, ⟨rfl, rfl, rfl, rfl, fun h => (by cases h), fun f hf => ⟨_, rfl, fun u _ hB => ?_⟩⟩, fun h => absurd h (by decide)⟩
    have e := Option.some.inj hf
    subst e
    rw [stInit, stInit]
    have : (tame y A B).distKeyShare u.kyb = y.distKeyShare u.kyb := if_pos (hB (.inr rfl))
    rw [this]
    rfl
  | 10, hs => exact same _ rfl (Option.some.inj hs) fun h => absurd h (by decide)
  | 11, hs => exact same _ rfl (Option.some.inj hs) fun h => absurd h (by decide)
  | m + 12, hs => exact absurd hs (by simp [dssStages, dkgStages])

/-- The states in which the functions of `tame` do something. -/
def Fresh (S : Suite) (R : Choice) (i : Nat) (k : Gen) : Prop := k = first S R i
@[inherit_doc Fresh] def Fit (R : Choice) (i : Nat) (k : Gen) : Prop := ∀ sh, distKeyShare (R.member i) k = .ok sh → Commits sh.commits

theorem tame_calm (h : Able S R i) : Calm (tame (kyb S (R.member i)) (Fresh S R i) (Fit R i)) where
  deals k := by
    classical
    show (ite (Fresh S R i k) _ _ : Gen × Outcome (List (Int × Deal))).2 ≠ _
    split
    · rename_i hk
      rw [show k = first S R i from hk]
      show (deals S (R.member i) (first S R i)).2 ≠ _
      rw [deals_able h]
      simp
    · simp
  processDeal := processDeal_ne_panic S _
  processResponse := processResponse_ne_panic S _
  processJustification k j := by show Outcome.err ≠ _; simp
  secretCommits := secretCommits_ne_panic S _
  processSecretCommits := processSecretCommits_ne_panic S _
  processComplaintCommits k j := by show Outcome.err ≠ _; simp
  processReconstructCommits k j := by show Outcome.err ≠ _; simp
  distKeyShare k := by
    classical
    show (ite (Fit R i k) _ _ : Outcome KeyShare) ≠ _
    split
    · exact distKeyShare_ne_panic (m := R.member i) (by show 1 ≤ R.T; have := h.low; omega) k
    · simp

theorem tame_good {env : Env} (hl : ∃ long, env.long = some long ∧ Commits long.commits ∧ long.commits.headD null ≠ null) (hd : env.doc ≠ none)
    (hf : env.participants.length ≤ 2 ^ 63) : GoodEnv (tame (kyb S (R.member i)) (Fresh S R i) (Fit R i)) env where
  long := hl
  doc := hd
  few := hf
  random k sh e := by
    classical
    change (ite (Fit R i k) _ _ : Outcome KeyShare) = _ at e
    split at e
    · rename_i hk; exact hk sh e
    · cases e

theorem fit_of_kst (h : Able S R i) {n : Int} (hn : 5 ≤ n) {k : Gen} (x : Kst S R i n k) : Fit R i k := by
  intro sh hk
  obtain ⟨_, ls, h1, h2, _⟩ := share_fits h hn x hk
  rw [h1]
  have := h.low
  refine ⟨fun e => ?_, fun c hc => ?_⟩
  · rw [List.map_eq_nil_iff] at e
    rw [e] at h2
    exact absurd h2 (by simp only [List.length_nil]; omega)
  · obtain ⟨x, _, rfl⟩ := List.mem_map.1 hc
    exact (exists_log_iff _).2 ⟨_, log_base_nat x⟩

/-- A protocol with these stages is safe, if it is with tame ones. -/
theorem safe_of_tame (h : Able S R i) {c : Conf Dto Obj (Data Gen)} (hh : Held c (Jst S R i) (Foreign i))
    (hs : ∀ (n : Nat) s, c.stages[n]? = some s → ∃ s', StageSafe c.members n s' ∧ Alike n (Fresh S R i) (Fit R i) s s') :
    Safe c (fun n u => Stagewise n u ∧ Jst S R i n u) fun j d => (∀ x, d = .commits x → j ≠ i) ∧ Complete d := by
  have key : ∀ n s, c.stage? n = some s → ∃ s', StageSafe c.members n s' ∧ Alike n (Fresh S R i) (Fit R i) s s' := by
    intro n s h
    obtain ⟨h0, h1⟩ := stage?_some h
    have := hs n.toNat s h1
    rwa [Int.toNat_of_nonneg h0] at this
  refine ⟨fun n s h1 h2 u hu => ?_, fun n s f h1 h2 u hu => ?_, fun n s h1 h2 j d hw ht => ?_, fun n s h1 h2 j d hw ht a ha h3 h4 => ?_,
    fun n s f h1 h2 j d hw ht a ha h3 h4 hb u hu => ?_⟩
  · obtain ⟨s', x, y⟩ := key n s h1
    have := hh.skip (n - 1) s (by rwa [Int.sub_add_cancel]) h2 u hu.2
    rw [Int.sub_add_cancel] at this
    exact ⟨x.skip (y.skip h2) u hu.1, this⟩
  · obtain ⟨s', x, y⟩ := key n s h1
    obtain ⟨f', e1, e2⟩ := y.step f h2
    have e3 := e2 u (fun hn => hu.2.1.first (by omega)) (fun hn => fit_of_kst h (n := n - 1) (by omega) hu.2.1)
    obtain ⟨u', as, e4, e5⟩ := x.step f' e1 u hu.1
    rw [← e3] at e4
    refine ⟨u', as, e4, ?_⟩
    have := hh.step (n - 1) s f (by rwa [Int.sub_add_cancel]) h2 u u' as hu.2 e4
    rw [Int.sub_add_cancel] at this
    rcases this with g | ⟨_, g⟩
    · exact e5.imp (fun e5 => ⟨e5, g⟩) id
    · exact .inr g
  · obtain ⟨s', x, y⟩ := key n s h1
    rw [y.unmarshal]
    exact x.unmarshal (by rw [← y.proc]; exact h2) d hw.2 (by rw [← y.type]; exact ht)
  · obtain ⟨s', x, y⟩ := key n s h1
    rw [y.valid]
    exact x.valid (by rw [← y.proc]; exact h2) d hw.2 (by rw [← y.type]; exact ht) a (by rw [← y.unmarshal]; exact ha) j h3 h4
  · obtain ⟨s', x, y⟩ := key n s h1
    obtain ⟨u', as, e1, e2⟩ := x.proc f (by rw [← y.proc]; exact h2) d hw.2 (by rw [← y.type]; exact ht) a (by rw [← y.unmarshal]; exact ha) j h3 h4
      (by rw [← y.valid]; exact hb) u hu.1
    refine ⟨u', as, e1, e2.imp (fun e2 => ⟨e2, ?_⟩) id⟩
    exact hh.proc n s f h1 h2 ⟨j, 0, 0, "", 0, d⟩ a hw.1 h3 h4 ha hb u u' as hu.2 e1

end Verif.Rabin
