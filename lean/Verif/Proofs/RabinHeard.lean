import Verif.Spec.RabinHeard
import Verif.Proofs.RabinStage

/-! A generator has only commitments of its own and those that were sent to it. -/
namespace Verif.Rabin
open Verif.Point Verif.Props Verif.Dkg Verif.Dto Verif.Dss Verif.Spec.Rabin Verif.Prot
variable {S : Suite} {m : Member} {L : List (Message Dto)}

theorem processDeal_coms (k : Gen) (d : Deal) : (processDeal S m k d).1.coms = k.coms := by
  rw [processDeal]
  split
  · rfl
  · split
    · rfl
    · split
      · rfl
      · split
        · rfl
        · split <;> rfl

theorem deals_coms (k : Gen) : (deals S m k).1.coms = k.coms := by
  rw [deals]
  split
  · rfl
  · split
    · rfl
    · rename_i own _
      have := processDeal_coms (S := S) (m := m) k ⟨m.index, m.encrypt m.index own⟩
      split
      · rename_i hk
        rw [hk] at this
        split <;> exact this
      · rename_i hk
        rw [hk] at this
        exact this

theorem processResponse_coms (k : Gen) (r : Response) : (processResponse S m k r).1.coms = k.coms := by
  rw [processResponse]
  split
  · split
    · rfl
    · dsimp only
      split
      · rfl
      · split <;> rfl
  · rfl

/-- The data of the run in stage `n`. -/
structure Hst (L : List (Message Dto)) (m : Member) (n : Int) (u : Data Gen) : Prop where
  coms : ∀ j cs, u.kyb.coms.get? j = some cs → j = m.index ∨ Heard L j cs
  qual : 5 ≤ n → u.qual = some ((qual m u.kyb).map Int.ofNat)
  key : n < 8 → u.out = []
  sig : n < 11 → ∀ s, Output.sig s ∉ u.out

theorem Hst.keep {n : Int} {u u' : Data Gen} (x : Hst L m (n - 1) u) (hn : n ≠ 5) (hk : u'.kyb = u.kyb) (hq : 5 ≤ n → u'.qual = u.qual) (h8 : n < 8 → u'.out = u.out)
    (ho : n < 11 → ∀ s, Output.sig s ∈ u'.out → Output.sig s ∈ u.out) : Hst L m n u' :=
  ⟨by rw [hk]; exact x.coms, fun h => by rw [hk, hq h]; exact x.qual (by omega), fun h => by rw [h8 h]; exact x.key (by omega),
    fun h s hs => x.sig (by omega) s (ho h s hs)⟩

/-- With another generator in the early stages. -/
theorem Hst.early {n n' : Int} {u : Data Gen} {k : Gen} (x : Hst L m n u) (hn : n' < 5) (h : n < 8) (hk : k.coms = u.kyb.coms) : Hst L m n' { u with kyb := k } :=
  ⟨by show ∀ j cs, k.coms.get? j = some cs → _; rw [hk]; exact x.coms, fun h => by omega, fun _ => x.key h, fun _ => x.sig (by omega)⟩

/-- What `Held` asks of a stage. -/
structure HKept (L : List (Message Dto)) (m : Member) (n : Int) (s : Stage Dto Obj (Data Gen)) : Prop where
  skip : s.step = none → ∀ u, Hst L m (n - 1) u → Hst L m n u
  step : ∀ f, s.step = some f → ∀ u u' as, Hst L m (n - 1) u → f u = .ok (u', as) → Hst L m n u' ∨ (Hst L m (n - 1) u' ∧ GivesUp as)
  proc : ∀ f, s.proc = some f → ∀ a, (∀ c, a = .commits c → s.unmarshal = unmarshal .commits → Heard L c.index c.commitments) →
    ∀ u u' as, Hst L m n u → f u a = .ok (u', as) → Hst L m n u'

theorem hkept_psStep {n : Int} {f : Data Gen → Outcome (Data Gen × List (Act Dto))}
    (h : ∀ u u' as, Hst L m (n - 1) u → f u = .ok (u', as) → Hst L m n u' ∨ (Hst L m (n - 1) u' ∧ GivesUp as)) : HKept L m n (psStep f) := by
  refine ⟨fun e => (by cases e), fun g e => ?_, fun g e => (by cases e)⟩
  have e := Option.some.inj e
  subst e
  exact h

theorem hkept_psProc {n : Int} {step : Option (Data Gen → Outcome (Data Gen × List (Act Dto)))}
    {proc : Data Gen → Obj → Outcome (Data Gen × List (Act Dto))} {kind : Kind} {v : Obj → Int → Outcome Bool}
    (hskip : step = none → n ≠ 5)
    (hstep : ∀ f, step = some f → ∀ u u' as, Hst L m (n - 1) u → f u = .ok (u', as) → Hst L m n u' ∨ (Hst L m (n - 1) u' ∧ GivesUp as))
    (hproc : ∀ a, (∀ c, a = .commits c → kind = .commits → Heard L c.index c.commitments) → ∀ u u' as, Hst L m n u →
      proc u a = .ok (u', as) → Hst L m n u') : HKept L m n (psProc step proc kind v) := by
  refine ⟨fun e u hu => hu.keep (hskip e) rfl (fun _ => rfl) (fun _ => rfl) fun _ _ h => h, hstep, fun g e a ha => ?_⟩
  have e := Option.some.inj e
  subst e
  refine hproc a fun c hc hk => ha c hc ?_
  subst hk
  rfl

theorem qual_vers {k k' : Gen} (h : k'.vers = k.vers) : qual m k' = qual m k := by rw [qual, qual, h]

theorem dkg_hkept (n : Nat) (s : Stage Dto Obj (Data Gen)) (hs : (dkgStages (kyb S m))[n]? = some s) : HKept L m n s := by
  match n, hs with
  | 0, hs =>
    have e := Option.some.inj hs
    subst e
    refine hkept_psStep fun u u' as hu e => ?_
    cases e
    exact .inl (hu.keep (by omega) rfl (fun h => by omega) (fun _ => rfl) fun _ _ h => h)
  | 1, hs =>
    have e := Option.some.inj hs
    subst e
    refine hkept_psProc (fun e => by cases e) (fun f e u u' as hu hf => ?_) (fun a ha u u' as hu hf => ?_)
    · have e := Option.some.inj e
      subst e
      have key : Hst L m 1 { u with kyb := (deals S m u.kyb).1 } := hu.early (by decide) (by decide) (deals_coms _)
      rw [stepDeal] at hf
      change (match (deals S m u.kyb).2 with
        | .panic => _
        | .err => _
        | .ok ds => _) = _ at hf
      split at hf
      · cases hf
      · cases hf
        exact .inl key
      · obtain ⟨x, _, hf⟩ := (Outcome.bind_eq_ok _ _ _).1 hf
        cases hf
        exact .inl key
    · cases a with
      | deal d =>
        have key : Hst L m 1 { u with kyb := (processDeal S m u.kyb d).1 } := hu.early (by decide) (by decide) (processDeal_coms _ _)
        rw [Dkg.processDeal] at hf
        change (match (processDeal S m u.kyb d).2 with
          | .panic => _
          | .err => _
          | .ok none => _
          | .ok (some resp) => _) = _ at hf
        split at hf <;> cases hf <;> exact key
      | _ => cases hf
  | 2, hs =>
    have e := Option.some.inj hs
    subst e
    refine hkept_psProc (fun _ => by decide) (fun f e => by cases e) (fun a ha u u' as hu hf => ?_)
    cases a with
    | response r =>
      have key : Hst L m 2 { u with kyb := (processResponse S m u.kyb r).1 } := hu.early (by decide) (by decide) (processResponse_coms _ _)
      rw [Dkg.processResponse] at hf
      change (match (processResponse S m u.kyb r).2 with
        | .panic => _
        | .err => _
        | .ok none => _
        | .ok (some j) => _) = _ at hf
      split at hf
      · cases hf
      · cases hf; exact key
      · cases hf; exact key
      · split at hf <;> cases hf <;> exact key
    | _ => cases hf
  | 3, hs =>
    have e := Option.some.inj hs
    subst e
    refine hkept_psProc (fun _ => by decide) (fun f e => by cases e) (fun a ha u u' as hu hf => ?_)
    cases a with
    | justification j => cases hf; exact hu
    | _ => cases hf
  | 4, hs =>
    have e := Option.some.inj hs
    subst e
    refine hkept_psStep fun u u' as hu e => ?_
    cases e
    exact .inl (hu.early (by decide) (by decide) rfl)
  | 5, hs =>
    have e := Option.some.inj hs
    subst e
    refine hkept_psProc (fun e => by cases e) (fun f e u u' as hu hf => ?_) (fun a ha u u' as hu hf => ?_)
    · have e := Option.some.inj e
      subst e
      rw [stepCommits] at hf
      split at hf
      · cases hf
      · dsimp only at hf
        have give : ∀ q, Hst L m (((5 : Nat) : Int) - 1) { u with qual := q } := fun q => ⟨hu.coms, fun h => absurd h (by decide), hu.key, hu.sig⟩
        split at hf
        · cases hf
          exact .inr ⟨give _, by simp [GivesUp]⟩
        · change (match (secretCommits S m u.kyb).2 with
            | .panic => _
            | .err => _
            | .ok sc => _) = _ at hf
          split at hf
          · cases hf
          · rename_i hsc
            cases hf
            have e : (secretCommits S m u.kyb).1 = u.kyb := by
              rw [secretCommits] at hsc ⊢
              split at hsc
              · cases hsc
              · rename_i hd; rw [if_neg hd]
            refine .inr ⟨?_, by simp [GivesUp]⟩
            show Hst L m (((5 : Nat) : Int) - 1) { u with kyb := (secretCommits S m u.kyb).1, qual := _ }
            rw [e]
            exact give _
          · rename_i sc hsc
            obtain ⟨x, _, hf⟩ := (Outcome.bind_eq_ok _ _ _).1 hf
            cases hf
            have e : (secretCommits S m u.kyb).1 = { u.kyb with coms := u.kyb.coms.set m.index u.kyb.secret } := by
              rw [secretCommits] at hsc ⊢
              split at hsc
              · rename_i hd; rw [if_pos hd]
              · cases hsc
            refine .inl ⟨fun j cs hj => ?_, fun _ => ?_, fun _ => hu.key (by decide), fun _ => hu.sig (by decide)⟩
            · change (secretCommits S m u.kyb).1.coms.get? j = some cs at hj
              rw [e] at hj
              by_cases hji : j = m.index
              · exact .inl hji
              · exact hu.coms j cs (by rw [← hj]; exact ((GoMap.get?_set _ _ _ _).trans (if_neg (Ne.symm hji))).symm)
            · show some ((qual m u.kyb).map Int.ofNat) = some ((qual m (secretCommits S m u.kyb).1).map Int.ofNat)
              rw [e]
              rfl
    · cases a with
      | commits c =>
        have hh := ha c rfl rfl
        have key : Hst L m 5 { u with kyb := (processSecretCommits S m u.kyb c).1 } := by
          have hp : (processSecretCommits S m u.kyb c).1 = u.kyb ∨
              (processSecretCommits S m u.kyb c).1 = { u.kyb with coms := u.kyb.coms.set c.index c.commitments } := by
            rw [processSecretCommits]
            split
            · split
              · exact .inl rfl
              · split
                · split
                  · exact .inl rfl
                  · split
                    · exact .inr rfl
                    · exact .inl rfl
                    · exact .inl rfl
                    · exact .inl rfl
                · exact .inl rfl
            · exact .inl rfl
          rcases hp with hp | hp
          · rw [hp]; exact hu
          · rw [hp]
            refine ⟨fun j cs hj => ?_, fun h => hu.qual h, hu.key, hu.sig⟩
            by_cases hji : j = c.index
            · have : cs = c.commitments := by
                have := hj.symm.trans ((GoMap.get?_set _ _ _ _).trans (if_pos hji.symm))
                exact Option.some.inj this
              rw [this, hji]
              exact .inr hh
            · exact hu.coms j cs (by rw [← hj]; exact ((GoMap.get?_set _ _ _ _).trans (if_neg (Ne.symm hji))).symm)
        rw [processCommits] at hf
        change (match (processSecretCommits S m u.kyb c).2 with
          | .panic => _
          | .err => _
          | .ok none => _
          | .ok (some cc) => _) = _ at hf
        split at hf
        · cases hf
        · cases hf; exact key
        · cases hf; exact key
        · obtain ⟨x, _, hf⟩ := (Outcome.bind_eq_ok _ _ _).1 hf
          cases hf
          exact key
      | _ => cases hf
  | 6, hs =>
    have e := Option.some.inj hs
    subst e
    refine hkept_psProc (fun _ => by decide) (fun f e => by cases e) (fun a ha u u' as hu hf => ?_)
    cases a with
    | complCommits j => cases hf; exact hu
    | _ => cases hf
  | 7, hs =>
    have e := Option.some.inj hs
    subst e
    refine hkept_psProc (fun _ => by decide) (fun f e => by cases e) (fun a ha u u' as hu hf => ?_)
    cases a with
    | reconsCommits j => cases hf; exact hu
    | _ => cases hf
  | 8, hs =>
    have e := Option.some.inj hs
    subst e
    refine hkept_psStep fun u u' as hu hf => .inl ?_
    have key : u'.kyb = u.kyb ∧ u'.qual = u.qual ∧ ∀ s, Output.sig s ∈ u'.out → Output.sig s ∈ u.out := by
      rw [stepFinal] at hf
      split at hf
      · split at hf
        · cases hf
        · cases hf; exact ⟨rfl, rfl, fun _ => id⟩
        · split at hf <;> cases hf
          exact ⟨rfl, rfl, fun s hs => by simpa using hs⟩
      · cases hf; exact ⟨rfl, rfl, fun _ => id⟩
    exact hu.keep (by decide) key.1 (fun _ => key.2.1) (fun h => absurd h (by decide)) fun _ => key.2.2
  | m + 9, hs => exact absurd hs (by simp [dkgStages])

variable {H : List UInt8 → List UInt8} {SH : Share → List UInt8} {env : Env}

theorem dss_hkept (n : Nat) (s : Stage Dto Obj (Data Gen)) (hs : (dssStages (kyb S m) H SH env)[n]? = some s) : HKept L m n s := by
  rw [dssStages] at hs
  by_cases hn : n < 9
  · rw [List.getElem?_append_left (by simpa [dkgStages] using hn)] at hs
    exact dkg_hkept n s hs
  rw [List.getElem?_append_right (by simpa [dkgStages] using hn)] at hs
  obtain ⟨l, rfl⟩ : ∃ l, n = l + 9 := ⟨n - 9, by omega⟩
  rw [show l + 9 - (dkgStages (kyb S m)).length = l from by simp [dkgStages]] at hs
  match l, hs with
  | 0, hs =>
    have e := Option.some.inj hs
    subst e
    refine hkept_psStep fun u u' as hu hf => .inl ?_
    have key : u'.kyb = u.kyb ∧ u'.qual = u.qual ∧ u'.out = u.out := by
      rw [stInit] at hf
      split at hf
      · cases hf
      · cases hf; exact ⟨rfl, rfl, rfl⟩
      · split at hf
        · split at hf <;> cases hf <;> exact ⟨rfl, rfl, rfl⟩
        · cases hf
    exact hu.keep (by decide) key.1 (fun _ => key.2.1) (fun _ => key.2.2) fun _ s => by rw [key.2.2]; exact id
  | 1, hs =>
    have e := Option.some.inj hs
    subst e
    refine hkept_psProc (fun e => by cases e) (fun f e u u' as hu hf => .inl ?_) (fun a ha u u' as hu hf => ?_)
    · have e := Option.some.inj e
      subst e
      have key : u'.kyb = u.kyb ∧ u'.qual = u.qual ∧ u'.out = u.out := by
        rw [stPartsig] at hf
        split at hf
        · cases hf
        · dsimp only at hf
          split at hf
          · cases hf
          · cases hf; exact ⟨rfl, rfl, rfl⟩
          · obtain ⟨x, _, hf⟩ := (Outcome.bind_eq_ok _ _ _).1 hf
            cases hf
            exact ⟨rfl, rfl, rfl⟩
      exact hu.keep (by decide) key.1 (fun _ => key.2.1) (fun _ => key.2.2) fun _ s => by rw [key.2.2]; exact id
    · cases a with
      | partsig p =>
        rw [prPartsig] at hf
        split at hf
        · cases hf
        · split at hf <;> cases hf
          exact ⟨hu.coms, hu.qual, hu.key, hu.sig⟩
      | _ => cases hf
  | 2, hs =>
    have e := Option.some.inj hs
    subst e
    refine hkept_psStep fun u u' as hu hf => .inl ?_
    have key : u'.kyb = u.kyb ∧ u'.qual = u.qual := by
      rw [dssStFinal] at hf
      split at hf
      · cases hf
      · split at hf
        · cases hf; exact ⟨rfl, rfl⟩
        · split at hf <;> cases hf <;> exact ⟨rfl, rfl⟩
    exact hu.keep (by decide) key.1 (fun _ => key.2) (fun h => absurd h (by decide)) fun h => absurd h (by decide)
  | l + 3, hs => exact absurd hs (by simp)

theorem hkept_held {c : Conf Dto Obj (Data Gen)} (hc : ∀ (n : Nat) s, c.stages[n]? = some s → HKept L m n s)
    (hv : ∀ (n : Nat) s, c.stages[n]? = some s → s.unmarshal = unmarshal .commits → s.senderValid = commitsV) (hn : c.members ≤ 2 ^ 32) :
    Held c (Hst L m) (· ∈ L) := by
  have key : ∀ n s, c.stage? n = some s → HKept L m n s ∧ (s.unmarshal = unmarshal .commits → s.senderValid = commitsV) := by
    intro n s hs
    obtain ⟨h0, h1⟩ := stage?_some hs
    have := hc n.toNat s h1
    rw [Int.toNat_of_nonneg h0] at this
    exact ⟨this, hv _ s h1⟩
  refine ⟨fun n s hs he u hu => (key _ s hs).1.skip he u (by rwa [Int.add_sub_cancel]), fun n s f hs he u u' as hu hf => ?_,
    fun n s f hs hf x a hm h0 h1 ha hb u u' as hu e => (key _ s hs).1.proc f hf a (fun c' hc' hk => ?_) u u' as hu e⟩
  · have := (key _ s hs).1.step f he u u' as (by rwa [Int.add_sub_cancel]) hf
    rwa [Int.add_sub_cancel] at this
  · subst hc'
    rw [(key _ s hs).2 hk] at hb
    have hb := of_decide_eq_true (Outcome.ok.inj hb)
    have e : uint32 x.sender = x.sender.toNat := by
      rw [uint32, Int.emod_eq_of_lt h0 (by have : ((2 : Nat) ^ 32 : Int) = 2 ^ 32 := by norm_num
                                           omega)]
    rw [hk] at ha
    cases hd : x.dto <;> rw [hd] at ha <;> (try cases ha)
    rename_i y
    rw [unmarshal] at ha
    obtain ⟨o, h3, h4⟩ := (Outcome.bind_eq_ok _ _ _).1 ha
    cases h4
    exact ⟨x, hm, by rw [hb, e]; omega, y, _, hd, h3, rfl⟩

theorem dss_hheld (id : String) (self : Int) (members : Nat) (hn : members ≤ 2 ^ 32) : Held (dssConf (kyb S m) H SH env id self members) (Hst L m) (· ∈ L) := by
  refine hkept_held (fun n s hs => dss_hkept n s hs) (fun n s hs => ?_) hn
  have hm := List.mem_of_getElem? hs
  change s ∈ dssStages _ _ _ _ at hm
  rw [dssStages, List.mem_append] at hm
  simp only [dkgStages, List.mem_cons, List.not_mem_nil, or_false] at hm
  intro hk
  have hk := congrFun hk (.commits ⟨0, [], [], []⟩)
  rcases hm with (rfl | rfl | rfl | rfl | rfl | rfl | rfl | rfl | rfl) | (rfl | rfl | rfl) <;>
    first | rfl | (exfalso; revert hk; simp [psStep, psProc, unmarshal, dtoToCommits, Layout.mapO])

theorem dkg_hheld (id : String) (self : Int) (members : Nat) (hn : members ≤ 2 ^ 32) : Held (dkgConf (kyb S m) id self members) (Hst L m) (· ∈ L) := by
  refine hkept_held (fun n s hs => dkg_hkept n s hs) (fun n s hs => ?_) hn
  have hm := List.mem_of_getElem? hs
  change s ∈ dkgStages _ at hm
  simp only [dkgStages, List.mem_cons, List.not_mem_nil, or_false] at hm
  intro hk
  have hk := congrFun hk (.commits ⟨0, [], [], []⟩)
  rcases hm with (rfl | rfl | rfl | rfl | rfl | rfl | rfl | rfl | rfl) <;>
    first | rfl | (exfalso; revert hk; simp [psStep, psProc, unmarshal, dtoToCommits, Layout.mapO])

theorem hst_new {k : Gen} (hk : newGen S m = .ok k) : Hst L m (-1) (newData k) := by
  rw [newGen] at hk
  obtain ⟨_, _, hk⟩ := (Outcome.bind_eq_ok _ _ _).1 hk
  obtain ⟨_, _, hk⟩ := (Outcome.bind_eq_ok _ _ _).1 hk
  obtain ⟨_, _, hk⟩ := (Outcome.bind_eq_ok _ _ _).1 hk
  obtain ⟨_, _, hk⟩ := (Outcome.bind_eq_ok _ _ _).1 hk
  cases hk
  exact ⟨fun j cs h => (by cases h), fun h => absurd h (by decide), fun _ => rfl, fun _ s h => (by cases h)⟩

/-! The sum of the commitments. -/

/-- The commitments of `j`. -/
def comsOf (k : Gen) (j : Nat) : List Pt := (k.coms.get? j).getD []

theorem add_null_null : add null null = null := by
  have := log_null.add log_null
  rw [add_zero] at this
  exact this.unique_left log_null

theorem zip_head {a b c : List Pt} (h : addPolys a b = .ok c) : c.headD null = add (a.headD null) (b.headD null) := by
  rw [addPolys] at h
  split at h
  · cases h
  · rename_i hl
    cases h
    cases a with
    | nil =>
      cases b with
      | nil => exact add_null_null.symm
      | cons _ _ => simp at hl
    | cons x a =>
      cases b with
      | nil => simp at hl
      | cons y b => rfl

theorem sum_some {k : Gen} (q : List Nat) (sh : Int) (p0 : List Pt) (v : Int) (p : List Pt) (h : sumShares k q (sh, some p0) = .ok (v, some p)) :
    (∀ j ∈ q, k.coms.get? j = some (comsOf k j)) ∧ p.headD null = (q.map fun j => (comsOf k j).headD null).foldl add (p0.headD null) := by
  induction q generalizing sh p0 with
  | nil => cases h; exact ⟨fun _ h => (by cases h), rfl⟩
  | cons j q ih =>
    rw [sumShares] at h
    split at h
    · rename_i a cs _ hc
      split at h
      · cases h
      · dsimp only at h
        obtain ⟨p1, h1, h⟩ := (Outcome.bind_eq_ok _ _ _).1 h
        obtain ⟨g1, g2⟩ := ih _ _ h
        have e : comsOf k j = cs := by rw [comsOf, hc]; rfl
        refine ⟨fun x hx => ?_, ?_⟩
        · rcases List.mem_cons.1 hx with rfl | hx
          · rw [hc, e]
          · exact g1 x hx
        · rw [g2, zip_head h1, List.map_cons, List.foldl_cons, e]
    · cases h

theorem sum_none {k : Gen} (q : List Nat) (sh : Int) (v : Int) (p : List Pt) (h : sumShares k q (sh, none) = .ok (v, some p)) :
    (∀ j ∈ q, k.coms.get? j = some (comsOf k j)) ∧ p.headD null = sumPts (q.map fun j => (comsOf k j).headD null) := by
  cases q with
  | nil => cases h
  | cons j q =>
    rw [sumShares] at h
    split at h
    · rename_i a cs _ hc
      split at h
      · cases h
      · dsimp only at h
        obtain ⟨g1, g2⟩ := sum_some _ _ _ _ _ h
        have e : comsOf k j = cs := by rw [comsOf, hc]; rfl
        refine ⟨fun x hx => ?_, ?_⟩
        · rcases List.mem_cons.1 hx with rfl | hx
          · rw [hc, e]
          · exact g1 x hx
        · rw [g2, List.map_cons, sumPts, e]
    · cases h

theorem share_sum {k : Gen} {sh : KeyShare} (h : distKeyShare m k = .ok sh) :
    (∀ j ∈ qual m k, k.coms.get? j = some (comsOf k j)) ∧ sh.commits.headD null = sumPts ((qual m k).map fun j => (comsOf k j).headD null) := by
  rw [distKeyShare] at h
  split at h
  · obtain ⟨⟨v, pub⟩, h1, h⟩ := (Outcome.bind_eq_ok _ _ _).1 h
    cases pub with
    | none => cases h
    | some p => cases h; exact sum_none _ _ _ _ h1
  · cases h

end Verif.Rabin
