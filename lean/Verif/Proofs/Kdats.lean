import Verif.Spec.Kdats

/-! Lemmas about the tables of dss.go. -/
namespace Verif.Kdats
open Verif.Prot Verif.Dto Verif.Dss Verif.Dkg Verif.Tables Verif.Spec.Kdats
variable {K : Type}

/-- A function that neither reads nor changes the signer. -/
def Blind (f : Data K → Outcome (Data K × List (Act Dto))) : Prop :=
  ∀ (k : K) (q : Option (List Int)) (d : Option DSS) (o : List Output),
    f ⟨k, q, d, o⟩ = match f ⟨k, q, none, o⟩ with
      | .ok (u, as) => .ok ({ u with dss := d }, as)
      | .err => .err
      | .panic => .panic

theorem blind_qual {T S : Type} (u : Data K) (d : Option DSS) (op : Int) (wrap : S → Dto) (ma : T → Outcome S) (x : T) :
    broadcastQual { u with dss := d } op wrap ma x = broadcastQual u op wrap ma x := rfl

theorem blind_bind {X : Outcome (List (Act Dto))} {u : Data K} {d : Option DSS} :
    (X >>= fun as => (.ok ({ u with dss := d }, as) : Outcome (Data K × List (Act Dto)))) =
      match (X >>= fun as => (.ok (u, as) : Outcome (Data K × List (Act Dto)))) with
      | .ok (u, as) => .ok ({ u with dss := d }, as)
      | .err => .err
      | .panic => .panic := by
  cases X <;> rfl

variable (y : Kyb K)

theorem blind_stepInit : Blind (stepInit (K := K)) := fun _ _ _ _ => rfl

theorem blind_stepDeal : Blind (stepDeal y) := by
  intro k q d o
  unfold stepDeal
  dsimp only
  cases (y.deals k).2 with
  | ok ds => exact blind_bind (u := ⟨_, q, none, o⟩)
  | _ => rfl

theorem blind_processDeal (x : Obj) : Blind fun u => processDeal y u x := by
  intro k q d o
  cases x with
  | deal x =>
    unfold processDeal
    dsimp only
    cases (y.processDeal k x).2 with
    | ok a => cases a <;> rfl
    | _ => rfl
  | _ => rfl

theorem blind_processResponse (x : Obj) : Blind fun u => processResponse y u x := by
  intro k q d o
  cases x with
  | response x =>
    unfold processResponse
    dsimp only
    cases (y.processResponse k x).2 with
    | ok a =>
      cases a with
      | none => rfl
      | some j => dsimp only; cases justificationToDto j <;> rfl
    | _ => rfl
  | _ => rfl

theorem blind_processJustification (x : Obj) : Blind fun u => processJustification y u x := by
  intro k q d o
  cases x with
  | justification x =>
    unfold processJustification
    dsimp only
    cases (y.processJustification k x).2 <;> rfl
  | _ => rfl

theorem blind_stepVssDone : Blind (stepVssDone y) := fun _ _ _ _ => rfl

theorem blind_stepCommits : Blind (stepCommits y) := by
  intro k q d o
  unfold stepCommits
  cases q with
  | none => rfl
  | some q =>
    dsimp only
    by_cases h : (!y.certified k) = true
    · rw [if_pos h, if_pos h]
    · rw [if_neg h, if_neg h]
      cases (y.secretCommits k).2 with
      | ok sc => exact blind_bind (u := ⟨_, _, none, o⟩)
      | _ => rfl

theorem blind_processCommits (x : Obj) : Blind fun u => processCommits y u x := by
  intro k q d o
  cases x with
  | commits x =>
    unfold processCommits
    dsimp only
    cases (y.processSecretCommits k x).2 with
    | ok a =>
      cases a with
      | none => rfl
      | some j => exact blind_bind (u := ⟨_, _, none, o⟩)
    | _ => rfl
  | _ => rfl

theorem blind_processComplCommits (x : Obj) : Blind fun u => processComplCommits y u x := by
  intro k q d o
  cases x with
  | complCommits x =>
    unfold processComplCommits
    dsimp only
    cases (y.processComplaintCommits k x).2 with
    | ok a =>
      cases a with
      | none => rfl
      | some j => exact blind_bind (u := ⟨_, _, none, o⟩)
    | _ => rfl
  | _ => rfl

theorem blind_processReconsCommits (x : Obj) : Blind fun u => processReconsCommits y u x := by
  intro k q d o
  cases x with
  | reconsCommits x =>
    unfold processReconsCommits
    dsimp only
    cases (y.processReconstructCommits k x).2 <;> rfl
  | _ => rfl

theorem blind_stepFinal : Blind (stepFinal y) := by
  intro k q d o
  unfold stepFinal
  dsimp only
  by_cases h : y.finished k = true
  · rw [if_pos h, if_pos h]
    cases y.distKeyShare k with
    | ok s => cases q <;> rfl
    | _ => rfl
  · rw [if_neg h, if_neg h]

theorem blind_step {n : Nat} {f : Data K → Outcome (Data K × List (Act Dto))} (h : (dkgStages y)[n]?.bind (·.step) = some f) : Blind f := by
  unfold dkgStages at h
  rcases n with _ | _ | _ | _ | _ | _ | _ | _ | _ | n <;> cases h
  exacts [blind_stepInit, blind_stepDeal y, blind_stepVssDone y, blind_stepCommits y, blind_stepFinal y]

theorem blind_proc {n : Nat} {f : Data K → Obj → Outcome (Data K × List (Act Dto))} (h : (dkgStages y)[n]?.bind (·.proc) = some f) (x : Obj) :
    Blind fun u => f u x := by
  unfold dkgStages at h
  rcases n with _ | _ | _ | _ | _ | _ | _ | _ | _ | n <;> cases h
  exacts [blind_processDeal y x, blind_processResponse y x, blind_processJustification y x, blind_processCommits y x, blind_processComplCommits y x,
    blind_processReconsCommits y x]

variable {y} {c : World K}

/-- What a call for run `r`, which is `o`, can do to the memory. -/
inductive Effect (M : Mem K) (r : Nat) (o : RunObj) : Mem K → Prop
  | gen (k : K) (q : Option (List Int)) (out : List Output) :
    Effect M r o { M with gens := M.gens.set o.gen k, runs := M.runs.set r { o with qual := q, out := out } }
  | out (out : List Output) : Effect M r o { M with runs := M.runs.set r { o with out := out } }
  | failed : o.signs = true → Effect M r o { M with kdats := M.kdats.set r none }
  | made (d : DSS) : o.signs = true → Effect M r o { M with dsss := M.dsss ++ [d], kdats := M.kdats.set r (some M.dsss.length) }
  | signer (p : Nat) (d : DSS) : dssKdat M r = some p → Effect M r o { M with dsss := M.dsss.set p d }
  | nothing : Effect M r o M

theorem effect_dkg {f : Data K → Outcome (Data K × List (Act Dto))} {M M' : Mem K} {r : Nat} {o : RunObj} {as : List (Act Dto)}
    (h : dkgCall f M r o = .ok (M', as)) : Effect M r o M' := by
  unfold dkgCall at h
  split at h
  · cases h
  · split at h
    · cases h
    · cases h
    · cases h; exact .gen _ _ _

theorem effect_call {M M' : Mem K} {r : Nat} {o : RunObj} {f : Call} {nonce : Int} {g : Mem K → Nat → Outcome (Mem K × List (Act Dto))}
    {as : List (Act Dto)} (hf : funOf c nonce o f = some g) (h : g M r = .ok (M', as)) : Effect M r o M' := by
  cases f with
  | step n =>
    rw [funOf] at hf
    split at hf
    · rename_i hn
      cases hf
      dsimp only at h
      unfold stInit at h
      repeat' split at h
      all_goals cases h
      exacts [.nothing, .failed hn.2, .made _ hn.2]
    split at hf
    · cases hf
      dsimp only at h
      unfold stPartsig at h
      dsimp only at h
      repeat' split at h
      all_goals cases h
      all_goals exact .signer _ _ ‹_›
    split at hf
    · cases hf
      dsimp only at h
      unfold dssStFinal at h
      repeat' split at h
      all_goals cases h
      exacts [.nothing, .nothing, .out _]
    · obtain ⟨f', _, rfl⟩ := Option.map_eq_some_iff.1 hf
      exact effect_dkg h
  | proc n x =>
    rw [funOf] at hf
    split at hf
    · cases hf
      dsimp only at h
      cases x with
      | partsig s =>
        unfold prPartsig at h
        dsimp only at h
        repeat' split at h
        all_goals cases h
        all_goals exact .signer _ _ ‹_›
      | _ => cases h
    · obtain ⟨f', _, rfl⟩ := Option.map_eq_some_iff.1 hf
      exact effect_dkg h

/-- What holds at all times. The generators `vs` were made to verify the configuration. -/
structure Inv (c : World K) (vs : List Nat) (M : Mem K) : Prop where
  nodup : (vs ++ M.runs.map (·.gen)).Nodup
  made : ∀ g ∈ vs ++ M.runs.map (·.gen), g < M.gens.length
  keys : M.args.keys.Perm (vs ++ (signing M).map (·.gen))
  args : ∀ o ∈ signing M, M.args.get? o.gen = some ⟨c.secret o.guest, c.pubs, c.threshold⟩
  ptr : ∀ r p, M.kdats.get? r = some (some p) → p < M.dsss.length
  inj : ∀ r r' p, M.kdats.get? r = some (some p) → M.kdats.get? r' = some (some p) → r = r'
  owner : ∀ r x, M.kdats.get? r = some x → ∃ o, M.runs[r]? = some o ∧ o.signs = true ∧ o.terminated = false

theorem map_set {A B : Type} (f : A → B) (l : List A) {r : Nat} {a a' : A} (h : l[r]? = some a) (hf : f a' = f a) : (l.set r a').map f = l.map f := by
  rw [List.map_set, hf]
  apply List.ext_getElem?
  intro i
  rw [List.getElem?_set]
  split
  · rename_i e
    subst e
    have hl := (List.getElem?_eq_some_iff.1 h).1
    rw [if_pos (by rw [List.length_map]; exact hl), List.getElem?_map, h]; rfl
  · rfl

/-- What `signing` looks at. -/
def tag (o : RunObj) : (Bool × Int) × Nat × Bool := ((o.signs, o.guest), o.gen, o.terminated)

theorem signing_tags (M : Mem K) : (signing M).map tag = (M.runs.map tag).filter fun t => t.1.1 && !t.2.2 := by
  rw [signing, List.filter_map]; rfl

theorem gens_tags (l : List RunObj) : l.map (·.gen) = (l.map tag).map (·.2.1) := by rw [List.map_map]; rfl

theorem inv_tags {vs : List Nat} {M M' : Mem K} (h : Inv c vs M) (hr : M'.runs.map tag = M.runs.map tag) (hg : M'.gens.length = M.gens.length)
    (ha : M'.args = M.args) (hp : ∀ r p, M'.kdats.get? r = some (some p) → p < M'.dsss.length)
    (hi : ∀ r r' p, M'.kdats.get? r = some (some p) → M'.kdats.get? r' = some (some p) → r = r')
    (ho : ∀ r x, M'.kdats.get? r = some x → ∃ o, M.runs[r]? = some o ∧ o.signs = true ∧ o.terminated = false) : Inv c vs M' := by
  have hs : (signing M').map tag = (signing M).map tag := by rw [signing_tags, signing_tags, hr]
  have hgens : M'.runs.map (·.gen) = M.runs.map (·.gen) := by rw [gens_tags, gens_tags, hr]
  refine ⟨by rw [hgens]; exact h.nodup, by rw [hgens, hg]; exact h.made, ?_, fun o hm => ?_, hp, hi, fun r x hx => ?_⟩
  · rw [ha, gens_tags (signing M'), hs, ← gens_tags]; exact h.keys
  · have : tag o ∈ (signing M).map tag := by rw [← hs]; exact List.mem_map_of_mem hm
    obtain ⟨o', h1, h2⟩ := List.mem_map.1 this
    have h3 := h.args o' h1
    injection h2 with h4 h5
    injection h4 with _ h4
    injection h5 with h5 _
    rw [ha, ← h5, ← h4]; exact h3
  · obtain ⟨o, h1, h2, h3⟩ := ho r x hx
    have : (M'.runs.map tag)[r]? = some (tag o) := by rw [hr, List.getElem?_map, h1]; rfl
    rw [List.getElem?_map, Option.map_eq_some_iff] at this
    obtain ⟨o', h4, h5⟩ := this
    injection h5 with h6 h7
    injection h6 with h6 _
    injection h7 with _ h7
    exact ⟨o', h4, by rw [h6]; exact h2, by rw [h7]; exact h3⟩

theorem inv_effect {vs : List Nat} {M M' : Mem K} {r : Nat} {o : RunObj} (h : Inv c vs M) (ho : M.runs[r]? = some o) (ht : o.terminated = false)
    (he : Effect M r o M') : Inv c vs M' := by
  cases he with
  | gen k q out => exact inv_tags h (map_set tag _ ho rfl) (List.length_set ..) rfl h.ptr h.inj h.owner
  | out out => exact inv_tags h (map_set tag _ ho rfl) rfl rfl h.ptr h.inj h.owner
  | failed hs =>
    refine inv_tags h rfl rfl rfl (fun r1 p h1 => ?_) (fun r1 r2 p h1 h2 => ?_) fun r1 x h1 => ?_
    · dsimp only at h1
      rw [GoMap.get?_set] at h1
      split at h1
      · cases h1
      · exact h.ptr r1 p h1
    · dsimp only at h1 h2
      rw [GoMap.get?_set] at h1 h2
      split at h1
      · cases h1
      · split at h2
        · cases h2
        · exact h.inj r1 r2 p h1 h2
    · dsimp only at h1
      rw [GoMap.get?_set] at h1
      split at h1
      · rename_i e; subst e; exact ⟨o, ho, hs, ht⟩
      · exact h.owner r1 x h1
  | made d hs =>
    refine inv_tags h rfl rfl rfl (fun r1 p h1 => ?_) (fun r1 r2 p h1 h2 => ?_) fun r1 x h1 => ?_
    · dsimp only at h1 ⊢
      rw [List.length_append]
      rw [GoMap.get?_set] at h1
      split at h1
      · cases h1; exact Nat.lt_succ_self _
      · exact Nat.lt_succ_of_lt (h.ptr r1 p h1)
    · dsimp only at h1 h2
      rw [GoMap.get?_set] at h1 h2
      split at h1
      · rename_i e1
        cases h1
        split at h2
        · rename_i e2; exact e1.symm.trans e2
        · exact absurd (h.ptr r2 _ h2) (Nat.lt_irrefl _)
      · split at h2
        · cases h2; exact absurd (h.ptr r1 _ h1) (Nat.lt_irrefl _)
        · exact h.inj r1 r2 p h1 h2
    · dsimp only at h1
      rw [GoMap.get?_set] at h1
      split at h1
      · rename_i e; subst e; exact ⟨o, ho, hs, ht⟩
      · exact h.owner r1 x h1
  | signer p d hp =>
    exact inv_tags h rfl rfl rfl (fun r1 p1 h1 => by dsimp only at h1 ⊢; rw [List.length_set]; exact h.ptr r1 p1 h1) h.inj h.owner
  | nothing => exact h

/-- A call for a run does not touch the data of another. -/
theorem effect_frame {vs : List Nat} {M M' : Mem K} {r : Nat} {o : RunObj} (h : Inv c vs M) (ho : M.runs[r]? = some o) (he : Effect M r o M')
    {r' : Nat} (hr : r' ≠ r) : view M' r' = view M r' := by
  have hgen : ∀ o', M.runs[r']? = some o' → o'.gen ≠ o.gen := by
    intro o' h1 e
    have hn := (List.nodup_append.1 h.nodup).2.1
    have e1 : (M.runs.map (·.gen))[r']? = some o'.gen := by rw [List.getElem?_map, h1]; rfl
    have e2 : (M.runs.map (·.gen))[r]? = some o.gen := by rw [List.getElem?_map, ho]; rfl
    rw [e] at e1
    have l1 := (List.getElem?_eq_some_iff.1 e1)
    have l2 := (List.getElem?_eq_some_iff.1 e2)
    obtain ⟨l1, e1⟩ := l1
    obtain ⟨l2, e2⟩ := l2
    exact hr ((List.Nodup.getElem_inj_iff hn).1 (e1.trans e2.symm))
  cases he with
  | gen k q out =>
    unfold view
    dsimp only
    rw [List.getElem?_set_ne hr.symm]
    cases h1 : M.runs[r']? with
    | none => rfl
    | some o' =>
      rw [Option.bind_some, Option.bind_some, List.getElem?_set_ne (hgen o' h1).symm]
  | out out =>
    unfold view
    dsimp only
    rw [List.getElem?_set_ne hr.symm]
  | failed _ =>
    unfold view
    dsimp only
    rw [GoMap.get?_set, if_neg hr.symm]
  | made d _ =>
    unfold view
    dsimp only
    rw [GoMap.get?_set, if_neg hr.symm]
    cases hk : M.kdats.get? r' with
    | none => rfl
    | some x =>
      cases x with
      | none => rfl
      | some p =>
        have : (M.dsss ++ [d])[p]? = M.dsss[p]? := List.getElem?_append_left (h.ptr _ _ hk)
        simp only [Option.join_some, Option.bind_some, this]
  | signer p d hp =>
    unfold view
    dsimp only
    have hp' : M.kdats.get? r = some (some p) := by
      unfold dssKdat at hp
      cases hk : M.kdats.get? r with
      | none => rw [hk] at hp; cases hp
      | some x => rw [hk] at hp; rw [show x = some p from hp]
    cases hk : M.kdats.get? r' with
    | none => rfl
    | some x =>
      cases x with
      | none => rfl
      | some p' =>
        have : (M.dsss.set p d)[p']? = M.dsss[p']? := List.getElem?_set_ne fun e : p = p' => hr (h.inj _ _ p' hk (by rw [hp', e]))
        simp only [Option.join_some, Option.bind_some, this]
  | nothing => rfl

theorem keys_delete {V : Type} (m : GoMap Nat V) (k : Nat) : (m.delete k).keys = m.keys.filter fun x => decide (x ≠ k) := by
  unfold GoMap.keys GoMap.delete
  rw [List.filter_map]; rfl

theorem keys_set {V : Type} (m : GoMap Nat V) (k : Nat) (v : V) (h : k ∉ m.keys) : (m.set k v).keys = k :: m.keys := by
  show k :: (m.delete k).keys = _
  rw [keys_delete, List.filter_eq_self.2]
  intro x hx
  exact decide_eq_true fun e => h (e ▸ hx)

theorem split_at {A : Type} {a : A} : ∀ {l : List A} {r : Nat} (_ : l[r]? = some a), ∃ l1 l2, l = l1 ++ a :: l2 ∧ ∀ b, l.set r b = l1 ++ b :: l2
  | [], _, h => by cases h
  | x :: l, 0, h => by
    cases h
    exact ⟨[], l, rfl, fun _ => rfl⟩
  | x :: l, r + 1, h => by
    obtain ⟨l1, l2, h1, h2⟩ := split_at (l := l) (r := r) (by simpa using h)
    exact ⟨x :: l1, l2, by rw [h1]; rfl, fun b => by rw [List.set_cons_succ, h2]; rfl⟩

theorem inv_fresh {vs : List Nat} {M : Mem K} (h : Inv c vs M) : M.gens.length ∉ M.args.keys := by
  intro hm
  have := h.keys.mem_iff.1 hm
  refine Nat.lt_irrefl _ (h.made _ ?_)
  rw [List.mem_append] at this ⊢
  rcases this with h1 | h1
  · exact .inl h1
  · obtain ⟨o, h2, h3⟩ := List.mem_map.1 h1
    exact .inr (h3 ▸ List.mem_map_of_mem (List.mem_of_mem_filter h2))

theorem inv_verify {vs : List Nat} {M : Mem K} (h : Inv c vs M) (g : Int) (k : K) : Inv c (M.gens.length :: vs) (makeDssKdat c M g k) := by
  have hf := inv_fresh h
  have hnew : M.gens.length ∉ vs ++ M.runs.map (·.gen) := fun hm => Nat.lt_irrefl _ (h.made _ hm)
  refine ⟨List.nodup_cons.2 ⟨hnew, h.nodup⟩, ?_, ?_, ?_, h.ptr, h.inj, h.owner⟩
  · intro x hx
    show x < (M.gens ++ [k]).length
    rw [List.length_append]
    rcases List.mem_cons.1 hx with rfl | hx
    · exact Nat.lt_succ_self _
    · exact Nat.lt_succ_of_lt (h.made _ hx)
  · show (M.args.set _ _).keys.Perm _
    rw [keys_set _ _ _ hf]
    exact h.keys.cons _
  · intro o ho
    show (M.args.set _ _).get? _ = _
    rw [GoMap.get?_set, if_neg, h.args o ho]
    intro e
    exact hnew (e ▸ List.mem_append_right _ (List.mem_map_of_mem (List.mem_of_mem_filter ho)))

theorem inv_new {vs : List Nat} {M : Mem K} (h : Inv c vs M) (s : Bool) (g : Int) (id : String) (k : K) : Inv c vs (newRun c M s g id k) := by
  have hf := inv_fresh h
  have hnew : M.gens.length ∉ vs ++ M.runs.map (·.gen) := fun hm => Nat.lt_irrefl _ (h.made _ hm)
  have hown : ∀ r x, M.kdats.get? r = some x → ∃ o, (M.runs ++ [⟨s, g, id, M.gens.length, none, false, []⟩])[r]? = some o ∧ o.signs = true ∧
      o.terminated = false := by
    intro r x hx
    obtain ⟨o, h1, h2⟩ := h.owner r x hx
    exact ⟨o, by rw [List.getElem?_append_left (List.getElem?_eq_some_iff.1 h1).1]; exact h1, h2⟩
  have hnodup : (vs ++ (M.runs ++ [(⟨s, g, id, M.gens.length, none, false, []⟩ : RunObj)]).map (·.gen)).Nodup := by
    rw [List.map_append, ← List.append_assoc]
    refine List.nodup_append.2 ⟨h.nodup, List.nodup_singleton _, fun a ha b hb => ?_⟩
    rw [List.map_singleton, List.mem_singleton] at hb
    intro e
    have hb : b = M.gens.length := hb
    exact hnew (by rw [← hb, ← e]; exact ha)
  have hmade : ∀ x ∈ vs ++ (M.runs ++ [(⟨s, g, id, M.gens.length, none, false, []⟩ : RunObj)]).map (·.gen), x < (M.gens ++ [k]).length := by
    intro x hx
    rw [List.map_append, ← List.append_assoc, List.mem_append] at hx
    rw [List.length_append]
    rcases hx with hx | hx
    · exact Nat.lt_succ_of_lt (h.made _ hx)
    · rw [List.map_singleton, List.mem_singleton] at hx
      rw [hx]; exact Nat.lt_succ_self _
  cases s with
  | false =>
    have hs : signing (newRun c M false g id k) = signing M := by
      show (M.runs ++ [_]).filter _ = M.runs.filter _
      rw [List.filter_append]
      exact List.append_nil _
    exact ⟨hnodup, hmade, by rw [hs]; exact h.keys, by rw [hs]; exact h.args, h.ptr, h.inj, hown⟩
  | true =>
    have hs : signing (newRun c M true g id k) = signing M ++ [⟨true, g, id, M.gens.length, none, false, []⟩] := by
      show (M.runs ++ [_]).filter _ = M.runs.filter _ ++ _
      rw [List.filter_append]; rfl
    refine ⟨hnodup, hmade, ?_, ?_, h.ptr, h.inj, hown⟩
    · rw [hs]
      show (M.args.set _ _).keys.Perm _
      rw [keys_set _ _ _ hf, List.map_append, ← List.append_assoc]
      exact (h.keys.cons _).trans (List.perm_append_comm (l₁ := [M.gens.length]))
    · intro o ho
      rw [hs, List.mem_append] at ho
      show (M.args.set _ _).get? _ = _
      rw [GoMap.get?_set]
      rcases ho with ho | ho
      · rw [if_neg, h.args o ho]
        intro e
        exact hnew (e ▸ List.mem_append_right _ (List.mem_map_of_mem (List.mem_of_mem_filter ho)))
      · rw [List.mem_singleton.1 ho, if_pos rfl]

theorem inv_cleanup {vs : List Nat} {M : Mem K} (h : Inv c vs M) {r : Nat} {o : RunObj} (ho : M.runs[r]? = some o) (ht : o.terminated = false) :
    Inv c vs (cleanup M r o) := by
  obtain ⟨l1, l2, e1, e2⟩ := split_at ho
  have hgens : (M.runs.set r { o with terminated := true }).map (·.gen) = M.runs.map (·.gen) := map_set _ _ ho rfl
  have hother : ∀ r' o', r' ≠ r → M.runs[r']? = some o' → (M.runs.set r { o with terminated := true })[r']? = some o' := by
    intro r' o' hr h1
    rw [List.getElem?_set_ne hr.symm]; exact h1
  have hsub : ∀ x ∈ (M.runs.set r { o with terminated := true }).filter (fun o => o.signs && !o.terminated), x ∈ signing M := by
    intro x hx
    rw [signing, e1]
    rw [e2, List.filter_append, List.mem_append] at hx
    rw [List.filter_append, List.mem_append]
    refine hx.imp _root_.id fun hx => ?_
    rw [List.filter_cons_of_neg (by simp)] at hx
    exact List.mem_filter.2 ⟨List.mem_cons_of_mem _ (List.mem_of_mem_filter hx), (List.mem_filter.1 hx).2⟩
  cases hs : o.signs with
  | false =>
    have hc : cleanup M r o = { M with runs := M.runs.set r { o with terminated := true } } := by rw [cleanup, hs]; rfl
    rw [hc]
    have hk : (M.runs.set r { o with terminated := true }).filter (fun o => o.signs && !o.terminated) = signing M := by
      rw [signing, e2]
      conv_rhs => rw [e1]
      rw [List.filter_append, List.filter_append, List.filter_cons_of_neg (by simp), List.filter_cons_of_neg (by simp [hs])]
    refine ⟨by dsimp only; rw [hgens]; exact h.nodup, by dsimp only; rw [hgens]; exact h.made, ?_, fun o' ho' => h.args o' (hsub o' ho'),
      h.ptr, h.inj, fun r' x hx => ?_⟩
    · show M.args.keys.Perm (vs ++ (List.filter _ _).map _)
      rw [hk]; exact h.keys
    · obtain ⟨o', h1, h2, h3⟩ := h.owner r' x hx
      refine ⟨o', hother r' o' ?_ h1, h2, h3⟩
      rintro rfl
      rw [ho] at h1
      cases h1
      rw [hs] at h2; cases h2
  | true =>
    have hc : cleanup M r o = { M with runs := M.runs.set r { o with terminated := true }, args := M.args.delete o.gen, kdats := M.kdats.delete r } := by
      rw [cleanup, hs]; rfl
    rw [hc]
    have hnd : ((M.runs.map (·.gen))).Nodup := (List.nodup_append.1 h.nodup).2.1
    have hne : ∀ x ∈ l1 ++ l2, x.gen ≠ o.gen := by
      rw [e1, List.map_append, List.map_cons, List.nodup_middle, List.nodup_cons, ← List.map_append] at hnd
      intro x hx e
      exact hnd.1 (e ▸ List.mem_map_of_mem hx)
    have hvs : o.gen ∉ vs := by
      intro hm
      refine (List.nodup_append.1 h.nodup).2.2 _ hm o.gen ?_ rfl
      rw [e1]; simp
    have hk : (M.runs.set r { o with terminated := true }).filter (fun o => o.signs && !o.terminated) = (l1 ++ l2).filter (fun o => o.signs && !o.terminated) := by
      rw [e2, List.filter_append, List.filter_append, List.filter_cons_of_neg (by simp)]
    refine ⟨by dsimp only; rw [hgens]; exact h.nodup, by dsimp only; rw [hgens]; exact h.made, ?_, fun o' ho' => ?_, fun r1 p h1 => ?_,
      fun r1 r2 p h1 h2 => ?_, fun r' x hx => ?_⟩
    · show (M.args.delete o.gen).keys.Perm (vs ++ (List.filter _ _).map _)
      rw [hk, keys_delete]
      refine (h.keys.filter _).trans ?_
      have hv : vs.filter (fun x => decide (x ≠ o.gen)) = vs := List.filter_eq_self.2 fun x hx => decide_eq_true fun e => hvs (e ▸ hx)
      rw [List.filter_append, hv]
      refine List.Perm.append_left _ (List.Perm.of_eq ?_)
      have hl : ∀ l : List RunObj, (∀ x ∈ l, x ∈ l1 ++ l2) → ((l.filter fun o => o.signs && !o.terminated).map (·.gen)).filter (fun x => decide (x ≠ o.gen)) =
          (l.filter fun o => o.signs && !o.terminated).map (·.gen) := by
        intro l hl
        refine List.filter_eq_self.2 fun g hg => ?_
        obtain ⟨x, hx, rfl⟩ := List.mem_map.1 hg
        exact decide_eq_true (hne x (hl x (List.mem_of_mem_filter hx)))
      rw [signing, e1, List.filter_append, List.filter_append, List.filter_cons_of_pos (by simp [hs, ht]), List.map_append, List.map_append, List.map_cons,
        List.filter_append, List.filter_cons_of_neg (by simp), hl l1 fun x hx => List.mem_append_left _ hx, hl l2 fun x hx => List.mem_append_right _ hx]
    · show (M.args.delete o.gen).get? _ = _
      rw [GoMap.get?_delete, if_neg, h.args o' (hsub o' ho')]
      have ho' : o' ∈ (M.runs.set r { o with terminated := true }).filter (fun o => o.signs && !o.terminated) := ho'
      rw [hk] at ho'
      exact fun e => hne o' (List.mem_of_mem_filter ho') e.symm
    · dsimp only at h1
      rw [GoMap.get?_delete] at h1
      split at h1
      · cases h1
      · exact h.ptr r1 p h1
    · dsimp only at h1 h2
      rw [GoMap.get?_delete] at h1 h2
      split at h1
      · cases h1
      · split at h2
        · cases h2
        · exact h.inj r1 r2 p h1 h2
    · dsimp only at hx
      rw [GoMap.get?_delete] at hx
      split at hx
      · cases hx
      · rename_i hr
        obtain ⟨o', h1, h2⟩ := h.owner r' x hx
        exact ⟨o', hother r' o' (fun e => hr e.symm) h1, h2⟩

theorem call_effect {M M' : Mem K} {r : Nat} {f : Call} {nonce : Int} {as : List (Act Dto)} (h : callRun c M r f nonce = .ok (M', as)) :
    ∃ o, M.runs[r]? = some o ∧ o.terminated = false ∧ Effect M r o M' := by
  unfold callRun at h
  cases ho : M.runs[r]? with
  | none => rw [ho] at h; cases h
  | some o =>
    rw [ho] at h
    dsimp only at h
    split at h
    · cases h
    · rename_i ht
      cases hf : funOf c nonce o f with
      | none => rw [hf] at h; cases h
      | some g =>
        rw [hf] at h
        exact ⟨o, rfl, by simpa using ht, effect_call hf h⟩

theorem inv_step {vs : List Nat} {M M' : Mem K} (h : Inv c vs M) {e : Ev K} (hs : step c M e = .ok M') :
    ∃ vs', Inv c vs' M' ∧ vs'.length = verified [e] + vs.length := by
  cases e with
  | verify g k =>
    cases hs
    exact ⟨_, inv_verify h g k, by rw [List.length_cons, Nat.add_comm]; rfl⟩
  | new s g id k =>
    cases hs
    exact ⟨vs, inv_new h s g id k, (Nat.zero_add _).symm⟩
  | call r f nonce =>
    rw [step] at hs
    cases hc : callRun c M r f nonce with
    | err => rw [hc] at hs; cases hs
    | panic => rw [hc] at hs; cases hs
    | ok p =>
      rw [hc] at hs
      obtain rfl := Outcome.ok.inj hs
      obtain ⟨o, h1, h2, h3⟩ := call_effect hc
      exact ⟨vs, inv_effect h h1 h2 h3, (Nat.zero_add _).symm⟩
  | doc op =>
    rw [step] at hs
    cases hc : docStep M.docs op with
    | err => rw [hc] at hs; cases hs
    | panic => rw [hc] at hs; cases hs
    | ok p =>
      rw [hc] at hs
      obtain rfl := Outcome.ok.inj hs
      exact ⟨vs, ⟨h.nodup, h.made, h.keys, h.args, h.ptr, h.inj, h.owner⟩, (Nat.zero_add _).symm⟩
  | cleanup r =>
    rw [step] at hs
    cases ho : M.runs[r]? with
    | none => rw [ho] at hs; cases hs
    | some o =>
      rw [ho] at hs
      dsimp only at hs
      split at hs
      · cases hs
      · rename_i ht
        cases hs
        exact ⟨vs, inv_cleanup h ho (by simpa using ht), (Nat.zero_add _).symm⟩

theorem inv_exec : ∀ (h : List (Ev K)) {vs : List Nat} {M M' : Mem K} (_ : Inv c vs M) (_ : exec c M h = .ok M'),
    ∃ vs', Inv c vs' M' ∧ vs'.length = verified h + vs.length
  | [], vs, _, _, hi, hx => ⟨vs, Outcome.ok.inj hx ▸ hi, (Nat.zero_add _).symm⟩
  | e :: h, vs, M, M', hi, hx => by
    rw [exec] at hx
    cases hs : step c M e with
    | err => rw [hs] at hx; cases hx
    | panic => rw [hs] at hx; cases hx
    | ok M1 =>
      rw [hs] at hx
      obtain ⟨vs1, h1, h2⟩ := inv_step hi hs
      obtain ⟨vs2, h3, h4⟩ := inv_exec h h1 hx
      refine ⟨vs2, h3, ?_⟩
      have : verified (e :: h) = verified h + verified [e] := by
        unfold verified
        rw [List.countP_cons, List.countP_cons, List.countP_nil, Nat.zero_add]
      omega

theorem inv_start (gs : List Int) : Inv c [] (start gs : Mem K) :=
  { nodup := List.nodup_nil
    made := fun _ h => nomatch h
    keys := List.Perm.refl _
    args := fun _ h => nomatch h
    ptr := fun _ _ h => nomatch h
    inj := fun _ _ _ h => nomatch h
    owner := fun _ _ h => nomatch h }

end Verif.Kdats
