import Verif.Proofs.Kdats

/-!
Property C107: in the global tables of dss.go, runs do not get in each other's way, and a run leaves nothing behind.
-/
namespace Verif.Props.Kdats
open Verif.Prot Verif.Dto Verif.Dss Verif.Dkg Verif.Tables Verif.Kdats Verif.Spec.Kdats
variable {K : Type} {c : World K}

/-- The outcome of a call for run `r` is that of the same call with the data at hand. -/
def Agree (r : Nat) (X : Outcome (Mem K × List (Act Dto))) (Y : Outcome (Data K × List (Act Dto))) : Prop :=
  match X with
  | .ok (M, as) => ∃ u, Y = .ok (u, as) ∧ view M r = some u
  | .err => Y = .err
  | .panic => Y = .panic

section
variable {M : Mem K} {r : Nat} {o : RunObj} (ho : M.runs[r]? = some o) {k : K} (hk : M.gens[o.gen]? = some k)
include ho hk

theorem view_of : view M r = some ⟨k, o.qual, (dssKdat M r).bind fun p => M.dsss[p]?, o.out⟩ := by
  unfold view dssKdat
  rw [ho, Option.bind_some, hk]; rfl

theorem agree_dkg {f : Data K → Outcome (Data K × List (Act Dto))} (hf : Blind f) :
    Agree r (dkgCall f M r o) (f ⟨k, o.qual, (dssKdat M r).bind fun p => M.dsss[p]?, o.out⟩) := by
  rw [hf]
  unfold dkgCall
  rw [hk]
  dsimp only
  cases f ⟨k, o.qual, none, o.out⟩ with
  | panic => rfl
  | err => rfl
  | ok p =>
    obtain ⟨u, as⟩ := p
    refine ⟨_, rfl, ?_⟩
    have hl := (List.getElem?_eq_some_iff.1 ho).1
    have hg := (List.getElem?_eq_some_iff.1 hk).1
    exact view_of (M := { M with gens := M.gens.set o.gen u.kyb, runs := M.runs.set r { o with qual := u.qual, out := u.out } })
      (o := { o with qual := u.qual, out := u.out }) (List.getElem?_set_self hl) (List.getElem?_set_self hg)

theorem agree_init {nonce : Int} (ha : M.args.get? o.gen = some ⟨c.secret o.guest, c.pubs, c.threshold⟩) :
    Agree r (Verif.Kdats.stInit c M r o) (Dkg.stInit c.y c.H (envOf c M o.guest o.id nonce) ⟨k, o.qual, (dssKdat M r).bind fun p => M.dsss[p]?, o.out⟩) := by
  unfold Verif.Kdats.stInit Dkg.stInit envOf
  rw [hk]
  dsimp only
  cases c.y.distKeyShare k with
  | panic => rfl
  | err => exact ⟨_, rfl, view_of ho hk⟩
  | ok random =>
    dsimp only
    rw [ha]
    cases c.longterms.get? o.guest with
    | none => rfl
    | some long =>
      cases docFor M.docs o.guest o.id with
      | none => rfl
      | some doc =>
        dsimp only
        cases newDSS c.H ⟨c.secret o.guest, c.pubs, long, random, c.y.qual k, doc, c.threshold⟩ with
        | panic => rfl
        | err =>
          refine ⟨_, rfl, (view_of (M := { M with kdats := M.kdats.set r none }) ho hk).trans ?_⟩
          unfold dssKdat
          dsimp only
          rw [GoMap.get?_set, if_pos rfl]; rfl
        | ok d =>
          refine ⟨_, rfl, (view_of (M := { M with dsss := M.dsss ++ [d], kdats := M.kdats.set r (some M.dsss.length) }) ho hk).trans ?_⟩
          unfold dssKdat
          dsimp only
          rw [GoMap.get?_set, if_pos rfl, Option.join_some, Option.bind_some, List.getElem?_concat_length]

/-- The signer of the run changes. -/
theorem view_signer {p : Nat} {d d' : DSS} (hp : dssKdat M r = some p) (hd : M.dsss[p]? = some d) :
    view { M with dsss := M.dsss.set p d' } r = some ⟨k, o.qual, some d', o.out⟩ := by
  refine (view_of (M := { M with dsss := M.dsss.set p d' }) ho hk).trans ?_
  have : dssKdat { M with dsss := M.dsss.set p d' } r = some p := hp
  rw [this, Option.bind_some]
  dsimp only
  rw [List.getElem?_set_self (List.getElem?_eq_some_iff.1 hd).1]

theorem agree_partsig {nonce : Int} : Agree r (Verif.Kdats.stPartsig c nonce M r o)
    (Dkg.stPartsig c.H c.SH (envOf c M o.guest o.id nonce) ⟨k, o.qual, (dssKdat M r).bind fun p => M.dsss[p]?, o.out⟩) := by
  unfold Verif.Kdats.stPartsig Dkg.stPartsig
  cases hp : dssKdat M r with
  | none => rfl
  | some p =>
    dsimp only [Option.bind_some]
    cases hd : M.dsss[p]? with
    | none => rfl
    | some d =>
      dsimp only [envOf]
      cases (partialSig c.H c.SH nonce d).2 with
      | panic => rfl
      | err => exact ⟨_, rfl, view_signer ho hk hp hd⟩
      | ok sig =>
        dsimp only [broadcastQual]
        cases partsigToDto sig with
        | panic => rfl
        | err => exact ⟨_, rfl, view_signer ho hk hp hd⟩
        | ok dto =>
          dsimp only
          cases hq : o.qual with
          | none => rfl
          | some q => exact ⟨_, rfl, by rw [view_signer ho hk hp hd, hq]⟩

theorem agree_process (x : Obj) : Agree r (Verif.Kdats.prPartsig c M r x)
    (Dkg.prPartsig c.H c.SH ⟨k, o.qual, (dssKdat M r).bind fun p => M.dsss[p]?, o.out⟩ x) := by
  cases x with
  | partsig s =>
    unfold Verif.Kdats.prPartsig Dkg.prPartsig
    dsimp only
    cases hp : dssKdat M r with
    | none => rfl
    | some p =>
      dsimp only [Option.bind_some]
      cases hd : M.dsss[p]? with
      | none => rfl
      | some d =>
        dsimp only
        cases (processPartialSig c.H c.SH d s).2 with
        | panic => rfl
        | err => exact ⟨_, rfl, view_signer ho hk hp hd⟩
        | ok _ => exact ⟨_, rfl, view_signer ho hk hp hd⟩
  | _ => rfl

theorem agree_final : Agree r (Verif.Kdats.dssStFinal c M r o)
    (Dkg.dssStFinal c.H ⟨k, o.qual, (dssKdat M r).bind fun p => M.dsss[p]?, o.out⟩) := by
  have hv := view_of ho hk
  unfold Verif.Kdats.dssStFinal Dkg.dssStFinal
  cases hp : dssKdat M r with
  | none => rfl
  | some p =>
    rw [hp] at hv
    dsimp only [Option.bind_some] at hv ⊢
    cases hd : M.dsss[p]? with
    | none => rfl
    | some d =>
      rw [hd] at hv
      dsimp only
      by_cases he : (!enoughPartialSig d) = true
      · rw [if_pos he, if_pos he]; exact ⟨_, rfl, hv⟩
      · rw [if_neg he, if_neg he]
        cases signature c.H d with
        | panic => rfl
        | err => exact ⟨_, rfl, hv⟩
        | ok s =>
          refine ⟨_, rfl, (view_of (M := { M with runs := M.runs.set r { o with out := o.out ++ [.sig s] } }) (o := { o with out := o.out ++ [.sig s] })
            (List.getElem?_set_self (List.getElem?_eq_some_iff.1 ho).1) hk).trans ?_⟩
          have : dssKdat { M with runs := M.runs.set r { o with out := o.out ++ [.sig s] } } r = some p := hp
          rw [this, Option.bind_some]
          dsimp only
          rw [hd]

end

theorem agree_call {vs : List Nat} {M : Mem K} (hi : Inv c vs M) {r : Nat} {o : RunObj} (ho : M.runs[r]? = some o) (ht : o.terminated = false)
    (f : Verif.Kdats.Call) (nonce : Int) : ∃ u, view M r = some u ∧
    Agree r (callRun c M r f nonce) (solo (stagesOf c o.signs (envOf c M o.guest o.id nonce)) u f) := by
  have hm : o.gen < M.gens.length := hi.made _ (List.mem_append_right _ (List.mem_map_of_mem (List.mem_of_getElem? ho)))
  have hk : M.gens[o.gen]? = some M.gens[o.gen] := List.getElem?_eq_getElem hm
  refine ⟨_, view_of ho hk, ?_⟩
  unfold callRun
  rw [ho]
  dsimp only
  rw [if_neg (by rw [ht]; exact nofun)]
  have hlen : (dkgStages c.y).length = 9 := rfl
  cases hs : o.signs with
  | false =>
    cases f with
    | step n =>
      rw [funOf, if_neg (by rw [hs]; exact nofun), if_neg (by rw [hs]; exact nofun), if_neg (by rw [hs]; exact nofun)]
      unfold solo stagesOf
      rw [if_neg (by exact nofun)]
      dsimp only
      cases hf : (dkgStages c.y)[n]?.bind (·.step) with
      | none => rfl
      | some f => exact agree_dkg ho hk (blind_step c.y hf)
    | proc n x =>
      rw [funOf, if_neg (by rw [hs]; exact nofun)]
      unfold solo stagesOf
      rw [if_neg (by exact nofun)]
      dsimp only
      cases hf : (dkgStages c.y)[n]?.bind (·.proc) with
      | none => rfl
      | some f => exact agree_dkg ho hk (blind_proc c.y hf x)
  | true =>
    have ha := hi.args o (List.mem_filter.2 ⟨List.mem_of_getElem? ho, by rw [hs, ht]; rfl⟩)
    cases f with
    | step n =>
      by_cases h9 : n < 9
      · rw [funOf, if_neg (by omega), if_neg (by omega), if_neg (by omega)]
        unfold solo stagesOf dssStages
        rw [if_pos rfl]
        dsimp only
        rw [List.getElem?_append_left (by rw [hlen]; exact h9)]
        cases hf : (dkgStages c.y)[n]?.bind (·.step) with
        | none => rfl
        | some f => exact agree_dkg ho hk (blind_step c.y hf)
      · obtain ⟨m, rfl⟩ := Nat.exists_eq_add_of_le (Nat.le_of_not_lt h9)
        unfold solo stagesOf dssStages
        rw [if_pos rfl]
        dsimp only
        rw [List.getElem?_append_right (by rw [hlen]; omega), hlen, Nat.add_sub_cancel_left]
        rcases m with _ | _ | _ | m
        · rw [funOf, if_pos ⟨rfl, hs⟩]
          exact agree_init ho hk ha
        · rw [funOf, if_neg (by omega), if_pos ⟨rfl, hs⟩]
          exact agree_partsig ho hk
        · rw [funOf, if_neg (by omega), if_neg (by omega), if_pos ⟨rfl, hs⟩]
          exact agree_final ho hk
        · rw [funOf, if_neg (by omega), if_neg (by omega), if_neg (by omega), List.getElem?_eq_none (by rw [hlen]; omega)]
          rfl
    | proc n x =>
      by_cases h9 : n < 9
      · rw [funOf, if_neg (by omega)]
        unfold solo stagesOf dssStages
        rw [if_pos rfl]
        dsimp only
        rw [List.getElem?_append_left (by rw [hlen]; exact h9)]
        cases hf : (dkgStages c.y)[n]?.bind (·.proc) with
        | none => rfl
        | some f => exact agree_dkg ho hk (blind_proc c.y hf x)
      · obtain ⟨m, rfl⟩ := Nat.exists_eq_add_of_le (Nat.le_of_not_lt h9)
        unfold solo stagesOf dssStages
        rw [if_pos rfl]
        dsimp only
        rw [List.getElem?_append_right (by rw [hlen]; omega), hlen, Nat.add_sub_cancel_left]
        rcases m with _ | _ | _ | m
        · rw [funOf, if_neg (by omega), List.getElem?_eq_none (Nat.le_of_eq hlen)]; rfl
        · rw [funOf, if_pos ⟨rfl, hs⟩]
          exact agree_process ho hk x
        · rw [funOf, if_neg (by omega), List.getElem?_eq_none (by rw [hlen]; omega)]; rfl
        · rw [funOf, if_neg (by omega), List.getElem?_eq_none (by rw [hlen]; omega)]; rfl

/-- C107 (own data). Whatever was called for whichever runs before, a call for a run that has not been cleaned up does what it would do if the run had
its data to itself, with the secret of its own guest: it gives the same data, sends the same messages and panics in the same cases. -/
theorem C107_own_data (guests : List Int) (h : List (Verif.Kdats.Ev K)) (M : Mem K) (hx : exec c (start guests) h = .ok M) (r : Nat) (o : RunObj)
    (ho : M.runs[r]? = some o) (ht : o.terminated = false) (f : Verif.Kdats.Call) (nonce : Int) :
    ∃ u, view M r = some u ∧ match callRun c M r f nonce with
      | .ok (M', as) => ∃ u', solo (stagesOf c o.signs (envOf c M o.guest o.id nonce)) u f = .ok (u', as) ∧ view M' r = some u'
      | .err => solo (stagesOf c o.signs (envOf c M o.guest o.id nonce)) u f = .err
      | .panic => solo (stagesOf c o.signs (envOf c M o.guest o.id nonce)) u f = .panic := by
  obtain ⟨vs, hi, _⟩ := inv_exec h (inv_start guests) hx
  exact agree_call hi ho ht f nonce

/-- C107 (others). What happens for a run, or to make one, or to the documents, leaves the data of all other runs as they are. A new run has those of a new
run. -/
theorem C107_others (guests : List Int) (h : List (Verif.Kdats.Ev K)) (M : Mem K) (hx : exec c (start guests) h = .ok M) (e : Verif.Kdats.Ev K)
    (M' : Mem K) (hs : step c M e = .ok M') :
    (∀ r < M.runs.length, (∀ f nonce, e ≠ .call r f nonce) → e ≠ .cleanup r → view M' r = view M r) ∧
    ∀ s g id k, e = .new s g id k → M'.runs.length = M.runs.length + 1 ∧ view M' M.runs.length = some (newData k) := by
  obtain ⟨vs, hi, _⟩ := inv_exec h (inv_start guests) hx
  have hgen : ∀ (r : Nat) (k : K), view { M with gens := M.gens ++ [k] } r = view M r := by
    intro r k
    unfold view
    dsimp only
    cases ho : M.runs[r]? with
    | none => rfl
    | some o =>
      have hm : o.gen < M.gens.length := hi.made _ (List.mem_append_right _ (List.mem_map_of_mem (List.mem_of_getElem? ho)))
      rw [Option.bind_some, Option.bind_some, List.getElem?_append_left hm]
  constructor
  · intro r hr hcall hclean
    cases e with
    | verify g k => cases hs; exact hgen r k
    | new s g id k =>
      cases hs
      refine Eq.trans ?_ (hgen r k)
      unfold view Verif.Kdats.newRun
      cases s <;> (dsimp only [makeDssKdat, makeDkgKdat]; simp only [Bool.false_eq_true, if_true, if_false]; rw [List.getElem?_append_left hr])
    | call r' f nonce =>
      rw [Verif.Kdats.step] at hs
      cases hc : callRun c M r' f nonce with
      | err => rw [hc] at hs; cases hs
      | panic => rw [hc] at hs; cases hs
      | ok p =>
        rw [hc] at hs
        obtain rfl := Outcome.ok.inj hs
        obtain ⟨o, h1, _, h3⟩ := call_effect hc
        exact effect_frame hi h1 h3 fun e => hcall f nonce (by rw [e])
    | doc op =>
      rw [Verif.Kdats.step] at hs
      cases hc : docStep M.docs op with
      | err => rw [hc] at hs; cases hs
      | panic => rw [hc] at hs; cases hs
      | ok p =>
        rw [hc] at hs
        obtain rfl := Outcome.ok.inj hs
        rfl
    | cleanup r' =>
      have hne : r' ≠ r := fun e => hclean (by rw [e])
      rw [Verif.Kdats.step] at hs
      cases ho : M.runs[r']? with
      | none => rw [ho] at hs; cases hs
      | some o =>
        rw [ho] at hs
        dsimp only at hs
        split at hs
        · cases hs
        · cases hs
          unfold view Verif.Kdats.cleanup
          cases o.signs with
          | false =>
            dsimp only
            rw [if_neg (by exact nofun)]
            dsimp only
            rw [List.getElem?_set_ne hne]
          | true =>
            dsimp only
            rw [if_pos rfl]
            dsimp only
            rw [List.getElem?_set_ne hne, GoMap.get?_delete, if_neg hne]
  · rintro s g id k rfl
    cases hs
    have hnone : M.kdats.get? M.runs.length = none := by
      cases hk : M.kdats.get? M.runs.length with
      | none => rfl
      | some x =>
        obtain ⟨o, h1, _⟩ := hi.owner _ _ hk
        exact absurd (List.getElem?_eq_some_iff.1 h1).1 (Nat.lt_irrefl _)
    cases s <;>
    · refine ⟨List.length_append, ?_⟩
      unfold view Verif.Kdats.newRun
      dsimp only [makeDssKdat, makeDkgKdat]
      simp only [Bool.false_eq_true, if_true, if_false]
      rw [List.getElem?_concat_length, Option.bind_some]
      dsimp only
      rw [List.getElem?_concat_length, hnone]
      rfl

/-- C107 (nothing left). The tables have no entry of a run that was cleaned up. `dss_kdat_args` has one entry for each generator that was made to verify the
configuration, and one for each run that signs. -/
theorem C107_nothing_left (guests : List Int) (h : List (Verif.Kdats.Ev K)) (M : Mem K) (hx : exec c (start guests) h = .ok M) :
    M.args.length = verified h + (signing M).length ∧
    (∀ r o, M.runs[r]? = some o → o.terminated = true → M.args.get? o.gen = none ∧ M.kdats.get? r = none) ∧
    ∀ r ∈ M.kdats.keys, ∃ o, M.runs[r]? = some o ∧ o.signs = true ∧ o.terminated = false := by
  obtain ⟨vs, hi, hv⟩ := inv_exec h (inv_start guests) hx
  have hv : vs.length = verified h := hv
  refine ⟨?_, fun r o ho ht => ⟨?_, ?_⟩, fun r hr => ?_⟩
  · have := hi.keys.length_eq
    rw [List.length_append, List.length_map, hv] at this
    rw [← this]
    exact (List.length_map ..).symm
  · cases ha : M.args.get? o.gen with
    | none => rfl
    | some a =>
      have hm := hi.keys.mem_iff.1 ((GoMap.get?_isSome_iff _ _).1 (by rw [ha]; rfl))
      rw [List.mem_append] at hm
      have hn := List.nodup_append.1 hi.nodup
      rcases hm with h1 | h1
      · exact absurd rfl (hn.2.2 _ h1 _ (List.mem_map_of_mem (List.mem_of_getElem? ho)))
      · obtain ⟨o', h2, h3⟩ := List.mem_map.1 h1
        obtain ⟨h4, h5⟩ := List.mem_filter.1 h2
        have : o' = o := List.inj_on_of_nodup_map hn.2.1 h4 (List.mem_of_getElem? ho) h3
        rw [this, ht, Bool.and_comm] at h5
        cases h5
  · cases hk : M.kdats.get? r with
    | none => rfl
    | some x =>
      obtain ⟨o', h1, _, h2⟩ := hi.owner _ _ hk
      rw [ho] at h1
      cases h1
      rw [ht] at h2; cases h2
  · obtain ⟨x, hx⟩ := Option.isSome_iff_exists.1 ((GoMap.get?_isSome_iff _ _).2 hr)
    exact hi.owner _ _ hx

end Verif.Props.Kdats
