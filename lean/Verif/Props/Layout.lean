import Verif.Proofs.Layout
import Verif.Proofs.Dlog

/-! Properties C31-C36, C63, C64: member order, lookup, routing, guests, configuration, key files. -/
namespace Verif.Props
open Verif.Point Verif.Layout

/-- The file `nm` holds an encoding of the public key `p`. -/
def HoldsKey (dir : Dir) (nm : String) (p : Pt) : Prop := ∃ b, dir nm = some b ∧ unmarshalBinary b = .ok p

/-- C31. Two nodes whose configured files hold the same public keys, in whatever order, under whatever names and with
whatever sort algorithms, get the same ordered list of public keys (of all the keys). -/
theorem C31_same_order (srt1 srt2 : List Member → List Member) (hs1 : SortContract srt1) (hs2 : SortContract srt2)
    (dir1 dir2 : Dir) (names1 names2 : List String) (ks1 ks2 : List Pt)
    (h1 : List.Forall₂ (HoldsKey dir1) names1 ks1) (h2 : List.Forall₂ (HoldsKey dir2) names2 ks2) (hp : ks1.Perm ks2) :
    ∃ ms1 ms2, loadAndSort srt1 dir1 names1 = .ok ms1 ∧ loadAndSort srt2 dir2 names2 = .ok ms2 ∧
      memberPubs ms1 = memberPubs ms2 ∧ (memberPubs ms1).Perm ks1 := by
  have key : ∀ (srt : List Member → List Member) (_ : SortContract srt) (dir : Dir) (names : List String) (ks : List Pt),
      List.Forall₂ (HoldsKey dir) names ks →
      ∃ ms, loadAndSort srt dir names = .ok ms ∧ (memberPubs ms).Perm ks := by
    intro srt hs dir names ks hk
    obtain ⟨raw, hr, hk2⟩ : ∃ raw, List.Forall₂ (Raw dir) names raw ∧ raw.map Member.pub = ks := by
      clear hs
      induction hk with
      | nil => exact ⟨[], .nil, rfl⟩
      | @cons nm p nms ps h _ ih =>
        obtain ⟨raw, h3, h4⟩ := ih
        obtain ⟨bs, _, h5⟩ := pubhex_curve (Loaded.curve (dir := dir) (nm := nm) (p := p) h)
        exact ⟨⟨nm, 0, p, _⟩ :: raw, .cons ⟨rfl, rfl, h, h5⟩ h3, by rw [List.map_cons, h4]⟩
    refine ⟨_, (load_raw srt dir names _).2 ⟨raw, hr, rfl⟩, ?_⟩
    have e : memberPubs ((srt raw).mapIdx (fun i m => { m with index := i })) = (srt raw).map Member.pub := by
      rw [memberPubs]
      apply List.ext_getElem?; intro i
      rw [List.getElem?_map, List.getElem?_mapIdx, List.getElem?_map, Option.map_map]; rfl
    rw [e, ← hk2]
    exact (hs raw).1.map _
  obtain ⟨ms1, e1, p1⟩ := key srt1 hs1 dir1 names1 ks1 h1
  obtain ⟨ms2, e2, p2⟩ := key srt2 hs2 dir2 names2 ks2 h2
  refine ⟨ms1, ms2, e1, e2, ?_, p1⟩
  obtain ⟨_, _, l1, s1, x1⟩ := load_spec hs1 e1
  obtain ⟨_, _, l2, s2, x2⟩ := load_spec hs2 e2
  refine List.Perm.eq_of_pairwise (le := fun a b => ∀ ha hb, pubhex a = .ok ha → pubhex b = .ok hb → ¬ hb < ha) ?_ ?_ ?_
    (p1.trans (hp.trans p2.symm))
  · intro a b ha hb hab hba
    rw [memberPubs, List.mem_map] at ha hb
    obtain ⟨m1, hm1, rfl⟩ := ha
    obtain ⟨m2, hm2, rfl⟩ := hb
    have hx1 := x1 m1 hm1
    have hx2 := x2 m2 hm2
    have heq := bytes_not_lt_antisymm (hba _ _ hx2 hx1) (hab _ _ hx1 hx2)
    exact pubhex_injective (l1 m1 hm1).curve (l2 m2 hm2).curve hx1 (heq ▸ hx2)
  · rw [memberPubs, List.pairwise_map]
    refine s1.imp_of_mem ?_
    intro a b ha hb hab xa xb hxa hxb
    rw [← Outcome.ok.inj ((x1 a ha).symm.trans hxa), ← Outcome.ok.inj ((x1 b hb).symm.trans hxb)]
    exact hab
  · rw [memberPubs, List.pairwise_map]
    refine s2.imp_of_mem ?_
    intro a b ha hb hab xa xb hxa hxb
    rw [← Outcome.ok.inj ((x2 a ha).symm.trans hxa), ← Outcome.ok.inj ((x2 b hb).symm.trans hxb)]
    exact hab

/-- C31 (missing or bad files). Loading succeeds only if every listed file holds a public key. -/
theorem C31_refuses (srt : List Member → List Member) (dir : Dir) (names : List String) (ms : List Member)
    (h : loadAndSort srt dir names = .ok ms) : ∀ nm ∈ names, ∃ p, HoldsKey dir nm p := by
  obtain ⟨raw, h1, _⟩ := (load_raw srt dir names ms).1 h
  intro nm hnm
  obtain ⟨m, _, hr⟩ := forall2_mem_left h1 nm hnm
  exact ⟨m.pub, hr.2.2.1⟩

/-- C32 (index). After loading, the index of each member is its position, and the members are exactly the listed
files, each with the key held by its file. -/
theorem C32_index (srt : List Member → List Member) (hs : SortContract srt) (dir : Dir) (names : List String)
    (ms : List Member) (h : loadAndSort srt dir names = .ok ms) :
    (∀ (i : Nat) (m : Member), ms[i]? = some m → m.index = i) ∧ (ms.map Member.pubfile).Perm names ∧
    ∀ m ∈ ms, HoldsKey dir m.pubfile m.pub := by
  obtain ⟨h1, h2, h3, _⟩ := load_spec hs h
  exact ⟨h1, h2, h3⟩

/-- C32 (lookup). `find_member_index` returns the first position with an equal key, and -1 iff there is none. -/
theorem C32_find (pub : Pt) (ms : List Member) :
    (findMemberIndex pub ms = -1 ↔ ∀ m ∈ ms, equal m.pub pub = false) ∧
    ∀ i : Nat, findMemberIndex pub ms = i ↔ ∃ m, ms[i]? = some m ∧ equal m.pub pub = true ∧
      ∀ j m', j < i → ms[j]? = some m' → equal m'.pub pub = false := by
  rw [findMemberIndex]
  cases hf : ms.findIdx? fun m => equal m.pub pub with
  | none =>
    rw [List.findIdx?_eq_none_iff] at hf
    refine ⟨⟨fun _ => hf, fun _ => rfl⟩, ?_⟩
    intro i
    constructor
    · intro h; dsimp only at h; omega
    · rintro ⟨m, h1, h2, _⟩
      rw [hf m (List.mem_of_getElem? h1)] at h2; cases h2
  | some k =>
    rw [List.findIdx?_eq_some_iff_getElem] at hf
    obtain ⟨hk, h1, h2⟩ := hf
    refine ⟨⟨fun h => by dsimp only at h; omega, fun h => ?_⟩, ?_⟩
    · rw [h _ (List.getElem_mem hk)] at h1; cases h1
    · intro i
      dsimp only
      constructor
      · intro h
        have : i = k := by omega
        subst this
        refine ⟨ms[i], by simp [hk], h1, ?_⟩
        intro j m' hj hm'
        obtain ⟨hj2, rfl⟩ := List.getElem?_eq_some_iff.1 hm'
        exact Bool.not_eq_true _ ▸ h2 j hj
      · rintro ⟨m, h3, h4, h5⟩
        rcases Nat.lt_trichotomy i k with hlt | rfl | hlt
        · obtain ⟨hi, rfl⟩ := List.getElem?_eq_some_iff.1 h3
          exact absurd h4 (h2 i hlt)
        · rfl
        · have := h5 k ms[k] hlt (by simp [hk])
          rw [this] at h1; cases h1

theorem foldl_set_get? {K V A : Type} [DecidableEq K] (f : A → K) (g : A → V) (xs : List A) (r : GoMap K V) (k : K) :
    (xs.foldl (fun r a => r.set (f a) (g a)) r).get? k =
      match (xs.filter fun a => decide (f a = k)).getLast? with
      | some a => some (g a)
      | none => r.get? k := by
  induction xs generalizing r with
  | nil => rfl
  | cons a xs ih =>
    rw [List.foldl_cons, ih, List.filter_cons]
    by_cases h : f a = k
    · rw [if_pos (by simpa using h), List.getLast?_cons]
      cases (xs.filter fun a => decide (f a = k)).getLast? with
      | none => rw [GoMap.get?_set, if_pos h]; rfl
      | some b => rfl
    · rw [if_neg (by simpa using h)]
      cases (xs.filter fun a => decide (f a = k)).getLast? with
      | none => rw [GoMap.get?_set, if_neg h]
      | some b => rfl

/-- C32 (file names). With distinct file names, `map_pubfile_to_index` maps exactly the member files, each to the
index of its member. -/
theorem C32_pubfile_map (ms : List Member) (hn : (ms.map Member.pubfile).Nodup) (nm : String) (i : Nat) :
    (mapPubfileToIndex ms).get? nm = some i ↔ ∃ m ∈ ms, m.pubfile = nm ∧ m.index = i := by
  rw [mapPubfileToIndex, foldl_set_get? Member.pubfile Member.index]
  cases hf : (ms.filter fun a => decide (a.pubfile = nm)).getLast? with
  | none =>
    rw [List.getLast?_eq_none_iff, List.filter_eq_nil_iff] at hf
    simp only [GoMap.get?_nil, reduceCtorEq, false_iff]
    rintro ⟨m, hm, rfl, rfl⟩
    exact hf m hm (by simp)
  | some a =>
    have ha := List.mem_of_getLast? hf
    rw [List.mem_filter, decide_eq_true_eq] at ha
    simp only [Option.some.injEq]
    constructor
    · rintro rfl; exact ⟨a, ha.1, ha.2, rfl⟩
    · rintro ⟨m, hm, h1, rfl⟩
      have : m = a := by
        have h := List.inj_on_of_nodup_map hn
        exact h hm ha.1 (h1.trans ha.2.symm)
      rw [this]

/-- The member-to-address map in terms of the index lists. -/
theorem memberToAddr_get? (sets : List (List Nat)) (hn : sets.flatten.Nodup) (k j : Nat) :
    (computeMemberToAddr sets).get? k = some j ↔ ∃ ms, sets[j]? = some ms ∧ k ∈ ms := by
  have key : ∀ (sets : List (List Nat)) (off : Nat) (r : GoMap Nat Nat), sets.flatten.Nodup →
      ((sets.zipIdx off).foldl (fun r (p : List Nat × Nat) => p.1.foldl (fun r m => r.set m p.2) r) r).get? k =
        match sets.findIdx? (fun ms => ms.contains k) with
        | some j => some (off + j)
        | none => r.get? k := by
    intro sets
    induction sets with
    | nil => intro off r _; rfl
    | cons ms sets ih =>
      intro off r hn
      rw [List.flatten_cons, List.nodup_append] at hn
      rw [List.zipIdx_cons, List.foldl_cons, ih _ _ hn.2.1, List.findIdx?_cons]
      have hin := foldl_set_get? (fun m : Nat => m) (fun _ => off) ms r k
      by_cases hk : k ∈ ms
      · rw [if_pos (List.contains_iff_mem.2 hk)]
        have : sets.findIdx? (fun ms => ms.contains k) = none := by
          rw [List.findIdx?_eq_none_iff]
          intro x hx
          cases hc : x.contains k
          · rfl
          · exact absurd rfl (hn.2.2 k hk k (List.mem_flatten.2 ⟨x, hx, List.contains_iff_mem.1 hc⟩))
        rw [this]
        dsimp only at hin ⊢
        rw [hin]
        cases hf : (ms.filter fun a => decide (a = k)).getLast? with
        | some a => simp
        | none =>
          rw [List.getLast?_eq_none_iff, List.filter_eq_nil_iff] at hf
          exact absurd (by simp) (hf k hk)
      · rw [if_neg (fun h => hk (List.contains_iff_mem.1 h))]
        have hf : (ms.filter fun a => decide (a = k)) = [] := by
          rw [List.filter_eq_nil_iff]
          intro a ha hak
          rw [decide_eq_true_eq] at hak
          exact hk (hak ▸ ha)
        rw [hf] at hin
        rw [hin]
        cases sets.findIdx? (fun ms => ms.contains k) with
        | none => rfl
        | some j => simp only [Option.map_some, Option.some.injEq]; omega
  rw [computeMemberToAddr, key sets 0 [] hn]
  cases hf : sets.findIdx? (fun ms => ms.contains k) with
  | none =>
    rw [List.findIdx?_eq_none_iff] at hf
    simp only [GoMap.get?_nil, reduceCtorEq, false_iff]
    rintro ⟨ms, h1, h2⟩
    have := hf ms (List.mem_of_getElem? h1)
    rw [List.contains_iff_mem.2 h2] at this; cases this
  | some j' =>
    rw [List.findIdx?_eq_some_iff_getElem] at hf
    obtain ⟨hj, h1, _⟩ := hf
    simp only [Nat.zero_add, Option.some.injEq]
    constructor
    · rintro rfl
      exact ⟨sets[j'], by simp [hj], List.contains_iff_mem.1 h1⟩
    · rintro ⟨ms, h2, h3⟩
      obtain ⟨hj2, rfl⟩ := List.getElem?_eq_some_iff.1 h2
      by_contra hne
      have hd := (List.nodup_flatten.1 hn).2
      rcases Nat.lt_or_gt_of_ne hne with hlt | hlt
      · exact (List.pairwise_iff_getElem.1 hd j' j hj hj2 hlt) (List.contains_iff_mem.1 h1) h3
      · exact (List.pairwise_iff_getElem.1 hd j j' hj2 hj hlt) h3 (List.contains_iff_mem.1 h1)

/-- A configuration in which each file name is listed on exactly one host, and the public key files are the listed
files; as many addresses as member lists. -/
structure WellFormed (conf : Config) : Prop where
  once : conf.members.flatten.Nodup
  files : conf.pubfiles.Perm conf.members.flatten
  parallel : conf.addrs.length = conf.members.length

section Routing
variable {srt : List Member → List Member} {dir : Dir} {conf : Config} {l : Layout}

theorem layout_parts (h : computeLayout srt dir conf = .ok l) :
    loadAndSort srt dir conf.pubfiles = .ok l.members ∧ l.addrs = conf.addrs ∧
    l.addrMembers = confMembersAsIndices conf (mapPubfileToIndex l.members) ∧
    l.memberToAddr = computeMemberToAddr l.addrMembers := by
  rw [computeLayout, Outcome.bind_eq_ok] at h
  obtain ⟨ms, h1, h2⟩ := h
  have := Outcome.ok.inj h2
  subst this
  exact ⟨h1, rfl, rfl, rfl⟩

theorem layout_nodup (hs : SortContract srt) (hw : WellFormed conf) (h : computeLayout srt dir conf = .ok l) :
    (l.members.map Member.pubfile).Nodup ∧ (∀ f ∈ conf.members.flatten, ∃ m ∈ l.members, m.pubfile = f) := by
  obtain ⟨h1, _, _, _⟩ := layout_parts h
  obtain ⟨_, h2, _⟩ := C32_index srt hs dir _ _ h1
  have hp := h2.trans hw.files
  refine ⟨hp.nodup_iff.2 hw.once, ?_⟩
  intro f hf
  have := hp.mem_iff.2 hf
  rw [List.mem_map] at this
  exact this

/-- The index stored for a listed file. -/
theorem index_of_file (hs : SortContract srt) (hw : WellFormed conf) (h : computeLayout srt dir conf = .ok l) {f : String}
    {m : Member} (hm : m ∈ l.members) (hf : m.pubfile = f) :
    ((mapPubfileToIndex l.members).get? f).getD 0 = m.index := by
  rw [(C32_pubfile_map l.members (layout_nodup hs hw h).1 f m.index).2 ⟨m, hm, hf, rfl⟩]; rfl

theorem member_index_inj (hs : SortContract srt) (h : computeLayout srt dir conf = .ok l) {m m' : Member}
    (hm : m ∈ l.members) (hm' : m' ∈ l.members) (he : m.index = m'.index) : m = m' := by
  obtain ⟨h1, _⟩ := C32_index srt hs dir _ _ (layout_parts h).1
  obtain ⟨i, hi, rfl⟩ := List.getElem_of_mem hm
  obtain ⟨j, hj, rfl⟩ := List.getElem_of_mem hm'
  have e1 := h1 i _ (List.getElem?_eq_getElem hi)
  have e2 := h1 j _ (List.getElem?_eq_getElem hj)
  have : i = j := by omega
  subst this; rfl

theorem indices_nodup (hs : SortContract srt) (hw : WellFormed conf) (h : computeLayout srt dir conf = .ok l) :
    l.addrMembers.flatten.Nodup := by
  obtain ⟨_, _, h3, _⟩ := layout_parts h
  have e : l.addrMembers.flatten = conf.members.flatten.map fun s => ((mapPubfileToIndex l.members).get? s).getD 0 := by
    rw [h3, confMembersAsIndices, List.map_flatten]
  rw [e]
  refine List.Nodup.map_on ?_ hw.once
  intro x hx y hy he
  obtain ⟨m, hm, rfl⟩ := (layout_nodup hs hw h).2 x hx
  obtain ⟨m', hm', rfl⟩ := (layout_nodup hs hw h).2 y hy
  rw [index_of_file hs hw h hm rfl, index_of_file hs hw h hm' rfl] at he
  rw [member_index_inj hs h hm hm' he]
end Routing

/-- C33. In a well-formed configuration a member index is mapped to host `j` iff the file of that member is listed on
host `j`; and every member index is mapped, to a host that has an address. -/
theorem C33_routing (srt : List Member → List Member) (hs : SortContract srt) (dir : Dir) (conf : Config)
    (hw : WellFormed conf) (l : Layout) (h : computeLayout srt dir conf = .ok l) :
    (∀ m ∈ l.members, ∀ j, l.memberToAddr.get? m.index = some j ↔ ∃ fs, conf.members[j]? = some fs ∧ m.pubfile ∈ fs) ∧
    (∀ m ∈ l.members, ∃ j a, l.memberToAddr.get? m.index = some j ∧ conf.addrs[j]? = some a ∧ l.addrs[j]? = some a) := by
  obtain ⟨h1, h2, h3, h4⟩ := layout_parts h
  have hnd := indices_nodup hs hw h
  have key : ∀ m ∈ l.members, ∀ j, l.memberToAddr.get? m.index = some j ↔
      ∃ fs, conf.members[j]? = some fs ∧ m.pubfile ∈ fs := by
    intro m hm j
    rw [h4, memberToAddr_get? _ hnd, h3, confMembersAsIndices]
    constructor
    · rintro ⟨ms, e1, e2⟩
      rw [List.getElem?_map, Option.map_eq_some_iff] at e1
      obtain ⟨fs, e3, rfl⟩ := e1
      rw [List.mem_map] at e2
      obtain ⟨f, hf, e4⟩ := e2
      have hf2 : f ∈ conf.members.flatten := List.mem_flatten.2 ⟨fs, List.mem_of_getElem? e3, hf⟩
      obtain ⟨m', hm', rfl⟩ := (layout_nodup hs hw h).2 f hf2
      rw [index_of_file hs hw h hm' rfl] at e4
      rw [← member_index_inj hs h hm' hm e4]
      exact ⟨fs, e3, hf⟩
    · rintro ⟨fs, e1, e2⟩
      refine ⟨fs.map fun s => ((mapPubfileToIndex l.members).get? s).getD 0, by rw [List.getElem?_map, e1]; rfl, ?_⟩
      rw [List.mem_map]
      exact ⟨m.pubfile, e2, index_of_file hs hw h hm rfl⟩
  refine ⟨key, ?_⟩
  intro m hm
  obtain ⟨_, hp, _⟩ := C32_index srt hs dir _ _ h1
  have hmem : m.pubfile ∈ conf.members.flatten := (hp.trans hw.files).mem_iff.1 (List.mem_map_of_mem hm)
  obtain ⟨fs, hfs, hin⟩ := List.mem_flatten.1 hmem
  obtain ⟨j, hj, rfl⟩ := List.getElem_of_mem hfs
  have hj2 : j < conf.addrs.length := by rw [hw.parallel]; exact hj
  refine ⟨j, conf.addrs[j], (key m hm j).2 ⟨_, List.getElem?_eq_getElem hj, hin⟩, List.getElem?_eq_getElem hj2, ?_⟩
  rw [h2]; exact List.getElem?_eq_getElem hj2

/-- C33 (no member list but the configured ones). Each address keeps its list of member indices in order. -/
theorem C33_addr_members (srt : List Member → List Member) (hs : SortContract srt) (dir : Dir) (conf : Config)
    (hw : WellFormed conf) (l : Layout) (h : computeLayout srt dir conf = .ok l) :
    List.Forall₂ (List.Forall₂ fun f i => ∃ m, l.members[i]? = some m ∧ m.pubfile = f) conf.members l.addrMembers := by
  obtain ⟨h1, _, h3, _⟩ := layout_parts h
  obtain ⟨hidx, _⟩ := C32_index srt hs dir _ _ h1
  rw [h3, confMembersAsIndices, List.forall₂_map_right_iff, List.forall₂_same]
  intro fs hfs
  rw [List.forall₂_map_right_iff, List.forall₂_same]
  intro f hf
  obtain ⟨m, hm, rfl⟩ := (layout_nodup hs hw h).2 f (List.mem_flatten.2 ⟨fs, hfs, hf⟩)
  rw [index_of_file hs hw h hm rfl]
  obtain ⟨i, hi, rfl⟩ := List.getElem_of_mem hm
  refine ⟨l.members[i], ?_, rfl⟩
  rw [hidx i _ (List.getElem?_eq_getElem hi)]
  exact List.getElem?_eq_getElem hi

end Verif.Props
