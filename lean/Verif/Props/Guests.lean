import Verif.Props.Layout

/-! Properties C34-C36, C63, C64. -/
namespace Verif.Props
open Verif.Point Verif.Layout

/-- Member `i` of the list is the first whose key is `s·Base`. -/
def IsKeyOf (ms : List Member) (i : Nat) (s : Int) : Prop :=
  ∃ m, ms[i]? = some m ∧ mulBase s = .ok m.pub ∧ ∀ j m', j < i → ms[j]? = some m' → m'.pub ≠ m.pub

/-- What an entry of the guests map must be. -/
def GoodGuest (conf : Config) (ms : List Member) (secrets : List Int) (i : Nat) (e : Guest) : Prop :=
  e.index = i ∧ e.sec ∈ secrets ∧ IsKeyOf ms i e.sec ∧
  ∃ m, ms[i]? = some m ∧ e.pub = m.pub ∧ mulBase e.sec = .ok e.pub ∧
    conf.addrs[e.addrIndex]? = some e.addr ∧ ∃ fs, conf.members[e.addrIndex]? = some fs ∧ m.pubfile ∈ fs

theorem mulBase_reduced (s : Int) : ∃ P, mulBase s = .ok P ∧ Reduced P.X P.Y := by
  obtain ⟨P, h1, h2⟩ := log_mulBase s
  exact ⟨P, h1, ((exists_log_iff P).2 ⟨_, h2⟩).1⟩

theorem find_isKeyOf {ms : List Member} (hred : ∀ m ∈ ms, Reduced m.pub.X m.pub.Y) {s : Int} {P : Pt} (hP : mulBase s = .ok P)
    (i : Nat) : findMemberIndex P ms = i ↔ IsKeyOf ms i s := by
  obtain ⟨P', h1, hPr⟩ := mulBase_reduced s
  have : P' = P := Outcome.ok.inj (h1.symm.trans hP)
  subst this
  rw [(C32_find P' ms).2 i, IsKeyOf]
  constructor
  · rintro ⟨m, h2, h3, h4⟩
    have e := (equal_iff_eq (hred m (List.mem_of_getElem? h2)) hPr).1 h3
    refine ⟨m, h2, by rw [hP, e], ?_⟩
    intro j m' hj hm' he
    have := h4 j m' hj hm'
    rw [he, e, (equal_iff_eq hPr hPr).2 rfl] at this; cases this
  · rintro ⟨m, h2, h3, h4⟩
    have e : P' = m.pub := Outcome.ok.inj (hP.symm.trans h3)
    subst e
    refine ⟨m, h2, (equal_iff_eq hPr hPr).2 rfl, ?_⟩
    intro j m' hj hm'
    cases hc : equal m'.pub m.pub
    · rfl
    · exact absurd ((equal_iff_eq (hred m' (List.mem_of_getElem? hm')) hPr).1 hc) (h4 j m' hj hm')

/-- C34. On a layout computed from a well-formed configuration `compute_guests` does not fail; member `i` is in the
result iff one of the secrets is the secret key of member `i` (the first such member); and the entry has this index, one
of the secrets, matching its public key, which is the public key of member `i`, and the address of the host listing
its file. -/
theorem C34_guests (srt : List Member → List Member) (hs : SortContract srt) (dir : Dir) (conf : Config)
    (hw : WellFormed conf) (l : Layout) (h : computeLayout srt dir conf = .ok l) (secrets : List Int) :
    ∃ g, computeGuests l secrets = .ok g ∧
      (∀ i, (∃ e, g.get? i = some e) ↔ ∃ s ∈ secrets, IsKeyOf l.members i s) ∧
      (∀ i e, g.get? i = some e → GoodGuest conf l.members secrets i e) ∧ g.keys.Nodup := by
  obtain ⟨h1, h2, h3, h4⟩ := layout_parts h
  obtain ⟨hidx, _, hkeys⟩ := C32_index srt hs dir _ _ h1
  obtain ⟨hroute, htotal⟩ := C33_routing srt hs dir conf hw l h
  have hred : ∀ m ∈ l.members, Reduced m.pub.X m.pub.Y := fun m hm => (Loaded.curve (hkeys m hm)).1
  have step : ∀ (done : List Int) (r : GoMap Nat Guest) (s : Int),
      ((∀ i, (∃ e, r.get? i = some e) ↔ ∃ s ∈ done, IsKeyOf l.members i s) ∧
       (∀ i e, r.get? i = some e → GoodGuest conf l.members done i e) ∧ r.keys.Nodup) →
      ∃ r', addGuest l r s = .ok r' ∧ (∀ i, (∃ e, r'.get? i = some e) ↔ ∃ s' ∈ done ++ [s], IsKeyOf l.members i s') ∧
       (∀ i e, r'.get? i = some e → GoodGuest conf l.members (done ++ [s]) i e) ∧ r'.keys.Nodup := by
    intro done r s ⟨i1, i2, i3⟩
    obtain ⟨P, hP, _⟩ := mulBase_reduced s
    have mono : ∀ i e, GoodGuest conf l.members done i e → GoodGuest conf l.members (done ++ [s]) i e := by
      rintro i e ⟨g1, g2, g3⟩
      exact ⟨g1, List.mem_append_left _ g2, g3⟩
    rw [addGuest, computePub, hP, Outcome.bind_ok]
    by_cases hf : findMemberIndex P l.members = -1
    · dsimp only
      rw [if_neg (by rw [hf]; simp)]
      refine ⟨r, rfl, ?_, fun i e he => mono i e (i2 i e he), i3⟩
      intro i
      rw [i1 i]
      constructor
      · rintro ⟨s', hs', hk⟩; exact ⟨s', List.mem_append_left _ hs', hk⟩
      · rintro ⟨s', hs', hk⟩
        rcases List.mem_append.1 hs' with hs' | hs'
        · exact ⟨s', hs', hk⟩
        · rw [List.mem_singleton] at hs'
          subst hs'
          have := (find_isKeyOf hred hP i).2 hk
          omega
    · obtain ⟨i0, hi0⟩ : ∃ i0 : Nat, findMemberIndex P l.members = i0 := by
        rw [findMemberIndex] at hf ⊢
        cases hh : l.members.findIdx? fun m => equal m.pub P with
        | none => rw [hh] at hf; exact absurd rfl hf
        | some k => exact ⟨k, rfl⟩
      have hkey := (find_isKeyOf hred hP i0).1 hi0
      obtain ⟨m, e1, e2, e3⟩ := hkey
      obtain ⟨j, a, t1, t2, t3⟩ := htotal m (List.mem_of_getElem? e1)
      rw [hidx i0 m e1] at t1
      obtain ⟨fs, u1, u2⟩ := (hroute m (List.mem_of_getElem? e1) j).1 (by rw [hidx i0 m e1]; exact t1)
      dsimp only
      rw [if_pos hf, hi0, Int.toNat_natCast, e1, t1]
      simp only [Outcome.ofOption_some, Outcome.orPanic_ok, Outcome.bind_ok, Option.getD_some, t3, Outcome.pure_eq]
      refine ⟨_, rfl, ?_, ?_, GoMap.nodup_set i3 _ _⟩
      · intro i
        rw [GoMap.get?_set]
        by_cases hi : i0 = i
        · subst hi
          rw [if_pos rfl]
          exact ⟨fun _ => ⟨s, by simp, m, e1, e2, e3⟩, fun _ => ⟨_, rfl⟩⟩
        · rw [if_neg hi, i1 i]
          constructor
          · rintro ⟨s', hs', hk⟩; exact ⟨s', List.mem_append_left _ hs', hk⟩
          · rintro ⟨s', hs', hk⟩
            rcases List.mem_append.1 hs' with hs' | hs'
            · exact ⟨s', hs', hk⟩
            · rw [List.mem_singleton] at hs'
              subst hs'
              have := (find_isKeyOf hred hP i).2 hk
              omega
      · intro i e he
        rw [GoMap.get?_set] at he
        by_cases hi : i0 = i
        · subst hi
          rw [if_pos rfl] at he
          cases he
          exact ⟨rfl, by simp, ⟨m, e1, e2, e3⟩, m, e1, rfl, e2, t2, fs, u1, u2⟩
        · rw [if_neg hi] at he
          exact mono i e (i2 i e he)
  have loop : ∀ (todo done : List Int) (r : GoMap Nat Guest),
      ((∀ i, (∃ e, r.get? i = some e) ↔ ∃ s ∈ done, IsKeyOf l.members i s) ∧
       (∀ i e, r.get? i = some e → GoodGuest conf l.members done i e) ∧ r.keys.Nodup) →
      ∃ g, todo.foldl (fun acc s => do
        let r ← acc
        addGuest l r s) (Outcome.ok r) = .ok g ∧
        (∀ i, (∃ e, g.get? i = some e) ↔ ∃ s' ∈ done ++ todo, IsKeyOf l.members i s') ∧
        (∀ i e, g.get? i = some e → GoodGuest conf l.members (done ++ todo) i e) ∧ g.keys.Nodup := by
    intro todo
    induction todo with
    | nil => intro done r hr; rw [List.append_nil]; exact ⟨r, rfl, hr⟩
    | cons s todo ih =>
      intro done r hr
      obtain ⟨r', e1, e2⟩ := step done r s hr
      rw [List.foldl_cons, Outcome.bind_ok, e1, show done ++ s :: todo = (done ++ [s]) ++ todo by simp]
      exact ih (done ++ [s]) r' e2
  have := loop secrets [] [] ⟨by simp, by simp, by simp [GoMap.keys]⟩
  rw [List.nil_append] at this
  exact this

/-- C34 (which secrets are present). `_load_secrets` reads the files whose name begins with the prefix, all of them, in
the order of the directory, and no others; it fails iff one of those cannot be read. -/
theorem C34_secret_files (dir : Dir) (names : List String) (pre : String) (blobs : List (List UInt8)) :
    slurpAll dir names pre = .ok blobs ↔
      ∃ chosen : List String, chosen.Sublist names ∧ List.Forall₂ (fun n b => dir n = some b) chosen blobs ∧
        ∀ n, ((∃ rest, n.toList = pre.toList ++ rest) → chosen.count n = names.count n) ∧
          (n ∈ chosen → ∃ rest, n.toList = pre.toList ++ rest) := by
  have hpre : ∀ n : String, n.startsWith pre = true ↔ ∃ rest, n.toList = pre.toList ++ rest := by
    intro n
    rw [String.startsWith_string_iff]
    exact ⟨fun ⟨r, h⟩ => ⟨r, h.symm⟩, fun ⟨r, h⟩ => ⟨r, h.symm⟩⟩
  have hcount : ∀ n : String, n.startsWith pre = true → (filterPrefix names pre).count n = names.count n :=
    fun n hn => List.count_filter (p := fun m : String => m.startsWith pre) hn
  have hmem : ∀ n : String, n ∈ filterPrefix names pre → n.startsWith pre = true :=
    fun n hn => (List.mem_filter.1 hn).2
  have key : slurpAll dir names pre = .ok blobs ↔
      List.Forall₂ (fun n b => dir n = some b) (filterPrefix names pre) blobs := by
    rw [slurpAll, slurpAll1, mapO_ok]
    simp only [orPanic_ok, Outcome.ofOption_eq_ok]
  rw [key]
  constructor
  · intro h
    refine ⟨filterPrefix names pre, List.filter_sublist, h, fun n => ⟨fun hn => ?_, fun hn => ?_⟩⟩
    · exact hcount n ((hpre n).2 hn)
    · exact (hpre n).1 (hmem n hn)
  · rintro ⟨chosen, h1, h2, h3⟩
    have h4 : filterPrefix chosen pre = chosen := by
      rw [filterPrefix, List.filter_eq_self]
      exact fun n hn => (hpre n).2 ((h3 n).2 hn)
    have h5 : chosen.Sublist (filterPrefix names pre) := by
      rw [← h4]; exact h1.filter _
    have h6 : chosen.Perm (filterPrefix names pre) := by
      rw [List.perm_iff_count]
      intro n
      by_cases hn : n.startsWith pre = true
      · rw [(h3 n).1 ((hpre n).1 hn), hcount n hn]
      · rw [List.count_eq_zero.2 fun hm => hn ((hpre n).2 ((h3 n).2 hm)),
          List.count_eq_zero.2 fun hm => hn (hmem n hm)]
    rw [← h5.eq_of_length h6.length_eq]
    exact h2

/-- The two secret files of a directory are read, the others are not. -/
example : slurpAll (fun n => if n = "secret_b" then some [2] else if n = "secret_a" then some [1] else none)
    ["longterms_1", "secret_a", "my_secret_c", "secret_b"] "secret_" = .ok [[1], [2]] := by decide +kernel

/-- C34 (with distinct keys "the first such member" is the only one). -/
theorem C34_distinct_keys (ms : List Member) (hn : (memberPubs ms).Nodup) (i : Nat) (m : Member) (s : Int)
    (hi : ms[i]? = some m) : IsKeyOf ms i s ↔ mulBase s = .ok m.pub := by
  constructor
  · rintro ⟨m', h1, h2, _⟩
    rw [hi] at h1
    rw [Option.some.inj h1]; exact h2
  · intro h
    refine ⟨m, hi, h, ?_⟩
    intro j m' hj hm' he
    obtain ⟨h1, rfl⟩ := List.getElem?_eq_some_iff.1 hi
    obtain ⟨h2, rfl⟩ := List.getElem?_eq_some_iff.1 hm'
    have := List.pairwise_iff_getElem.1 hn j i (by rw [memberPubs, List.length_map]; exact h2)
      (by rw [memberPubs, List.length_map]; exact h1) hj
    simp only [memberPubs, List.getElem_map] at this
    exact this he

theorem mapO_map {α β γ : Type} (f : β → Outcome γ) (g : α → β) (k : α → γ) (h : ∀ a, f (g a) = .ok (k a)) (xs : List α) :
    mapO f (xs.map g) = .ok (xs.map k) := by
  rw [mapO_ok, List.forall₂_map_left_iff, List.forall₂_map_right_iff, List.forall₂_same]
  exact fun x _ => h x

theorem extract_strs (xs : List String) : extractStrings (.arr (xs.map .str)) = .ok xs := by
  have := mapO_map Json.asString Json.str (fun s => s) (fun _ => rfl) xs
  rw [List.map_id'] at this
  exact this

/-- C35. Loading the compiled configuration gives the labels, addresses and member lists in the original order, and
the concatenated member lists as public key files. -/
theorem C35_compile_load (entries : List Host) :
    loadConfig (expandConfig entries) = .ok ⟨entries.map Host.label, entries.map Host.addr, entries.map Host.members,
      (entries.map Host.members).flatten⟩ := by
  have h1 := extract_strs (entries.map Host.label)
  have h2 := extract_strs (entries.map Host.addr)
  have h3 := extract_strs (entries.flatMap Host.members)
  have h4 : extractStringLists (.arr (entries.map fun e => .arr (e.members.map .str))) = .ok (entries.map Host.members) :=
    mapO_map extractStrings (fun e : Host => Json.arr (e.members.map .str)) Host.members (fun e => extract_strs e.members) entries
  rw [List.map_map] at h1 h2
  have e : loadConfig (expandConfig entries) = (do
    let hostlabels ← extractStrings (.arr (entries.map fun e => .str e.label))
    let addrs ← extractStrings (.arr (entries.map fun e => .str e.addr))
    let members ← extractStringLists (.arr (entries.map fun e => .arr (e.members.map .str)))
    let pubfiles ← extractStrings (.arr ((entries.flatMap Host.members).map .str))
    return ⟨hostlabels, addrs, members, pubfiles⟩) := rfl
  rw [e]
  change extractStrings (.arr (entries.map fun e => .str e.label)) = _ at h1
  change extractStrings (.arr (entries.map fun e => .str e.addr)) = _ at h2
  rw [h1, h2, h3, h4]
  simp only [Outcome.bind_ok, Outcome.pure_eq]
  rw [List.flatMap_def]

/-- C35 (well-formedness). If no file is listed twice the compiled configuration is well-formed in the sense of C33
and C34. -/
theorem C35_wellFormed (entries : List Host) (hn : (entries.map Host.members).flatten.Nodup) (conf : Config)
    (h : loadConfig (expandConfig entries) = .ok conf) : WellFormed conf := by
  have := Outcome.ok.inj ((C35_compile_load entries).symm.trans h)
  subst this
  exact ⟨hn, List.Perm.refl _, by rw [List.length_map, List.length_map]⟩

/-! A concrete configuration: two hosts, three keys. -/

/-- The directory of the example: the encodings of 1·Base, 2·Base, 3·Base. -/
def exDir : Dir := fun nm =>
  let enc (k : Nat) := match marshalBinary (timesAdd base k) with | .ok b => some b | _ => none
  if nm = "a" then enc 1 else if nm = "b" then enc 2 else if nm = "c" then enc 3 else none

/-- Insertion sort meets the contract of `sort.Slice`. -/
def exSort (ms : List Member) : List Member := ms.insertionSort fun a b => ¬ b.pubhex < a.pubhex

theorem bytes_total : ∀ a b : List UInt8, ¬ b < a ∨ ¬ a < b := by
  intro a b
  by_cases h : a < b
  · left
    intro h2
    exact List.lt_irrefl a (List.lt_trans h h2)
  · exact .inr h

theorem exSort_contract : SortContract exSort := by
  intro ms
  refine ⟨List.perm_insertionSort _ ms, ?_⟩
  have i1 : Std.Total (fun a b : Member => ¬ b.pubhex < a.pubhex) := ⟨fun a b => bytes_total a.pubhex b.pubhex⟩
  have i2 : IsTrans Member (fun a b : Member => ¬ b.pubhex < a.pubhex) := ⟨fun a b c h1 h2 h3 => by
    by_cases h4 : b.pubhex < c.pubhex
    · exact h1 (List.lt_trans h4 h3)
    · rw [bytes_not_lt_antisymm h4 h2] at h1
      exact h1 h3⟩
  exact List.pairwise_insertionSort _ ms

/-- The hosts of the example. -/
def exHosts : List Host := [⟨"h1", "10.0.0.1:1", ["c", "a"]⟩, ⟨"h2", "10.0.0.2:1", ["b"]⟩]

/-- The configuration of the example. -/
def exConf : Config := ⟨["h1", "h2"], ["10.0.0.1:1", "10.0.0.2:1"], [["c", "a"], ["b"]], ["c", "a", "b"]⟩

/-- C31-C35 are not vacuous: the example configuration compiles, is well-formed, its layout is computed, each of the
three members is routed to its host, and the guests for secrets 2 and 9 are exactly the member with key 2·Base. -/
example : WellFormed exConf ∧ (loadConfig (expandConfig exHosts)) = .ok exConf ∧
    ((computeLayout exSort exDir exConf >>= fun l => .ok (l.members.map Member.pubfile, l.memberToAddr.get? 0,
      l.memberToAddr.get? 1, l.memberToAddr.get? 2)) = .ok (["a", "b", "c"], some 0, some 1, some 0)) ∧
    ((computeLayout exSort exDir exConf >>= fun l => computeGuests l [2, 9]) =
      .ok [(1, ⟨1, 2, timesAdd base 2, 1, "10.0.0.2:1"⟩)]) := by
  refine ⟨⟨by decide, by decide, rfl⟩, C35_compile_load exHosts, by decide +kernel, by decide +kernel⟩

/-- C36 is false of the code: a host lists the file "zzz", which is not among the public key files; the layout is
computed all the same, "zzz" reads as member 0, which is the key of file "a", and messages for that member go to the
host listing "zzz" rather than to the host listing "a". -/
theorem C36_counterexample :
    ∃ (conf : Config) (l : Layout), computeLayout exSort exDir conf = .ok l ∧
      (∃ fs ∈ conf.members, "zzz" ∈ fs) ∧ "zzz" ∉ conf.pubfiles ∧ exDir "zzz" = none ∧
      l.members.map Member.pubfile = ["a", "b", "c"] ∧ l.addrMembers = [[0, 1], [2, 0]] ∧
      conf.members = [["a", "b"], ["c", "zzz"]] ∧ l.memberToAddr.get? 0 = some 1 := by
  have h : ∃ l, computeLayout exSort exDir ⟨["h1", "h2"], ["x", "y"], [["a", "b"], ["c", "zzz"]], ["c", "a", "b"]⟩ = .ok l ∧
      l.members.map Member.pubfile = ["a", "b", "c"] ∧ l.addrMembers = [[0, 1], [2, 0]] ∧ l.memberToAddr.get? 0 = some 1 := by
    have e : (computeLayout exSort exDir ⟨["h1", "h2"], ["x", "y"], [["a", "b"], ["c", "zzz"]], ["c", "a", "b"]⟩ >>= fun l =>
      Outcome.ok (l.members.map Member.pubfile, l.addrMembers, l.memberToAddr.get? 0)) =
        .ok (["a", "b", "c"], [[0, 1], [2, 0]], some 1) := by decide +kernel
    rw [Outcome.bind_eq_ok] at e
    obtain ⟨l, e1, e2⟩ := e
    have e3 := Outcome.ok.inj e2
    rw [Prod.mk.injEq, Prod.mk.injEq] at e3
    exact ⟨l, e1, e3⟩
  obtain ⟨l, h1, h2, h3, h4⟩ := h
  exact ⟨_, l, h1, ⟨["c", "zzz"], by simp, by simp⟩, by decide, by decide, h2, h3, rfl, h4⟩

/-- C36 (how an unknown file is read, for every configuration). A listed name that is not a public key file is stored
as member 0, silently. -/
theorem C36_reads_zero (srt : List Member → List Member) (hs : SortContract srt) (dir : Dir) (conf : Config) (l : Layout)
    (h : computeLayout srt dir conf = .ok l) (i j : Nat) (fs : List String) (f : String) (hi : conf.members[i]? = some fs)
    (hj : fs[j]? = some f) (hf : f ∉ conf.pubfiles) : ∃ is, l.addrMembers[i]? = some is ∧ is[j]? = some 0 := by
  obtain ⟨h1, _, h3, _⟩ := layout_parts h
  obtain ⟨_, hp, _⟩ := C32_index srt hs dir _ _ h1
  refine ⟨fs.map fun s => ((mapPubfileToIndex l.members).get? s).getD 0, ?_, ?_⟩
  · rw [h3, confMembersAsIndices, List.getElem?_map, hi]; rfl
  · rw [List.getElem?_map, hj]
    have : (mapPubfileToIndex l.members).get? f = none := by
      rw [mapPubfileToIndex, foldl_set_get? Member.pubfile Member.index]
      have : (l.members.filter fun a => decide (a.pubfile = f)) = [] := by
        rw [List.filter_eq_nil_iff]
        intro a ha hc
        rw [decide_eq_true_eq] at hc
        exact hf (hp.mem_iff.1 (hc ▸ List.mem_map_of_mem ha))
      rw [this]; rfl
    rw [Option.map_some, this]; rfl

/-- C36 (what holds). For configurations compiled by hostcomp a host entry naming a file that holds no public key makes
the layout fail. Missing for the full claim: configurations written otherwise. -/
theorem C36_compiled_partial (srt : List Member → List Member) (dir : Dir) (entries : List Host) (conf : Config)
    (hc : loadConfig (expandConfig entries) = .ok conf) (e : Host) (he : e ∈ entries) (f : String) (hf : f ∈ e.members)
    (hbad : ¬ ∃ p, HoldsKey dir f p) : ∀ l, computeLayout srt dir conf ≠ .ok l := by
  intro l h
  obtain ⟨h1, _⟩ := layout_parts h
  have := Outcome.ok.inj ((C35_compile_load entries).symm.trans hc)
  subst this
  exact hbad (C31_refuses srt dir _ _ h1 f (List.mem_flatten.2 ⟨e.members, List.mem_map_of_mem he, hf⟩))

example : ∃ e ∈ exHosts, "c" ∈ e.members ∧ ¬ ∃ p, HoldsKey (fun _ => none) "c" p :=
  ⟨_, List.mem_cons_self, by simp, by rintro ⟨p, b, h, _⟩; cases h⟩

/-- C63. `unique` returns each input string exactly once and nothing else, whatever the order of map iteration. -/
theorem C63_unique (xs results : List String) (h : UniqueResult xs results) :
    results.Nodup ∧ ∀ x, x ∈ results ↔ x ∈ xs := by
  have key : ∀ (xs : List String) (m : GoMap String Bool), m.keys.Nodup →
      (xs.foldl (fun m x => m.set x true) m).keys.Nodup ∧
      ∀ x, x ∈ (xs.foldl (fun m x => m.set x true) m).keys ↔ x ∈ m.keys ∨ x ∈ xs := by
    intro xs
    induction xs with
    | nil => intro m hm; exact ⟨hm, by simp⟩
    | cons y xs ih =>
      intro m hm
      obtain ⟨h1, h2⟩ := ih (m.set y true) (GoMap.nodup_set hm y true)
      refine ⟨h1, fun x => ?_⟩
      rw [List.foldl_cons, h2, ← GoMap.get?_isSome_iff, GoMap.get?_set, List.mem_cons, ← GoMap.get?_isSome_iff]
      by_cases e : y = x
      · simp [e]
      · rw [if_neg e]
        have : x ≠ y := fun h => e h.symm
        simp [this]
  obtain ⟨h1, h2⟩ := key xs [] (by simp [GoMap.keys])
  refine ⟨h.nodup_iff.2 h1, fun x => ?_⟩
  have h3 := h.mem_iff (a := x)
  rw [h3]
  have h4 := h2 x
  simpa [uniqueSet, GoMap.keys] using h4

example : UniqueResult ["b", "a", "b"] ["b", "a"] ∧ UniqueResult ["b", "a", "b"] ["a", "b"] := by
  unfold UniqueResult; decide

/-- C64. For every secret in [1, n), `keygen` writes two files; the secret file loads back as the secret; and in every
layout with distinct keys in which some file has the contents of the public file, that member is a guest whenever the
secret is among the secrets, with this secret. -/
theorem C64_keygen (s : Int) (hs0 : 0 < s) (hsn : s < secp256k1N) :
    ∃ sb pb, keygen s = .ok (sb, pb) ∧ unmarshalSecretKeys [sb] = .ok [s] ∧
    ∀ (srt : List Member → List Member) (_ : SortContract srt) (dir : Dir) (conf : Config) (_ : WellFormed conf) (l : Layout)
      (_ : computeLayout srt dir conf = .ok l) (_ : (memberPubs l.members).Nodup) (nm : String) (_ : nm ∈ conf.pubfiles)
      (_ : dir nm = some pb) (secrets : List Int) (_ : s ∈ secrets),
      ∃ g i m e, computeGuests l secrets = .ok g ∧ l.members[i]? = some m ∧ m.pubfile = nm ∧ g.get? i = some e ∧
        mulBase s = .ok e.pub ∧ mulBase e.sec = .ok e.pub := by
  obtain ⟨P, hP, hlog⟩ := log_mulBase s
  have hs : (s : Fn) ≠ 0 := by
    intro h
    rw [ZMod.intCast_zmod_eq_zero_iff_dvd] at h
    have := Int.le_of_dvd hs0 h
    omega
  have hc := hlog.onCurve_iff.2 hs
  have hr := ((exists_log_iff P).2 ⟨_, hlog⟩).1
  obtain ⟨sb, b1, _, _, _, b2⟩ := C03_roundtrip s
  obtain ⟨pb, p1, _, p2⟩ := C07_roundtrip P hr hc
  refine ⟨sb, pb, ?_, ?_, ?_⟩
  · rw [keygen, computePub, hP, Outcome.bind_ok, b1, Outcome.orPanic_ok, Outcome.bind_ok, p1]; rfl
  · rw [unmarshalSecretKeys, mapO_ok]
    refine .cons ?_ .nil
    rw [b2 ⟨by omega, by rw [Scalar.order_eq]; exact hsn⟩]; rfl
  · intro srt hsrt dir conf hw l hl hnd nm hnm hdir secrets hsec
    obtain ⟨h1, _⟩ := layout_parts hl
    obtain ⟨_, hperm, hkeys⟩ := C32_index srt hsrt dir _ _ h1
    have := hperm.mem_iff.2 hnm
    rw [List.mem_map] at this
    obtain ⟨m, hm, rfl⟩ := this
    obtain ⟨i, hi, rfl⟩ := List.getElem_of_mem hm
    have hpub : l.members[i].pub = P := Loaded.unique (hkeys _ hm) ⟨pb, hdir, p2⟩
    obtain ⟨g, g1, g2, g3, _⟩ := C34_guests srt hsrt dir conf hw l hl secrets
    have hi' : l.members[i]? = some l.members[i] := List.getElem?_eq_getElem hi
    obtain ⟨e, he⟩ := (g2 i).2 ⟨s, hsec, (C34_distinct_keys _ hnd i _ s hi').2 (by rw [hpub]; exact hP)⟩
    obtain ⟨_, _, _, m', e1, e2, e3, _⟩ := g3 i e he
    refine ⟨g, i, _, e, g1, hi', rfl, he, ?_, e3⟩
    rw [hi'] at e1
    rw [e2, ← Option.some.inj e1, hpub]; exact hP

/-- C64 (zero). The secret 0 has no encodable public key: `keygen` panics. -/
theorem C64_zero : keygen 0 = .panic := by decide +kernel

example : (keygen 2 >>= fun r => .ok (some r.2)) = .ok (exDir "b") := by decide +kernel

end Verif.Props
