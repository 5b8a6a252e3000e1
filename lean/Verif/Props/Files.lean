import Verif.Model.Files
import Verif.Props.StartExample

/-! C90: the files that keygen writes. -/
namespace Verif.Props.Files
open Verif.Point Verif.Layout Verif.Files Verif.Props Verif.Props.Start
variable {K : Type}

/-- The files of a run. -/
def names (p : Proc) : List String :=
  match p.pc with
  | .start => []
  | .secretMade n _ _ => [n]
  | .secretSaved n _ => [n]
  | .publicMade n n' _ => [n', n]
  | .finished n n' => [n', n]
  | .crashed (some n) => [n]
  | .crashed none => []

/-- The name begins with the text. -/
def Begins (pre n : String) : Prop := ∃ rest, n.toList = pre.toList ++ rest

/-- What is in the files of a run. -/
def Fact (files : FileMap) (p : Proc) : Prop :=
  match p.pc with
  | .start => True
  | .secretMade n b pub => Begins "secret_" n ∧ Scalar.marshalBinary p.secret = .ok b ∧ computePub p.secret = .ok pub
  | .secretSaved n pub => Begins "secret_" n ∧ ∃ b, Scalar.marshalBinary p.secret = .ok b ∧ computePub p.secret = .ok pub ∧ files.get? n = some b
  | .publicMade n n' pb => Begins "secret_" n ∧ Begins "public_" n' ∧ ∃ b pub, Scalar.marshalBinary p.secret = .ok b ∧
      computePub p.secret = .ok pub ∧ marshalBinary pub = .ok pb ∧ files.get? n = some b
  | .finished n n' => Begins "secret_" n ∧ Begins "public_" n' ∧ ∃ b pub pb, Scalar.marshalBinary p.secret = .ok b ∧
      computePub p.secret = .ok pub ∧ marshalBinary pub = .ok pb ∧ files.get? n = some b ∧ files.get? n' = some pb
  | .crashed (some n) => Begins "secret_" n ∧ ∃ b, Scalar.marshalBinary p.secret = .ok b ∧ files.get? n = some b
  | .crashed none => True

theorem Fact.mono {files files' : FileMap} {p : Proc} (h : Fact files p) (hk : ∀ n ∈ names p, files'.get? n = files.get? n) : Fact files' p := by
  revert h hk
  unfold Fact names
  cases p.pc with
  | start => exact fun h _ => h
  | secretMade n b pub => exact fun h _ => h
  | secretSaved n pub => exact fun h hk => by simpa only [hk n (by simp)] using h
  | publicMade n n' b => exact fun h hk => by simpa only [hk n (by simp)] using h
  | finished n n' => exact fun h hk => by simpa only [hk n (by simp), hk n' (by simp)] using h
  | crashed l =>
    cases l with
    | none => exact fun h _ => h
    | some n => exact fun h hk => by simpa only [hk n (by simp)] using h

/-- The names of the files that other programs created. -/
def others : List Ev → List String
  | [] => []
  | .other n _ :: h => n :: others h
  | _ :: h => others h

theorem tempName_begins (pre : String) (n : Nat) : Begins pre (tempName pre n) := ⟨_, by rw [tempName, String.toList_append]⟩

theorem createTemp_ok {files files' : FileMap} {pre n : String} {draws : List Nat} (h : createTemp files pre draws = .ok (files', n)) :
    files.get? n = none ∧ files' = files.set n [] ∧ Begins pre n := by
  rw [createTemp] at h
  cases hf : (draws.take 10000).find? fun n => (files.get? (tempName pre n)).isNone with
  | none =>
    rw [hf] at h
    dsimp only at h
    by_cases hl : 10000 ≤ draws.length
    · rw [if_pos hl] at h; cases h
    · rw [if_neg hl] at h; cases h
  | some k =>
    rw [hf] at h
    cases h
    have := List.find?_some hf
    exact ⟨Option.isNone_iff_eq_none.1 this, rfl, tempName_begins _ _⟩

theorem keys_set_new {files : FileMap} {n : String} (h : files.get? n = none) (b : List UInt8) : (files.set n b).keys = n :: files.keys := by
  rw [GoMap.set, GoMap.keys, List.map_cons, List.filter_eq_self.2]
  · rfl
  · intro p hp
    rw [decide_eq_true_eq]
    intro e
    have : n ∈ files.keys := List.mem_map.2 ⟨p, hp, e⟩
    rw [← GoMap.get?_isSome_iff, h] at this
    cases this

theorem keys_set_old {files : FileMap} {n : String} (hn : files.keys.Nodup) (h : n ∈ files.keys) (b : List UInt8) :
    (files.set n b).keys.Perm files.keys := by
  rw [List.perm_ext_iff_of_nodup (GoMap.nodup_set hn n b) hn]
  intro k
  rw [← GoMap.get?_isSome_iff, ← GoMap.get?_isSome_iff, GoMap.get?_set]
  by_cases e : n = k
  · subst e
    rw [if_pos rfl]
    rw [← GoMap.get?_isSome_iff] at h
    simp [h]
  · rw [if_neg e]

/-- The invariant. -/
structure FInv (files0 : FileMap) (oth : List String) (s : Sys) : Prop where
  keys : s.files.keys.Perm (s.procs.flatMap names ++ (oth ++ files0.keys))
  nodup : s.files.keys.Nodup
  kept : ∀ n ∈ oth ++ files0.keys, ∀ b, files0.get? n = some b → s.files.get? n = some b
  facts : ∀ p ∈ s.procs, Fact s.files p

theorem getElem?_split {α : Type} {l : List α} {i : Nat} {x : α} (h : l[i]? = some x) :
    ∃ l1 l2, l = l1 ++ x :: l2 ∧ ∀ y, l.set i y = l1 ++ y :: l2 := by
  induction l generalizing i with
  | nil => cases h
  | cons a l ih =>
    cases i with
    | zero => cases h; exact ⟨[], l, rfl, fun _ => rfl⟩
    | succ i =>
      obtain ⟨l1, l2, e1, e2⟩ := ih h
      exact ⟨a :: l1, l2, by rw [e1]; rfl, fun y => by rw [List.set_cons_succ, e2]; rfl⟩

theorem mem_keys_of_get? {files : FileMap} {n : String} {b : List UInt8} (h : files.get? n = some b) : n ∈ files.keys := by
  rw [← GoMap.get?_isSome_iff, h]; rfl

/-- A new file. -/
theorem FInv.create {files0 : FileMap} {oth : List String} {files : FileMap} {l1 l2 : List Proc} {p p' : Proc}
    (h : FInv files0 oth ⟨files, l1 ++ p :: l2⟩) {n : String} (hn : files.get? n = none) (hp : names p' = n :: names p)
    (hf : Fact (files.set n []) p') : FInv files0 oth ⟨files.set n [], l1 ++ p' :: l2⟩ := by
  have hk := h.keys
  have other : ∀ m, m ∈ files.keys → (files.set n []).get? m = files.get? m := by
    intro m hm
    rw [GoMap.get?_set, if_neg]
    rintro rfl
    rw [← GoMap.get?_isSome_iff, hn] at hm
    cases hm
  refine ⟨?_, GoMap.nodup_set h.nodup _ _, ?_, ?_⟩
  · show (files.set n []).keys.Perm _
    rw [keys_set_new hn]
    refine (List.Perm.cons n hk).trans ?_
    show (n :: ((l1 ++ p :: l2).flatMap names ++ _)).Perm ((l1 ++ p' :: l2).flatMap names ++ _)
    rw [List.flatMap_append, List.flatMap_append, List.flatMap_cons, List.flatMap_cons, hp]
    simp only [List.append_assoc, List.cons_append]
    exact List.perm_middle.symm
  · intro m hm b hb
    show (files.set n []).get? m = some b
    rw [other m (hk.mem_iff.2 (List.mem_append.2 (.inr hm)))]
    exact h.kept m hm b hb
  · intro q hq
    have hq : q ∈ l1 ++ p' :: l2 := hq
    rw [List.mem_append, List.mem_cons] at hq
    have old : q ∈ l1 ++ p :: l2 → Fact (files.set n []) q := fun hq =>
      (h.facts q hq).mono fun m hm => other m (hk.mem_iff.2 (List.mem_append.2 (.inl (List.mem_flatMap.2 ⟨q, hq, hm⟩))))
    rcases hq with hq | rfl | hq
    · exact old (by simp [hq])
    · exact hf
    · exact old (by simp [hq])

/-- A file is written by the run that created it. -/
theorem FInv.write {files0 : FileMap} {oth : List String} {files : FileMap} {l1 l2 : List Proc} {p p' : Proc}
    (h : FInv files0 oth ⟨files, l1 ++ p :: l2⟩) {n : String} {b : List UInt8} (hn : n ∈ names p) (hp : names p' = names p)
    (hf : (∀ m ∈ names p, m ≠ n → (files.set n b).get? m = files.get? m) → Fact (files.set n b) p') :
    FInv files0 oth ⟨files.set n b, l1 ++ p' :: l2⟩ := by
  have hk := h.keys
  have hnd := hk.nodup_iff.1 h.nodup
  have hk' : files.keys.Perm ((l1.flatMap names ++ (names p ++ l2.flatMap names)) ++ (oth ++ files0.keys)) := by
    have := hk
    rw [List.flatMap_append, List.flatMap_cons] at this
    exact this
  rw [List.flatMap_append, List.flatMap_cons] at hnd
  have hmem : n ∈ files.keys := hk'.mem_iff.2 (by simp [hn])
  have set_ne : ∀ m, m ≠ n → (files.set n b).get? m = files.get? m := fun m hm => by
    rw [GoMap.get?_set, if_neg fun e => hm e.symm]
  refine ⟨?_, GoMap.nodup_set h.nodup _ _, ?_, ?_⟩
  · refine (keys_set_old h.nodup hmem b).trans ?_
    show files.keys.Perm ((l1 ++ p' :: l2).flatMap names ++ _)
    rw [List.flatMap_append, List.flatMap_cons, hp]
    exact hk'
  · intro m hm c hc
    show (files.set n b).get? m = some c
    rw [set_ne]
    · exact h.kept m hm c hc
    · rintro rfl
      exact (List.disjoint_of_nodup_append hnd) (show m ∈ _ by simp [hn]) hm
  · intro q hq
    have hq : q ∈ l1 ++ p' :: l2 := hq
    rw [List.mem_append, List.mem_cons] at hq
    have hnd2 := (List.nodup_append.1 hnd).1
    have old : q ∈ l1 ++ p :: l2 → (∀ m ∈ names q, m ≠ n) → Fact (files.set n b) q := fun hq hne =>
      (h.facts q hq).mono fun m hm => set_ne m (hne m hm)
    rcases hq with hq | rfl | hq
    · refine old (by simp [hq]) ?_
      intro m hm e
      subst e
      exact (List.disjoint_of_nodup_append hnd2) (List.mem_flatMap.2 ⟨q, ‹q ∈ l1›, hm⟩) (by simp [hn])
    · exact hf fun m _ hne => set_ne m hne
    · refine old (by simp [hq]) ?_
      rintro m hm rfl
      have h3 := (List.nodup_append.1 hnd2).2.1
      exact (List.disjoint_of_nodup_append h3) hn (List.mem_flatMap.2 ⟨q, ‹q ∈ l2›, hm⟩)

/-- Nothing is created. -/
theorem FInv.same {files0 : FileMap} {oth : List String} {files : FileMap} {l1 l2 : List Proc} {p p' : Proc}
    (h : FInv files0 oth ⟨files, l1 ++ p :: l2⟩) (hp : names p' = names p) (hf : Fact files p') :
    FInv files0 oth ⟨files, l1 ++ p' :: l2⟩ := by
  refine ⟨?_, h.nodup, h.kept, ?_⟩
  · have := h.keys
    show files.keys.Perm ((l1 ++ p' :: l2).flatMap names ++ _)
    rw [List.flatMap_append, List.flatMap_cons, hp]
    rw [List.flatMap_append, List.flatMap_cons] at this
    exact this
  · intro q hq
    have hq : q ∈ l1 ++ p' :: l2 := hq
    rw [List.mem_append, List.mem_cons] at hq
    rcases hq with hq | rfl | hq
    · exact h.facts q (by simp [hq])
    · exact hf
    · exact h.facts q (by simp [hq])

theorem begins_ne {n n' : String} (h : Begins "secret_" n) (h' : Begins "public_" n') : n ≠ n' := by
  rintro rfl
  obtain ⟨r, h⟩ := h
  obtain ⟨r', h'⟩ := h'
  rw [h] at h'
  exact absurd (List.cons.inj h').1 (by decide)

theorem procStep_inv {files0 : FileMap} {oth : List String} {files files' : FileMap} {l1 l2 : List Proc} {p p' : Proc} {draws : List Nat}
    (h : FInv files0 oth ⟨files, l1 ++ p :: l2⟩) (hs : procStep files p draws = .ok (files', p')) :
    FInv files0 oth ⟨files', l1 ++ p' :: l2⟩ ∧ p'.secret = p.secret := by
  have hfact := h.facts p (by simp)
  obtain ⟨sec, pc⟩ := p
  cases pc with
  | start =>
    simp only [procStep] at hs
    have crash : FInv files0 oth ⟨files, l1 ++ ⟨sec, .crashed none⟩ :: l2⟩ := h.same rfl trivial
    cases hpub : computePub sec with
    | err => rw [hpub] at hs; cases hs; exact ⟨crash, rfl⟩
    | panic => rw [hpub] at hs; cases hs; exact ⟨crash, rfl⟩
    | ok pub =>
      rw [hpub] at hs
      cases hb : Scalar.marshalBinary sec with
      | err => rw [hb] at hs; cases hs; exact ⟨crash, rfl⟩
      | panic => rw [hb] at hs; cases hs; exact ⟨crash, rfl⟩
      | ok b =>
        rw [hb] at hs
        dsimp only at hs
        cases hc : createTemp files "secret_" draws with
        | err => rw [hc] at hs; cases hs
        | panic => rw [hc] at hs; cases hs; exact ⟨crash, rfl⟩
        | ok r =>
          obtain ⟨f, n⟩ := r
          rw [hc] at hs
          cases hs
          obtain ⟨e1, rfl, e3⟩ := createTemp_ok hc
          exact ⟨h.create e1 rfl ⟨e3, hb, hpub⟩, rfl⟩
  | secretMade n b pub =>
    simp only [procStep] at hs
    cases hs
    obtain ⟨e1, e2, e3⟩ := hfact
    exact ⟨h.write (n := n) (by simp [names]) rfl fun _ => ⟨e1, b, e2, e3, by rw [GoMap.get?_set, if_pos rfl]⟩, rfl⟩
  | secretSaved n pub =>
    simp only [procStep] at hs
    obtain ⟨e1, b, e2, e3, e4⟩ := hfact
    have crash : FInv files0 oth ⟨files, l1 ++ ⟨sec, .crashed (some n)⟩ :: l2⟩ := h.same rfl ⟨e1, b, e2, e4⟩
    cases hb : marshalBinary pub with
    | err => rw [hb] at hs; cases hs; exact ⟨crash, rfl⟩
    | panic => rw [hb] at hs; cases hs; exact ⟨crash, rfl⟩
    | ok pb =>
      rw [hb] at hs
      dsimp only at hs
      cases hc : createTemp files "public_" draws with
      | err => rw [hc] at hs; cases hs
      | panic => rw [hc] at hs; cases hs; exact ⟨crash, rfl⟩
      | ok r =>
        obtain ⟨f, n'⟩ := r
        rw [hc] at hs
        cases hs
        obtain ⟨f1, rfl, f3⟩ := createTemp_ok hc
        exact ⟨h.create f1 rfl ⟨e1, f3, b, pub, e2, e3, hb, by rw [GoMap.get?_set, if_neg fun e => begins_ne e1 f3 e.symm, e4]⟩, rfl⟩
  | publicMade n n' b =>
    simp only [procStep] at hs
    cases hs
    obtain ⟨e1, e2, sb, pub, e3, e4, e5, e6⟩ := hfact
    exact ⟨h.write (n := n') (by simp [names]) rfl fun hk => ⟨e1, e2, sb, pub, b, e3, e4, e5,
      by rw [hk n (by simp [names]) (begins_ne e1 e2), e6], by rw [GoMap.get?_set, if_pos rfl]⟩, rfl⟩
  | finished n n' => simp only [procStep] at hs; cases hs
  | crashed l => simp only [procStep] at hs; cases hs

theorem step_inv {files0 : FileMap} {oth : List String} {s s' : Sys} {e : Ev} (h : FInv files0 oth s) (hs : step s e = .ok s') :
    FInv files0 (others [e] ++ oth) s' := by
  cases e with
  | start sec =>
    cases hs
    refine ⟨?_, h.nodup, h.kept, ?_⟩
    · show s.files.keys.Perm ((s.procs ++ [_]).flatMap names ++ _)
      rw [List.flatMap_append]
      simpa [names, others] using h.keys
    · intro p hp
      rcases List.mem_append.1 hp with hp | hp
      · exact h.facts p hp
      · rw [List.mem_singleton.1 hp]; trivial
  | proc i draws =>
    simp only [step] at hs
    cases hp : s.procs[i]? with
    | none => rw [hp] at hs; cases hs
    | some p =>
      rw [hp] at hs
      dsimp only at hs
      rw [Outcome.bind_eq_ok] at hs
      obtain ⟨⟨f, p'⟩, h1, h2⟩ := hs
      cases h2
      obtain ⟨l1, l2, e1, e2⟩ := getElem?_split hp
      obtain ⟨files, procs⟩ := s
      dsimp only at e1 e2 h1 ⊢
      subst e1
      rw [e2]
      exact (procStep_inv h h1).1
  | other n b =>
    simp only [step] at hs
    by_cases hn : (s.files.get? n).isNone = true
    · rw [if_pos hn] at hs
      cases hs
      have hn := Option.isNone_iff_eq_none.1 hn
      have hk := h.keys
      have old : ∀ m, m ∈ s.files.keys → (s.files.set n b).get? m = s.files.get? m := by
        intro m hm
        rw [GoMap.get?_set, if_neg]
        rintro rfl
        rw [← GoMap.get?_isSome_iff, hn] at hm
        cases hm
      refine ⟨?_, GoMap.nodup_set h.nodup _ _, ?_, ?_⟩
      · show (s.files.set n b).keys.Perm (s.procs.flatMap names ++ (n :: oth ++ files0.keys))
        rw [keys_set_new hn]
        exact (List.Perm.cons n hk).trans List.perm_middle.symm
      · intro m hm c hc
        show (s.files.set n b).get? m = some c
        have hm0 : m ∈ files0.keys := mem_keys_of_get? hc
        rw [old m (hk.mem_iff.2 (by simp [hm0]))]
        exact h.kept m (by simp [hm0]) c hc
      · exact fun p hp => (h.facts p hp).mono fun m hm => old m (hk.mem_iff.2 (List.mem_append.2 (.inl (List.mem_flatMap.2 ⟨p, hp, hm⟩))))
    · rw [if_neg hn] at hs; cases hs

theorem run_inv {files0 : FileMap} {oth : List String} {s s' : Sys} {h : List Ev} (hi : FInv files0 oth s) (hr : run s h = .ok s') :
    ∃ oth', oth'.Perm (others h ++ oth) ∧ FInv files0 oth' s' := by
  induction h generalizing s oth with
  | nil => cases hr; exact ⟨oth, .refl _, hi⟩
  | cons e h ih =>
    rw [run, Outcome.bind_eq_ok] at hr
    obtain ⟨s1, h1, h2⟩ := hr
    obtain ⟨o, e1, e2⟩ := ih (step_inv hi h1) h2
    refine ⟨o, e1.trans ?_, e2⟩
    cases e with
    | start _ => exact .refl _
    | proc _ _ => exact .refl _
    | other n b => exact List.perm_middle

/-- The state in which keygen was not started yet. -/
def init (files0 : FileMap) : Sys := ⟨files0, []⟩

theorem init_inv (files0 : FileMap) (hn : files0.keys.Nodup) : FInv files0 [] (init files0) :=
  ⟨.refl _, hn, fun _ _ _ hb => hb, fun _ hp => absurd hp List.not_mem_nil⟩

/-- C90 (what is written). Whatever other programs create in between, and however many runs there are at a time: when a run of keygen has
ended, the file of the secret and that of the public key are there, with the bytes of its two keys, under names that were not in use before
and that no other run uses; and no file that was there has changed. -/
theorem C90_written (files0 : FileMap) (hn : files0.keys.Nodup) (h : List Ev) (s : Sys) (hr : run (init files0) h = .ok s) :
    (∀ n b, files0.get? n = some b → s.files.get? n = some b) ∧
    (∀ (i : Nat) p n n', s.procs[i]? = some p → p.pc = .finished n n' → Begins "secret_" n ∧ Begins "public_" n' ∧
      files0.get? n = none ∧ files0.get? n' = none ∧
      ∃ sb pb, keygen p.secret = .ok (sb, pb) ∧ s.files.get? n = some sb ∧ s.files.get? n' = some pb) ∧
    ∀ (i j : Nat) p q n n' m m', s.procs[i]? = some p → s.procs[j]? = some q → i ≠ j → p.pc = .finished n n' → q.pc = .finished m m' →
      n ≠ m ∧ n ≠ m' ∧ n' ≠ m ∧ n' ≠ m' := by
  obtain ⟨oth, _, hi⟩ := run_inv (init_inv files0 hn) hr
  have hnd := hi.keys.nodup_iff.1 hi.nodup
  have hnd2 := (List.nodup_append.1 hnd).1
  refine ⟨fun n b hb => hi.kept n (by simp [mem_keys_of_get? hb]) b hb, ?_, ?_⟩
  · intro i p n n' hp hpc
    have hm := List.mem_of_getElem? hp
    have hf := hi.facts p hm
    rw [Fact, hpc] at hf
    obtain ⟨e1, e2, sb, pub, pb, e3, e4, e5, e6, e7⟩ := hf
    have fresh : ∀ m ∈ names p, files0.get? m = none := by
      intro m hmn
      rw [← Option.not_isSome_iff_eq_none, GoMap.get?_isSome_iff]
      exact fun hx => (List.disjoint_of_nodup_append hnd) (List.mem_flatMap.2 ⟨p, hm, hmn⟩) (by simp [hx])
    refine ⟨e1, e2, fresh n (by simp [names, hpc]), fresh n' (by simp [names, hpc]), sb, pb, ?_, e6, e7⟩
    rw [keygen, e4, Outcome.bind_ok, e3, Outcome.orPanic_ok, Outcome.bind_ok, e5]; rfl
  · intro i j p q n n' m m' hp hq hij hpc hqc
    have key : ∀ x ∈ names p, ∀ y ∈ names q, x ≠ y := by
      rw [List.nodup_flatMap] at hnd2
      have hpw := hnd2.2
      intro x hx y hy e
      subst e
      obtain ⟨hi', ei⟩ := List.getElem?_eq_some_iff.1 hp
      obtain ⟨hj', ej⟩ := List.getElem?_eq_some_iff.1 hq
      rcases Nat.lt_or_gt_of_ne hij with lt | gt
      · have := (List.pairwise_iff_getElem.1 hpw) i j hi' hj' lt
        rw [ei, ej] at this
        exact this hx hy
      · have := (List.pairwise_iff_getElem.1 hpw) j i hj' hi' gt
        rw [ei, ej] at this
        exact this hy hx
    have a1 : n ∈ names p := by simp [names, hpc]
    have a2 : n' ∈ names p := by simp [names, hpc]
    have b1 : m ∈ names q := by simp [names, hqc]
    have b2 : m' ∈ names q := by simp [names, hqc]
    exact ⟨key n a1 m b1, key n a1 m' b2, key n' a2 m b1, key n' a2 m' b2⟩

theorem mapO_map {α β : Type} {f : α → Outcome β} {v : α → β} : ∀ {l : List α}, (∀ x ∈ l, f x = .ok (v x)) → mapO f l = .ok (l.map v) := by
  intro l
  induction l with
  | nil => exact fun _ => rfl
  | cons x l ih =>
    intro h
    rw [mapO, h x (List.mem_cons_self ..), Outcome.bind_ok, ih fun y hy => h y (List.mem_cons_of_mem _ hy), Outcome.bind_ok]
    rfl

/-- The file of the secret of a run that has ended. -/
def secretName (p : Proc) : String :=
  match p.pc with
  | .finished n _ => n
  | _ => ""

/-- The run has ended. -/
def Ended (p : Proc) : Prop := ∃ n n', p.pc = .finished n n'

theorem filter_procs {ps : List Proc} {files : FileMap} (hf : ∀ p ∈ ps, Fact files p) (he : ∀ p ∈ ps, Ended p) :
    filterPrefix (ps.flatMap names) "secret_" = ps.map secretName := by
  induction ps with
  | nil => rfl
  | cons p ps ih =>
    obtain ⟨n, n', hpc⟩ := he p (List.mem_cons_self ..)
    have h1 := hf p (List.mem_cons_self ..)
    rw [Fact, hpc] at h1
    obtain ⟨e1, e2, _⟩ := h1
    have a1 : n.startsWith "secret_" = true := (startsWith_iff n _).2 e1
    have a2 : ¬ n'.startsWith "secret_" = true := fun hx => begins_ne ((startsWith_iff n' _).1 hx) e2 rfl
    rw [List.flatMap_cons, filterPrefix, List.filter_append, ← filterPrefix, ← filterPrefix,
      ih (fun q hq => hf q (List.mem_cons_of_mem _ hq)) fun q hq => he q (List.mem_cons_of_mem _ hq), List.map_cons]
    rw [names, secretName, hpc]
    dsimp only
    rw [filterPrefix, List.filter_cons_of_neg (by exact a2), List.filter_cons_of_pos (by exact a1)]
    rfl

/-- C90 (reading). If no file whose name begins with `secret_` was there before and other programs create none, then, when all runs of
keygen have ended, `_load_secrets` gets exactly the secrets they drew. -/
theorem C90_secrets (files0 : FileMap) (hn : files0.keys.Nodup) (h : List Ev) (s : Sys) (hr : run (init files0) h = .ok s)
    (h0 : ∀ n, Begins "secret_" n → files0.get? n = none ∧ n ∉ others h) (he : ∀ p ∈ s.procs, Ended p)
    (hsec : ∀ p ∈ s.procs, 0 ≤ p.secret ∧ p.secret < secp256k1N) (ents : List String) (hd : ents.Perm s.files.keys) :
    ∃ secrets, Verif.Start.loadSecrets s.files.get? ents = .ok secrets ∧ secrets.Perm (s.procs.map Proc.secret) := by
  obtain ⟨oth, ho, hi⟩ := run_inv (init_inv files0 hn) hr
  rw [List.append_nil] at ho
  have hperm : (filterPrefix ents "secret_").Perm (s.procs.map secretName) := by
    rw [← filter_procs hi.facts he]
    have h1 := (hd.trans hi.keys).filter fun n : String => n.startsWith "secret_"
    rw [List.filter_append] at h1
    have h2 : (oth ++ files0.keys).filter (fun n : String => n.startsWith "secret_") = [] := by
      rw [List.filter_eq_nil_iff]
      intro n hnm hx
      have hb := (startsWith_iff n _).1 hx
      rcases List.mem_append.1 hnm with hnm | hnm
      · exact (h0 n hb).2 (ho.mem_iff.1 hnm)
      · rw [← GoMap.get?_isSome_iff, (h0 n hb).1] at hnm
        cases hnm
    rw [h2, List.append_nil] at h1
    exact h1
  let val : String → Int := fun n =>
    match (s.files.get? n).map Scalar.unmarshalBinary with
    | some (.ok v) => v
    | _ => 0
  have hval : ∀ p ∈ s.procs, ∃ b, s.files.get? (secretName p) = some b ∧ Scalar.unmarshalBinary b = .ok p.secret := by
    intro p hp
    obtain ⟨n, n', hpc⟩ := he p hp
    have h1 := hi.facts p hp
    rw [Fact, hpc] at h1
    obtain ⟨_, _, sb, pub, pb, e3, _, _, e6, _⟩ := h1
    obtain ⟨sb', b1, _, _, _, b2⟩ := C03_roundtrip p.secret
    have := Outcome.ok.inj (e3.symm.trans b1)
    subst this
    exact ⟨sb, by rw [secretName, hpc]; exact e6, b2 ⟨(hsec p hp).1, by rw [Scalar.order_eq]; exact (hsec p hp).2⟩⟩
  have hnames : ∀ n ∈ filterPrefix ents "secret_", ∃ b, s.files.get? n = some b ∧ Scalar.unmarshalBinary b = .ok (val n) := by
    intro n hnm
    obtain ⟨p, hp, rfl⟩ := List.mem_map.1 (hperm.mem_iff.1 hnm)
    obtain ⟨b, e1, e2⟩ := hval p hp
    refine ⟨b, e1, ?_⟩
    simp only [val, e1, Option.map_some, e2]
  refine ⟨(filterPrefix ents "secret_").map val, ?_, ?_⟩
  · have h1 : slurpAll s.files.get? ents "secret_" = .ok ((filterPrefix ents "secret_").map fun n => (s.files.get? n).getD []) := by
      rw [slurpAll, slurpAll1]
      refine mapO_map fun n hnm => ?_
      obtain ⟨b, e1, _⟩ := hnames n hnm
      rw [e1]; rfl
    rw [Verif.Start.loadSecrets, h1, Outcome.bind_ok, unmarshalSecretKeys, mapO_ok, List.forall₂_map_left_iff, List.forall₂_map_right_iff,
      List.forall₂_same]
    intro n hnm
    obtain ⟨b, e1, e2⟩ := hnames n hnm
    rw [e1, Option.getD_some, e2]; rfl
  · refine (hperm.map val).trans ?_
    rw [List.map_map]
    refine List.Perm.of_eq (List.map_congr_left fun p hp => ?_)
    obtain ⟨b, e1, e2⟩ := hval p hp
    simp only [Function.comp_apply, val, e1, Option.map_some, e2]

/-- C90 (guests). A process that is started with such a directory as that of the secret keys has as guests exactly the members whose public
keys are in the files that keygen wrote. -/
theorem C90_guests (files0 : FileMap) (hn : files0.keys.Nodup) (h : List Ev) (s : Sys) (hr : run (init files0) h = .ok s)
    (h0 : ∀ n, Begins "secret_" n → files0.get? n = none ∧ n ∉ others h) (he : ∀ p ∈ s.procs, Ended p)
    (hsec : ∀ p ∈ s.procs, 0 ≤ p.secret ∧ p.secret < secp256k1N)
    (w : Verif.Start.World K) (hs : SortContract w.srt) (a : Verif.Start.Cmd) (entries : List Host) (hc : Compiled a entries)
    (hdir : a.secdir = s.files.get? ∧ a.secnames.Perm s.files.keys) (st : Verif.Start.Started) (hst : Verif.Start.start w a = .ok st)
    (hnd : (memberPubs st.layout.members).Nodup) (i : Nat) (m : Member) (hm : st.layout.members[i]? = some m) :
    (∃ e, st.guests.get? i = some e) ↔
      ∃ p ∈ s.procs, ∃ n n' b, p.pc = .finished n n' ∧ s.files.get? n' = some b ∧ unmarshalBinary b = .ok m.pub := by
  obtain ⟨secrets, l1, l2⟩ := C90_secrets files0 hn h s hr h0 he hsec a.secnames hdir.2
  rw [← hdir.1] at l1
  obtain ⟨_, hmem⟩ := loadSecrets_ok l1
  obtain ⟨_, hi⟩ := run_inv (init_inv files0 hn) hr
  rw [(C83_guests w hs a entries hc st hst hnd i m hm).1]
  have file : ∀ p ∈ s.procs, ∃ n n' b pub, p.pc = .finished n n' ∧ s.files.get? n' = some b ∧ mulBase p.secret = .ok pub ∧
      unmarshalBinary b = .ok pub := by
    intro p hp
    obtain ⟨n, n', hpc⟩ := he p hp
    have h1 := hi.2.facts p hp
    rw [Fact, hpc] at h1
    obtain ⟨_, _, sb, pub, pb, _, e4, e5, _, e7⟩ := h1
    obtain ⟨P, hP, hlog⟩ := log_mulBase p.secret
    have := Outcome.ok.inj (e4.symm.trans hP)
    subst this
    have hoc : OnCurve pub.X pub.Y := by
      by_contra hx
      have := (C07_marshal_fails_iff pub).1.2 hx
      rw [e5] at this; cases this
    obtain ⟨pb', p1, _, p2⟩ := C07_roundtrip pub ((exists_log_iff pub).2 ⟨_, hlog⟩).1 hoc
    have := Outcome.ok.inj (e5.symm.trans p1)
    subst this
    exact ⟨n, n', pb, pub, hpc, e7, hP, p2⟩
  constructor
  · rintro ⟨sec, h1, h2⟩
    obtain ⟨p, hp, rfl⟩ := List.mem_map.1 (l2.mem_iff.1 ((hmem sec).2 h1))
    obtain ⟨n, n', b, pub, e1, e2, e3, e4⟩ := file p hp
    have := Outcome.ok.inj (h2.symm.trans e3)
    exact ⟨p, hp, n, n', b, e1, e2, by rw [this]; exact e4⟩
  · rintro ⟨p, hp, n, n', b, e1, e2, e3⟩
    refine ⟨p.secret, (hmem _).1 (l2.mem_iff.2 (List.mem_map.2 ⟨p, hp, rfl⟩)), ?_⟩
    obtain ⟨k, k', b', pub, f1, f2, f3, f4⟩ := file p hp
    rw [e1] at f1
    cases f1
    have := Option.some.inj (e2.symm.trans f2)
    subst this
    rw [f3, Outcome.ok.inj (f4.symm.trans e3)]

/-- The steps that a run has before it. -/
def left : Pc → Nat
  | .start => 4
  | .secretMade .. => 3
  | .secretSaved .. => 2
  | .publicMade .. => 1
  | _ => 0

/-- C90 (no failure). A run with a secret in [1, n) makes its four steps one after the other, provided that one of the names that are drawn is not in use. -/
theorem C90_goes_on (files0 : FileMap) (hn : files0.keys.Nodup) (h : List Ev) (s : Sys) (hr : run (init files0) h = .ok s) (i : Nat) (p : Proc)
    (hp : s.procs[i]? = some p) (hsec : 0 < p.secret ∧ p.secret < secp256k1N) (hpc : left p.pc ≠ 0) (draws : List Nat)
    (hdr : ∀ pre, ∃ n ∈ draws.take 10000, s.files.get? (pre ++ toString n) = none) :
    ∃ s' p', step s (.proc i draws) = .ok s' ∧ s'.procs[i]? = some p' ∧ left p'.pc + 1 = left p.pc := by
  obtain ⟨oth, _, hi⟩ := run_inv (init_inv files0 hn) hr
  have hf := hi.facts p (List.mem_of_getElem? hp)
  have hlt := (List.getElem?_eq_some_iff.1 hp).1
  have temp : ∀ pre, ∃ f n, createTemp s.files pre draws = .ok (f, n) := by
    intro pre
    obtain ⟨n, h1, h2⟩ := hdr pre
    rw [createTemp]
    cases hfd : (draws.take 10000).find? fun n => (s.files.get? (tempName pre n)).isNone with
    | none =>
      have := List.find?_eq_none.1 hfd n h1
      rw [tempName, h2] at this
      exact absurd rfl this
    | some k => exact ⟨_, _, rfl⟩
  have fin : ∀ f p', procStep s.files p draws = .ok (f, p') → left p'.pc + 1 = left p.pc →
      ∃ s' p', step s (.proc i draws) = .ok s' ∧ s'.procs[i]? = some p' ∧ left p'.pc + 1 = left p.pc := by
    intro f p' h1 h2
    refine ⟨⟨f, s.procs.set i p'⟩, p', ?_, ?_, h2⟩
    · rw [step, hp]
      dsimp only
      rw [h1]; rfl
    · exact List.getElem?_set_self hlt
  obtain ⟨sec, pc⟩ := p
  dsimp only at hsec hpc
  obtain ⟨P, hP, hlog⟩ := log_mulBase sec
  obtain ⟨sb, b1, _⟩ := C03_roundtrip sec
  have hoc : OnCurve P.X P.Y := hlog.onCurve_iff.2 (by
    intro h
    rw [ZMod.intCast_zmod_eq_zero_iff_dvd] at h
    have := Int.le_of_dvd hsec.1 h
    omega)
  obtain ⟨pb, p1, _⟩ := C07_roundtrip P ((exists_log_iff P).2 ⟨_, hlog⟩).1 hoc
  have hP' : computePub sec = .ok P := hP
  cases pc with
  | start =>
    obtain ⟨f, n, e⟩ := temp "secret_"
    refine fin f ⟨sec, .secretMade n sb P⟩ ?_ rfl
    simp only [procStep]
    rw [hP', b1]
    dsimp only
    rw [e]
  | secretMade n b pub =>
    exact fin (s.files.set n b) ⟨sec, .secretSaved n pub⟩ rfl rfl
  | secretSaved n pub =>
    obtain ⟨f, n', e⟩ := temp "public_"
    obtain ⟨_, _, _, e3, _⟩ := hf
    have := Outcome.ok.inj (e3.symm.trans hP)
    subst this
    refine fin f ⟨sec, .publicMade n n' pb⟩ ?_ rfl
    simp only [procStep]
    rw [p1]
    dsimp only
    rw [e]
  | publicMade n n' b =>
    exact fin (s.files.set n' b) ⟨sec, .finished n n'⟩ rfl rfl
  | finished n n' => exact absurd rfl hpc
  | crashed l => exact absurd rfl hpc

/-- Two runs at a time, in a directory with a file of long-term keys that another program has begun, and a name that is taken. -/
def exHistory : List Ev :=
  [.start 2, .start 3, .proc 0 [7], .proc 1 [7, 8], .other "longterms_5" [1], .proc 1 [], .proc 0 [], .proc 0 [7], .proc 1 [9], .proc 1 [], .proc 0 []]

def exFiles : FileMap := [("secret", [0])]

def exCheck : Bool :=
  match run (init exFiles) exHistory with
  | .ok s => decide (s.procs = [⟨2, .finished "secret_7" "public_7"⟩, ⟨3, .finished "secret_8" "public_9"⟩]) &&
      decide (s.files.keys.Perm ["public_9", "public_7", "longterms_5", "secret_8", "secret_7", "secret"])
  | _ => false

theorem exCheck_ok : exCheck = true := by decide +kernel

theorem ex_run : ∃ s, run (init exFiles) exHistory = .ok s ∧
    s.procs = [⟨2, .finished "secret_7" "public_7"⟩, ⟨3, .finished "secret_8" "public_9"⟩] := by
  have h := exCheck_ok
  unfold exCheck at h
  cases hr : run (init exFiles) exHistory with
  | err => rw [hr] at h; cases h
  | panic => rw [hr] at h; cases h
  | ok s =>
    rw [hr] at h
    dsimp only at h
    rw [Bool.and_eq_true, decide_eq_true_eq] at h
    exact ⟨s, rfl, h.1⟩

theorem not_begins {n : String} (h : n.startsWith "secret_" = false) : ¬ Begins "secret_" n := fun hb => by
  rw [(startsWith_iff n _).2 hb] at h; cases h

theorem ex_others (n : String) (hb : Begins "secret_" n) : exFiles.get? n = none ∧ n ∉ others exHistory := by
  constructor
  · rw [exFiles, GoMap.get?_cons, if_neg]
    · rfl
    · rintro rfl
      obtain ⟨r, hr⟩ := hb
      have := congrArg List.length hr
      rw [List.length_append] at this
      exact absurd (show 6 = 7 + r.length from this) (by omega)
  · intro hm
    rw [show others exHistory = ["longterms_5"] from rfl, List.mem_singleton] at hm
    subst hm
    obtain ⟨r, hr⟩ := hb
    exact absurd (List.cons.inj hr).1 (by decide)

/-- A case of C90: two runs that overlap. -/
example : ∃ s, run (init exFiles) exHistory = .ok s ∧ s.files.get? "secret" = some [0] ∧
    ∃ sb pb, keygen 3 = .ok (sb, pb) ∧ s.files.get? "secret_8" = some sb ∧ s.files.get? "public_9" = some pb := by
  obtain ⟨s, h1, h2⟩ := ex_run
  obtain ⟨c1, c2, _⟩ := C90_written exFiles (by decide) exHistory s h1
  obtain ⟨_, _, _, _, c3⟩ := c2 1 _ "secret_8" "public_9" (by rw [h2]; rfl) rfl
  exact ⟨s, h1, c1 _ _ (by decide), c3⟩

/-- A case of C90: what is read then. -/
example : ∃ s secrets, run (init exFiles) exHistory = .ok s ∧ Verif.Start.loadSecrets s.files.get? s.files.keys = .ok secrets ∧
    secrets.Perm [2, 3] := by
  obtain ⟨s, h1, h2⟩ := ex_run
  obtain ⟨secrets, c1, c2⟩ := C90_secrets exFiles (by decide) exHistory s h1 ex_others
    (by rw [h2]; intro p hp; simp only [List.mem_cons, List.not_mem_nil, or_false] at hp; rcases hp with rfl | rfl <;> exact ⟨_, _, rfl⟩)
    (by rw [h2]; decide) s.files.keys (.refl _)
  exact ⟨s, secrets, h1, c1, by rw [h2] at c2; exact c2⟩

/-- A run that drew zero panics and leaves a file of the secret. -/
example : run (init exFiles) [.start 0, .proc 0 [1], .proc 0 [], .proc 0 [1]] =
    .ok ⟨[("secret_1", List.replicate 32 0), ("secret", [0])], [⟨0, .crashed (some "secret_1")⟩]⟩ := by decide +kernel

/-- A process with the directory of the example. -/
def exCmd (s : Sys) : Verif.Start.Cmd := { sxCmd 0 with secdir := s.files.get?, secnames := s.files.keys, longterms := none }

/-- A case of C90 for guests: with three members and two secret keys made by keygen, the process starts, and has the members with the keys
2·Base and 3·Base as guests, but not that with the key 1·Base. -/
example : ∃ s st, run (init exFiles) exHistory = .ok s ∧ Verif.Start.start sxWorld (exCmd s) = .ok st ∧
    ∀ i m, st.layout.members[i]? = some m → ((∃ e, st.guests.get? i = some e) ↔ m.pub = timesAdd base 2 ∨ m.pub = timesAdd base 3) := by
  obtain ⟨s, h1, h2⟩ := ex_run
  have he : ∀ p ∈ s.procs, Ended p := by
    rw [h2]; intro p hp; simp only [List.mem_cons, List.not_mem_nil, or_false] at hp; rcases hp with rfl | rfl <;> exact ⟨_, _, rfl⟩
  have hsec : ∀ p ∈ s.procs, 0 ≤ p.secret ∧ p.secret < secp256k1N := by rw [h2]; decide
  obtain ⟨secrets, c1, c2⟩ := C90_secrets exFiles (by decide) exHistory s h1 ex_others he hsec s.files.keys (.refl _)
  have hk : HoldKeys (exCmd s) exHosts [timesAdd base 3, timesAdd base 1, timesAdd base 2] := sx_keys 0
  have hcomp : Compiled (exCmd s) exHosts := ⟨rfl, by decide⟩
  obtain ⟨st, hst⟩ := C83_starts sxWorld exSort_contract (exCmd s) exHosts hcomp
    (fun f hf => (forall2_mem_left hk f hf).imp fun _ hp => hp.2) (loadSecrets_ok c1).1 2 (by show Verif.Start.atoi "+2" = _; decide +kernel)
    (.inr ⟨45000000, rfl⟩) (fun _ _ _ _ => ⟨(), rfl⟩) (fun _ _ => rfl) (fun file hf => by cases hf)
  obtain ⟨_, hm⟩ := same_members exSort_contract exSort_contract hcomp hcomp hk hk (.refl _) hst hst
  refine ⟨s, st, h1, hst, fun i m hi => ?_⟩
  rw [C90_guests exFiles (by decide) exHistory s h1 ex_others he hsec sxWorld exSort_contract (exCmd s) exHosts hcomp ⟨rfl, .refl _⟩ st hst
    (hm.nodup_iff.2 (by decide +kernel)) i m hi]
  obtain ⟨_, w, _⟩ := C90_written exFiles (by decide) exHistory s h1
  obtain ⟨_, _, _, _, sb, pb, k1, _, k2⟩ := w 0 _ "secret_7" "public_7" (by rw [h2]; rfl) rfl
  obtain ⟨_, _, _, _, sb', pb', k1', _, k2'⟩ := w 1 _ "secret_8" "public_9" (by rw [h2]; rfl) rfl
  have u : (keygen 2 >>= fun r => unmarshalBinary r.2) = .ok (timesAdd base 2) := by decide +kernel
  have u' : (keygen 3 >>= fun r => unmarshalBinary r.2) = .ok (timesAdd base 3) := by decide +kernel
  rw [k1, Outcome.bind_ok] at u
  rw [k1', Outcome.bind_ok] at u'
  constructor
  · rintro ⟨p, hp, n, n', b, e1, e2, e3⟩
    rw [h2] at hp
    simp only [List.mem_cons, List.not_mem_nil, or_false] at hp
    rcases hp with rfl | rfl
    · cases e1
      have := Option.some.inj (k2.symm.trans e2)
      subst this
      exact .inl (Outcome.ok.inj (e3.symm.trans u))
    · cases e1
      have := Option.some.inj (k2'.symm.trans e2)
      subst this
      exact .inr (Outcome.ok.inj (e3.symm.trans u'))
  · rintro (e | e)
    · exact ⟨⟨2, .finished "secret_7" "public_7"⟩, by rw [h2]; simp, "secret_7", "public_7", pb, rfl, k2, by rw [e]; exact u⟩
    · exact ⟨⟨3, .finished "secret_8" "public_9"⟩, by rw [h2]; simp, "secret_8", "public_9", pb', rfl, k2', by rw [e]; exact u'⟩

end Verif.Props.Files
