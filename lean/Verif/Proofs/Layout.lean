import Verif.Model.Layout
import Verif.Props.PublicKey
import Verif.Props.Scalar

/-! Lemmas about loading and sorting members. -/
namespace Verif.Layout
open Verif.Point

theorem mapO_ok {α β : Type} (f : α → Outcome β) (xs : List α) (ys : List β) :
    mapO f xs = .ok ys ↔ List.Forall₂ (fun x y => f x = .ok y) xs ys := by
  induction xs generalizing ys with
  | nil =>
    rw [mapO, List.forall₂_nil_left_iff]
    exact ⟨fun h => (Outcome.ok.inj h).symm, fun h => by rw [h]⟩
  | cons x xs ih =>
    rw [mapO, Outcome.bind_eq_ok, List.forall₂_cons_left_iff]
    constructor
    · rintro ⟨y, h1, h2⟩
      rw [Outcome.bind_eq_ok] at h2
      obtain ⟨ys', h3, h4⟩ := h2
      exact ⟨y, ys', h1, (ih ys').1 h3, (Outcome.ok.inj h4).symm⟩
    · rintro ⟨y, ys', h1, h2, rfl⟩
      refine ⟨y, h1, ?_⟩
      rw [(ih ys').2 h2]; rfl

theorem orPanic_ok {α : Type} (x : Outcome α) (a : α) : x.orPanic = .ok a ↔ x = .ok a := by cases x <;> simp

/-- The file holds an encoding of the point. -/
def Loaded (dir : Dir) (nm : String) (p : Pt) : Prop := ∃ b, dir nm = some b ∧ unmarshalBinary b = .ok p

theorem Loaded.unique {dir : Dir} {nm : String} {p q : Pt} (h1 : Loaded dir nm p) (h2 : Loaded dir nm q) : p = q := by
  obtain ⟨b, e1, e2⟩ := h1
  obtain ⟨b', e3, e4⟩ := h2
  have : b = b' := Option.some.inj (e1.symm.trans e3)
  subst this
  exact Outcome.ok.inj (e2.symm.trans e4)

theorem Loaded.curve {dir : Dir} {nm : String} {p : Pt} (h : Loaded dir nm p) : Reduced p.X p.Y ∧ OnCurve p.X p.Y := by
  obtain ⟨b, _, h⟩ := h
  obtain ⟨h1, h2, _⟩ := Props.C08_unmarshal_result b p h
  exact ⟨h1, h2⟩

/-- The hex text of a curve point. -/
theorem pubhex_curve {p : Pt} (h : Reduced p.X p.Y ∧ OnCurve p.X p.Y) :
    ∃ bs, marshalBinary p = .ok bs ∧ pubhex p = .ok (hexEncode bs) := by
  obtain ⟨bs, h1, _⟩ := Props.C07_roundtrip p h.1 h.2
  exact ⟨bs, h1, by rw [pubhex, h1]; rfl⟩

theorem hexEncode_injective {a b : List UInt8} (h : hexEncode a = hexEncode b) : a = b := by
  have h1 := Props.hexDecode_encode a
  have h2 := Props.hexDecode_encode b
  rw [hexEncode, hexEncode] at h
  rw [h, h2] at h1
  exact (Option.some.inj h1).symm

theorem pubhex_injective {p q : Pt} (hp : Reduced p.X p.Y ∧ OnCurve p.X p.Y) (hq : Reduced q.X q.Y ∧ OnCurve q.X q.Y)
    {h : List UInt8} (h1 : pubhex p = .ok h) (h2 : pubhex q = .ok h) : p = q := by
  obtain ⟨bp, e1, e2⟩ := pubhex_curve hp
  obtain ⟨bq, e3, e4⟩ := pubhex_curve hq
  have e5 : hexEncode bp = hexEncode bq := (Outcome.ok.inj (e2.symm.trans h1)).trans (Outcome.ok.inj (h2.symm.trans e4))
  have e6 := hexEncode_injective e5
  subst e6
  rw [← Props.equal_iff_eq hp.1 hq.1, Props.C07_equal_iff_bytes p q hp.1 hq.1 hp.2 hq.2, e1, e3]

/-- What a loaded, not yet sorted member is. -/
def Raw (dir : Dir) (nm : String) (m : Member) : Prop :=
  m.pubfile = nm ∧ m.index = 0 ∧ Loaded dir nm m.pub ∧ pubhex m.pub = .ok m.pubhex

theorem load_raw (srt : List Member → List Member) (dir : Dir) (names : List String) (ms : List Member) :
    loadAndSort srt dir names = .ok ms ↔
      ∃ raw, List.Forall₂ (Raw dir) names raw ∧ ms = (srt raw).mapIdx fun i m => { m with index := i } := by
  rw [loadAndSort, Outcome.bind_eq_ok]
  simp only [Outcome.bind_eq_ok, slurpAll1, unmarshalPublicKeys, mapO_ok, orPanic_ok, Outcome.ofOption_eq_ok,
    Outcome.pure_eq, Outcome.ok.injEq]
  constructor
  · rintro ⟨blobs, h1, pubs, h2, raw, h3, h4⟩
    refine ⟨raw, ?_, h4.symm⟩
    clear h4
    induction h1 generalizing pubs raw with
    | nil =>
      cases h2; cases h3; exact .nil
    | @cons nm b nms bs hb _ ih =>
      obtain ⟨p, ps, hp, hps, rfl⟩ := List.forall₂_cons_left_iff.1 h2
      rw [List.zip_cons_cons] at h3
      obtain ⟨m, ms', hm, hms, rfl⟩ := List.forall₂_cons_left_iff.1 h3
      refine .cons ?_ (ih ps hps ms' hms)
      obtain ⟨h, hh, rfl⟩ := hm
      exact ⟨rfl, rfl, ⟨b, hb, hp⟩, hh⟩
  · rintro ⟨raw, h1, rfl⟩
    suffices h : ∃ blobs, List.Forall₂ (fun x y => dir x = some y) names blobs ∧ ∃ pubs,
        List.Forall₂ (fun x y => unmarshalBinary x = .ok y) blobs pubs ∧
        List.Forall₂ (fun (x : String × Pt) y => ∃ a, pubhex x.2 = .ok a ∧ ({ pubfile := x.1, index := 0, pub := x.2, pubhex := a } : Member) = y)
          (names.zip pubs) raw by
      obtain ⟨blobs, h2, pubs, h3, h4⟩ := h
      exact ⟨blobs, h2, pubs, h3, raw, h4, rfl⟩
    induction h1 with
    | nil => exact ⟨[], .nil, [], .nil, .nil⟩
    | @cons nm m nms ms hm _ ih =>
      obtain ⟨blobs, h2, pubs, h3, h4⟩ := ih
      obtain ⟨e1, e2, ⟨b, hb, hp⟩, hh⟩ := hm
      refine ⟨b :: blobs, .cons hb h2, m.pub :: pubs, .cons hp h3, ?_⟩
      rw [List.zip_cons_cons]
      refine .cons ⟨m.pubhex, hh, ?_⟩ h4
      cases m; simp only at e1 e2; subst e1; subst e2; rfl

theorem bytes_not_lt_antisymm {a b : List UInt8} (h1 : ¬ a < b) (h2 : ¬ b < a) : a = b := by
  have i : Std.Trichotomous (· < · : UInt8 → UInt8 → Prop) := ⟨fun a b h1 h2 => by
    rw [UInt8.not_lt] at h1 h2
    exact UInt8.le_antisymm h2 h1⟩
  exact List.le_antisymm h2 h1

theorem forall2_exists {α β : Type} {R : α → β → Prop} {xs : List α} (h : ∀ x ∈ xs, ∃ y, R x y) :
    ∃ ys, List.Forall₂ R xs ys := by
  induction xs with
  | nil => exact ⟨[], .nil⟩
  | cons x xs ih =>
    obtain ⟨y, hy⟩ := h x (by simp)
    obtain ⟨ys, hys⟩ := ih (fun x hx => h x (by simp [hx]))
    exact ⟨y :: ys, .cons hy hys⟩

theorem forall2_mem_right {α β : Type} {R : α → β → Prop} {xs : List α} {ys : List β} (h : List.Forall₂ R xs ys) :
    ∀ y ∈ ys, ∃ x ∈ xs, R x y := by
  induction h with
  | nil => intro y hy; cases hy
  | cons h1 _ ih =>
    intro y hy
    rcases List.mem_cons.1 hy with rfl | hy
    · exact ⟨_, by simp, h1⟩
    · obtain ⟨x, hx, hr⟩ := ih y hy
      exact ⟨x, by simp [hx], hr⟩

theorem forall2_mem_left {α β : Type} {R : α → β → Prop} {xs : List α} {ys : List β} (h : List.Forall₂ R xs ys) :
    ∀ x ∈ xs, ∃ y ∈ ys, R x y := by
  induction h with
  | nil => intro y hy; cases hy
  | cons h1 _ ih =>
    intro y hy
    rcases List.mem_cons.1 hy with rfl | hy
    · exact ⟨_, by simp, h1⟩
    · obtain ⟨x, hx, hr⟩ := ih y hy
      exact ⟨x, by simp [hx], hr⟩

/-- What loading and sorting returns. -/
theorem load_spec {srt : List Member → List Member} (hs : SortContract srt) {dir : Dir} {names : List String}
    {ms : List Member} (h : loadAndSort srt dir names = .ok ms) :
    (∀ (i : Nat) (m : Member), ms[i]? = some m → m.index = i) ∧ (ms.map Member.pubfile).Perm names ∧
    (∀ m ∈ ms, Loaded dir m.pubfile m.pub) ∧ ms.Pairwise (fun a b => ¬ b.pubhex < a.pubhex) ∧
    ∀ m ∈ ms, pubhex m.pub = .ok m.pubhex := by
  obtain ⟨raw, h1, rfl⟩ := (load_raw srt dir names ms).1 h
  obtain ⟨hp, hsorted⟩ := hs raw
  have hmem : ∀ m ∈ (srt raw).mapIdx (fun i m => { m with index := i }), ∃ m' ∈ raw, m'.pubfile = m.pubfile ∧
      m'.pub = m.pub ∧ m'.pubhex = m.pubhex := by
    intro m hm
    rw [List.mem_mapIdx] at hm
    obtain ⟨i, hi, rfl⟩ := hm
    exact ⟨_, hp.mem_iff.1 (List.getElem_mem hi), rfl, rfl, rfl⟩
  refine ⟨?_, ?_, ?_, ?_, ?_⟩
  · intro i m hm
    rw [List.getElem?_mapIdx, Option.map_eq_some_iff] at hm
    obtain ⟨m', _, rfl⟩ := hm; rfl
  · have e : ((srt raw).mapIdx (fun i m => { m with index := i })).map Member.pubfile = (srt raw).map Member.pubfile := by
      apply List.ext_getElem? ; intro i
      rw [List.getElem?_map, List.getElem?_mapIdx, List.getElem?_map, Option.map_map]; rfl
    rw [e]
    refine (hp.map _).trans ?_
    have : raw.map Member.pubfile = names := by
      clear hp hsorted hmem h e
      induction h1 with
      | nil => rfl
      | cons h _ ih => rw [List.map_cons, ih, h.1]
    rw [this]
  · intro m hm
    obtain ⟨m', hm', e1, e2, _⟩ := hmem m hm
    obtain ⟨nm, _, hr⟩ := forall2_mem_right h1 m' hm'
    rw [← e1, ← e2, hr.1]; exact hr.2.2.1
  · have e : ((srt raw).map Member.pubhex) = ((srt raw).mapIdx (fun i m => { m with index := i })).map Member.pubhex := by
      apply List.ext_getElem? ; intro i
      rw [List.getElem?_map, List.getElem?_map, List.getElem?_mapIdx, Option.map_map]; rfl
    have h2 : ((srt raw).map Member.pubhex).Pairwise (fun a b => ¬ b < a) := List.pairwise_map.2 hsorted
    rw [e] at h2
    exact List.pairwise_map.1 h2
  · intro m hm
    obtain ⟨m', hm', _, e2, e3⟩ := hmem m hm
    obtain ⟨nm, _, hr⟩ := forall2_mem_right h1 m' hm'
    rw [← e2, ← e3]; exact hr.2.2.2

end Verif.Layout
