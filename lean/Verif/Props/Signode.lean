import Verif.Spec.Signode
import Verif.Props.Point
import Verif.Props.Tables
import Verif.Props.DssExample
import Mathlib.Data.Nat.Digits.Lemmas
import Mathlib.Data.List.Perm.Basic
import Mathlib.Data.List.Induction
import Mathlib.Data.Fintype.EquivFin
import Mathlib.Tactic.IntervalCases

/-! C57 (long-term keys), C58 (standard input) and C59 (documents), for all outcomes of runs and all inputs. -/
namespace Verif.Props.Signode
open Verif.Point Verif.Dkg Verif.Dss Verif.Tables Verif.Signode Verif.Spec.Signode

/-! ### C57 -/

/-- What `_longterm` accepts for a guest. -/
def keyOf (n : Nat) (o : Outputs Output) (g : Int) (id : String) : Option KeyShare :=
  match (o.get? (0, g)).bind fun m => m.get? id with
  | some (.key share qual) => if qual.length < n then none else some share
  | _ => none

theorem keyOf_some (n : Nat) (o : Outputs Output) (g : Int) (id : String) (k : KeyShare) :
    keyOf n o g id = some k ↔ Enough n o g id k := by
  rw [keyOf, Enough]
  cases h : (o.get? (0, g)).bind fun m => m.get? id with
  | none => simp [Delivered, h]
  | some v =>
    cases v with
    | sig s => simp [Delivered, h]
    | key share qual =>
      dsimp only
      by_cases hq : qual.length < n
      · rw [if_pos hq]
        constructor
        · nofun
        · rintro ⟨q, h1, h2⟩
          rw [Delivered, h] at h1
          cases h1; omega
      · rw [if_neg hq]
        constructor
        · intro e; cases e
          exact ⟨qual, h, by omega⟩
        · rintro ⟨q, h1, h2⟩
          rw [Delivered, h] at h1
          cases h1; rfl

theorem pop_key {o : Outputs Output} {n : Nat} {g : Int} {id : String} :
    (popOutput o 0 g id >>= fun x => takeKey n x.2 >>= fun sh => .ok (x.1, sh)) =
      match keyOf n o g id with
      | none => .panic
      | some k => .ok (o.set (0, g) (((o.get? (0, g)).getD []).delete id), k) := by
  rw [popOutput, keyOf]
  cases h : o.get? (0, g) with
  | none => rfl
  | some m =>
    dsimp only [Option.bind, Outcome.bind_ok, Option.getD]
    cases h2 : m.get? id with
    | none => rfl
    | some v =>
      cases v with
      | sig s => rfl
      | key share qual =>
        rw [takeKey]
        by_cases hq : qual.length < n
        · rw [if_pos hq]; dsimp only; rw [if_pos hq]; rfl
        · rw [if_neg hq]; dsimp only; rw [if_neg hq]; rfl

theorem keyOf_set {n : Nat} {o : Outputs Output} {g g' : Int} {id : String} {m : GoMap String Output} (h : g ≠ g') :
    keyOf n (o.set (0, g) m) g' id = keyOf n o g' id := by
  rw [keyOf, keyOf, GoMap.get?_set, if_neg (by simpa using h)]

theorem collect_cons (n : Nat) (id : String) (g : Int) (gs : List Int) (o : Outputs Output) (lts : GoMap Int KeyShare) :
    collect n id (g :: gs) o lts = match keyOf n o g id with
      | none => .panic
      | some k => collect n id gs (o.set (0, g) (((o.get? (0, g)).getD []).delete id)) (lts.set g k) := by
  have h := pop_key (o := o) (n := n) (g := g) (id := id)
  have e : collect n id (g :: gs) o lts =
      ((popOutput o 0 g id >>= fun x => takeKey n x.2 >>= fun sh => .ok (x.1, sh)) >>= fun y => collect n id gs y.1 (lts.set g y.2)) := by
    rw [collect]
    cases popOutput o 0 g id with
    | err => rfl
    | panic => rfl
    | ok x =>
      obtain ⟨o', v⟩ := x
      dsimp only [Outcome.bind_ok]
      cases takeKey n v <;> rfl
  rw [e, h]
  cases keyOf n o g id <;> rfl

theorem collect_ok (n : Nat) (id : String) (gs : List Int) : ∀ (o : Outputs Output) (lts : GoMap Int KeyShare), gs.Nodup →
    (∀ g ∈ gs, ∃ k, keyOf n o g id = some k) → ∃ o' lts', collect n id gs o lts = .ok (o', lts') ∧
      ∀ g, lts'.get? g = if g ∈ gs then keyOf n o g id else lts.get? g := by
  induction gs with
  | nil => intro o lts _ _; exact ⟨o, lts, rfl, fun g => by simp⟩
  | cons a gs ih =>
    intro o lts hn hk
    rw [List.nodup_cons] at hn
    obtain ⟨k, hk0⟩ := hk a (by simp)
    have hne : ∀ g ∈ gs, a ≠ g := fun g hg e => hn.1 (e ▸ hg)
    obtain ⟨o', lts', h1, h2⟩ := ih (o.set (0, a) (((o.get? (0, a)).getD []).delete id)) (lts.set a k) hn.2 (fun g hg => by
      rw [keyOf_set (hne g hg)]; exact hk g (by simp [hg]))
    refine ⟨o', lts', by rw [collect_cons, hk0]; exact h1, ?_⟩
    intro g
    rw [h2 g]
    by_cases hg : g ∈ gs
    · rw [if_pos hg, keyOf_set (hne g hg), if_pos (by simp [hg])]
    · rw [if_neg hg, GoMap.get?_set]
      by_cases ha : a = g
      · subst ha; rw [if_pos rfl, if_pos (by simp), hk0]
      · rw [if_neg ha, if_neg]
        intro hm
        rcases List.mem_cons.1 hm with e | e
        · exact ha e.symm
        · exact hg e

theorem collect_panic (n : Nat) (id : String) (gs : List Int) : ∀ (o : Outputs Output) (lts : GoMap Int KeyShare), gs.Nodup →
    (∃ g ∈ gs, keyOf n o g id = none) → collect n id gs o lts = .panic := by
  induction gs with
  | nil => rintro o lts _ ⟨g, h, _⟩; cases h
  | cons a gs ih =>
    rintro o lts hn ⟨g, hg, hk⟩
    rw [List.nodup_cons] at hn
    rw [collect_cons]
    cases h0 : keyOf n o a id with
    | none => rfl
    | some k =>
      refine ih _ _ hn.2 ⟨g, ?_, ?_⟩
      · rcases List.mem_cons.1 hg with e | e
        · rw [e, h0] at hk; cases hk
        · exact e
      · rw [keyOf_set]
        · exact hk
        · rintro rfl; rw [h0] at hk; cases hk

theorem chainValid_iff (p : Pt) : Layout.chainValid p = true ↔ OnCurve p.X p.Y := by
  rw [Layout.chainValid, (C06_validPublicKey _).1]
  constructor
  · rintro ⟨P, h, hc⟩; cases h; exact hc
  · exact fun h => ⟨p, rfl, h⟩

theorem allValid_false (ds : List KeyShare) : allValid ds false = .ok false := by
  induction ds with
  | nil => rfl
  | cons d ds ih => rw [allValid, if_neg (by simp), Outcome.bind_ok]; exact ih

theorem allValid_true (ds : List KeyShare) : allValid ds true = .ok true ↔ ∀ d ∈ ds, OnChain d := by
  induction ds with
  | nil => simp [allValid]
  | cons d ds ih =>
    rw [allValid, if_pos rfl, List.forall_mem_cons, public', OnChain]
    cases hd : d.commits with
    | nil => simp
    | cons c cs =>
      rw [List.head?_cons, Outcome.ofOption_some, Outcome.orPanic_ok, Outcome.bind_ok, Outcome.bind_ok]
      cases hc : Layout.chainValid c with
      | true =>
        rw [ih]
        exact ⟨fun h => ⟨⟨c, cs, rfl, (chainValid_iff c).1 hc⟩, h⟩, fun h => h.2⟩
      | false =>
        rw [allValid_false]
        constructor
        · nofun
        · rintro ⟨⟨c', cs', e, h⟩, _⟩
          cases e
          rw [(chainValid_iff c).2 h] at hc; cases hc

theorem allValid_total (ds : List KeyShare) (h : ∀ d ∈ ds, d.commits ≠ []) : ∃ b, allValid ds true = .ok b := by
  induction ds with
  | nil => exact ⟨true, rfl⟩
  | cons d ds ih =>
    rw [List.forall_mem_cons] at h
    rw [allValid, if_pos rfl, public']
    cases hd : d.commits with
    | nil => exact absurd hd h.1
    | cons c cs =>
      rw [List.head?_cons, Outcome.ofOption_some, Outcome.orPanic_ok, Outcome.bind_ok, Outcome.bind_ok]
      cases hc : Layout.chainValid c with
      | true => exact ih h.2
      | false => exact ⟨false, allValid_false ds⟩

/-- The orders in which the maps are visited: every guest once. -/
def Orders (w : World) (gs : List Int) : Prop := gs.Nodup ∧ ∀ i, (w.guests i).Perm gs ∧ (w.shares i).Perm gs

section C57
variable {w : World} {gs : List Int} {n : Nat} {base : String}

/-- An iteration in which every guest has enough. -/
theorem attempt_enough (hw : Orders w gs) (i : Nat) (t : Int) (o o1 : Outputs Output) (hd : w.dkg i o = .ok o1) (key : Int → KeyShare)
    (hk : ∀ g ∈ gs, Enough n o1 g (runnerRunId (base ++ toString i) t) (key g)) :
    ∃ o2 lts ds, longtermAttempt w n base i t o = (allValid ds true >>= fun cv => .ok (cv, o2, lts)) ∧
      (∀ d, d ∈ ds ↔ ∃ g ∈ gs, key g = d) ∧ (∀ g ∈ gs, lts.get? g = some (key g)) ∧ ∀ g, g ∉ gs → lts.get? g = none := by
  obtain ⟨hn, ho⟩ := hw
  obtain ⟨o2, lts, h1, h2⟩ := collect_ok n (runnerRunId (base ++ toString i) t) (w.guests i) o1 [] ((ho i).1.nodup_iff.2 hn)
    (fun g hg => ⟨key g, (keyOf_some _ _ _ _ _).2 (hk g ((ho i).1.mem_iff.1 hg))⟩)
  have h3 : ∀ g ∈ gs, lts.get? g = some (key g) := by
    intro g hg
    rw [h2 g, if_pos ((ho i).1.mem_iff.2 hg)]
    exact (keyOf_some _ _ _ _ _).2 (hk g hg)
  refine ⟨o2, lts, (w.shares i).filterMap fun g => lts.get? g, ?_, ?_, h3, ?_⟩
  · rw [longtermAttempt, hd, Outcome.bind_ok, h1]; rfl
  · intro d
    rw [List.mem_filterMap]
    constructor
    · rintro ⟨g, hg, e⟩
      have hg' := (ho i).2.mem_iff.1 hg
      rw [h3 g hg'] at e
      exact ⟨g, hg', Option.some.inj e⟩
    · rintro ⟨g, hg, e⟩
      exact ⟨g, (ho i).2.mem_iff.2 hg, by rw [h3 g hg, e]⟩
  · intro g hg
    rw [h2 g, if_neg (fun h => hg ((ho i).1.mem_iff.1 h))]; rfl

theorem attempt_panic (hw : Orders w gs) (i : Nat) (t : Int) (o o1 : Outputs Output) (hd : w.dkg i o = .ok o1) (g : Int) (hg : g ∈ gs)
    (hk : ∀ k, ¬ Enough n o1 g (runnerRunId (base ++ toString i) t) k) : longtermAttempt w n base i t o = .panic := by
  have h := collect_panic n (runnerRunId (base ++ toString i) t) (w.guests i) o1 [] ((hw.2 i).1.nodup_iff.2 hw.1)
    ⟨g, (hw.2 i).1.mem_iff.2 hg, by
      cases h : keyOf n o1 g (runnerRunId (base ++ toString i) t) with
      | none => rfl
      | some k => exact absurd ((keyOf_some _ _ _ _ _).1 h) (hk k)⟩
  rw [longtermAttempt, hd, Outcome.bind_ok, h]; rfl

theorem attempt_true (hw : Orders w gs) (i : Nat) (t : Int) (o o2 : Outputs Output) (lts : GoMap Int KeyShare)
    (h : longtermAttempt w n base i t o = .ok (true, o2, lts)) : ∃ o1, w.dkg i o = .ok o1 ∧
      (∀ g ∈ gs, ∃ k, lts.get? g = some k ∧ OnChain k ∧ Enough n o1 g (runnerRunId (base ++ toString i) t) k) ∧
      ∀ g, g ∉ gs → lts.get? g = none := by
  cases hd : w.dkg i o with
  | err => rw [longtermAttempt, hd] at h; cases h
  | panic => rw [longtermAttempt, hd] at h; cases h
  | ok o1 =>
    refine ⟨o1, rfl, ?_⟩
    by_cases hk : ∀ g ∈ gs, ∃ k, Enough n o1 g (runnerRunId (base ++ toString i) t) k
    · have : ∃ key : Int → KeyShare, ∀ g ∈ gs, Enough n o1 g (runnerRunId (base ++ toString i) t) (key g) := by
        refine ⟨fun g => if hg : g ∈ gs then (hk g hg).choose else ⟨⟨0, 0⟩, []⟩, ?_⟩
        intro g hg
        simp only [hg, dif_pos]
        exact (hk g hg).choose_spec
      obtain ⟨key, hkey⟩ := this
      obtain ⟨o2', lts', ds, h1, h2, h3, h4⟩ := attempt_enough hw i t o o1 hd key hkey
      rw [h1, Outcome.bind_eq_ok] at h
      obtain ⟨cv, h5, h6⟩ := h
      cases h6
      rw [allValid_true] at h5
      exact ⟨fun g hg => ⟨key g, h3 g hg, h5 _ ((h2 _).2 ⟨g, hg, rfl⟩), hkey g hg⟩, h4⟩
    · push Not at hk
      obtain ⟨g, hg, hk⟩ := hk
      rw [attempt_panic hw i t o o1 hd g hg hk] at h; cases h

end C57

theorem loop_ok {S R : Type} (att : Nat → Int → S → Outcome (Bool × S × R)) (interval : Int) (fuel : Nat) : ∀ (i : Nat) (t : Int) (o o' : S) (r : R),
    loop att interval fuel i t o = some (.ok (o', r)) → ∃ j o1, att (i + j) (t + j * interval) o1 = .ok (true, o', r) := by
  induction fuel with
  | zero => intro i t o o' r h; cases h
  | succ f ih =>
    intro i t o o' r h
    rw [loop] at h
    cases ha : att i t o with
    | err => rw [ha] at h; cases h
    | panic => rw [ha] at h; cases h
    | ok x =>
      obtain ⟨b, o2, r2⟩ := x
      rw [ha] at h
      cases b with
      | true => cases h; exact ⟨0, o, by simpa using ha⟩
      | false =>
        obtain ⟨j, o1, h1⟩ := ih _ _ _ _ _ h
        refine ⟨j + 1, o1, ?_⟩
        rw [show i + (j + 1) = i + 1 + j by omega]
        rw [show t + ((j + 1 : Nat) : Int) * interval = t + interval + j * interval by push_cast; ring]
        exact h1

/-- C57. If long-term key generation returns, then there is an attempt, with its own run identifier and start time, which left for
every guest a key share with at least as many members in QUAL as there are members; the share returned for the guest is that share,
its public key is a point of the curve, and there are shares for guests only. -/
theorem C57_returns (w : World) (gs : List Int) (hw : Orders w gs) (n : Nat) (interval : Int) (fuel : Nat) (start : Int)
    (o o' : Outputs Output) (lts : GoMap Int KeyShare) (h : longtermLoop w n interval fuel start o = some (.ok (o', lts))) :
    ∃ i before after, w.dkg i before = .ok after ∧
      (∀ g ∈ gs, ∃ share qual, lts.get? g = some share ∧ OnChain share ∧
        Delivered after g (attemptId start interval i) share qual ∧ n ≤ qual.length) ∧
      ∀ g, g ∉ gs → lts.get? g = none := by
  obtain ⟨j, o1, h1⟩ := loop_ok _ _ _ _ _ _ _ _ h
  rw [Nat.zero_add] at h1
  obtain ⟨after, h2, h3, h4⟩ := attempt_true hw j _ o1 o' lts h1
  refine ⟨j, o1, after, h2, ?_, h4⟩
  intro g hg
  obtain ⟨k, h5, h6, qual, h7, h8⟩ := h3 g hg
  exact ⟨k, qual, h5, h6, h7, h8⟩

theorem qual_full (n : Nat) (qual : List Int) (hd : qual.Nodup) (hr : ∀ q ∈ qual, 0 ≤ q ∧ q < n) (hl : n ≤ qual.length) (m : Nat) (hm : m < n) :
    (m : Int) ∈ qual := by
  have hd' : (qual.map Int.toNat).Nodup := by
    refine (List.nodup_map_iff_inj_on hd).2 ?_
    intro a ha b hb e
    have := hr a ha
    have := hr b hb
    omega
  have hs : (qual.map Int.toNat) ⊆ List.range n := by
    intro x hx
    obtain ⟨q, hq, e⟩ := List.mem_map.1 hx
    have := hr q hq
    rw [List.mem_range]; omega
  have hp : (qual.map Int.toNat).Perm (List.range n) :=
    (List.subperm_of_subset hd' hs).perm_of_length_le (by simpa using hl)
  obtain ⟨q, hq, e⟩ := List.mem_map.1 (hp.mem_iff.2 (List.mem_range.2 hm))
  have := hr q hq
  rwa [show (m : Int) = q by omega]

/-- C57 (every member is in QUAL), given that a QUAL delivered by DKG lists distinct member indices. -/
theorem C57_all_members (w : World) (gs : List Int) (hw : Orders w gs) (n : Nat) (interval : Int) (fuel : Nat) (start : Int)
    (o o' : Outputs Output) (lts : GoMap Int KeyShare) (h : longtermLoop w n interval fuel start o = some (.ok (o', lts)))
    (hq : ∀ i before after, w.dkg i before = .ok after → ∀ g ∈ gs, ∀ share qual, Delivered after g (attemptId start interval i) share qual →
      qual.Nodup ∧ ∀ q ∈ qual, 0 ≤ q ∧ q < n) :
    ∃ i before after, w.dkg i before = .ok after ∧ ∀ g ∈ gs, ∃ share qual, lts.get? g = some share ∧ OnChain share ∧
      Delivered after g (attemptId start interval i) share qual ∧ ∀ m : Nat, m < n ↔ (m : Int) ∈ qual := by
  obtain ⟨i, before, after, h1, h2, _⟩ := C57_returns w gs hw n interval fuel start o o' lts h
  refine ⟨i, before, after, h1, fun g hg => ?_⟩
  obtain ⟨share, qual, h3, h4, h5, h6⟩ := h2 g hg
  obtain ⟨h7, h8⟩ := hq i before after h1 g hg share qual h5
  refine ⟨share, qual, h3, h4, h5, fun m => ⟨qual_full n qual h7 h8 h6 m, fun hm => ?_⟩⟩
  have := h8 _ hm
  omega

/-- C57 (otherwise). An attempt for which a guest lacks a key share, or one with enough members, ends the program with a panic. -/
theorem C57_panics (w : World) (gs : List Int) (hw : Orders w gs) (n : Nat) (base : String) (interval : Int) (f i : Nat) (t : Int)
    (o o1 : Outputs Output) (hd : w.dkg i o = .ok o1) (g : Int) (hg : g ∈ gs)
    (hk : ∀ share qual, Delivered o1 g (base ++ toString i ++ toString (unixMilli t)) share qual → qual.length < n) :
    loop (longtermAttempt w n base) interval (f + 1) i t o = some .panic := by
  rw [loop, attempt_panic hw i t o o1 hd g hg]
  rintro k ⟨qual, h1, h2⟩
  have := hk k qual h1
  omega

/-- C57 (otherwise). If every guest has a key share with enough members and one of the keys is not on the curve, there is another
attempt, later by the interval. -/
theorem C57_retries (w : World) (gs : List Int) (hw : Orders w gs) (n : Nat) (base : String) (interval : Int) (f i : Nat) (t : Int)
    (o o1 : Outputs Output) (hd : w.dkg i o = .ok o1) (key : Int → KeyShare)
    (hk : ∀ g ∈ gs, Enough n o1 g (base ++ toString i ++ toString (unixMilli t)) (key g) ∧ (key g).commits ≠ [])
    (hbad : ∃ g ∈ gs, ¬ OnChain (key g)) :
    ∃ o2, loop (longtermAttempt w n base) interval (f + 1) i t o = loop (longtermAttempt w n base) interval f (i + 1) (t + interval) o2 := by
  obtain ⟨o2, lts, ds, h1, h2, h3, h4⟩ := attempt_enough hw i t o o1 hd key (fun g hg => (hk g hg).1)
  have h5 : ∀ d ∈ ds, d.commits ≠ [] := by
    intro d hd
    obtain ⟨g, hg, e⟩ := (h2 d).1 hd
    rw [← e]; exact (hk g hg).2
  obtain ⟨b, hb⟩ := allValid_total ds h5
  have hb' : b = false := by
    cases b with
    | false => rfl
    | true =>
      obtain ⟨g, hg, hbad⟩ := hbad
      exact absurd ((allValid_true ds).1 hb _ ((h2 _).2 ⟨g, hg, rfl⟩)) hbad
  subst hb'
  refine ⟨o2, ?_⟩
  rw [loop, h1, hb]; rfl

/-- C57 (converse). If every guest has a key share with enough members and all keys are on the curve, the shares are returned. -/
theorem C57_accepts (w : World) (gs : List Int) (hw : Orders w gs) (n : Nat) (base : String) (interval : Int) (f i : Nat) (t : Int)
    (o o1 : Outputs Output) (hd : w.dkg i o = .ok o1) (key : Int → KeyShare)
    (hk : ∀ g ∈ gs, Enough n o1 g (base ++ toString i ++ toString (unixMilli t)) (key g) ∧ OnChain (key g)) :
    ∃ o2 lts, loop (longtermAttempt w n base) interval (f + 1) i t o = some (.ok (o2, lts)) ∧
      ∀ g ∈ gs, lts.get? g = some (key g) := by
  obtain ⟨o2, lts, ds, h1, h2, h3, h4⟩ := attempt_enough hw i t o o1 hd key (fun g hg => (hk g hg).1)
  have h5 := (allValid_true ds).2 (fun d hd => by
    obtain ⟨g, hg, e⟩ := (h2 d).1 hd
    rw [← e]; exact (hk g hg).2)
  exact ⟨o2, lts, by rw [loop, h1, h5]; rfl, h3⟩

/-! ### C58 -/

theorem triples_cons (a b c : String) (ts : List String) : triples (a :: b :: c :: ts) = ⟨a, b, c⟩ :: triples ts := by
  rw [triples, triples]
  rw [show (a :: b :: c :: ts).length / 3 = ts.length / 3 + 1 by simp only [List.length_cons]; omega]
  rw [List.range_succ_eq_map, List.map_cons, List.map_map]
  rfl

/-- C58. The goroutines started are those for the complete consecutive triples, in order; the rest of the tokens, fewer than three,
start nothing. -/
theorem C58_triples (ts : List String) : runSigs ts = triples ts := by
  induction h : ts.length using Nat.strongRecOn generalizing ts with
  | ind k ih =>
    match ts, h with
    | [], _ => rfl
    | [a], _ => simp [runSigs, triples]
    | [a, b], _ => simp [runSigs, triples]
    | a :: b :: c :: ts, h =>
      rw [runSigs, triples_cons, ih ts.length (by rw [← h]; simp only [List.length_cons]; omega) ts rfl]

/-- C58 (each token is used once, in order, up to the last incomplete triple). -/
theorem C58_tokens (ts : List String) : ∃ rest, rest.length < 3 ∧
    ts = (runSigs ts).flatMap (fun r => [r.nmspc, r.tm, r.doc]) ++ rest := by
  induction h : ts.length using Nat.strongRecOn generalizing ts with
  | ind k ih =>
    match ts, h with
    | [], _ => exact ⟨[], by simp [runSigs]⟩
    | [a], _ => exact ⟨[a], by simp [runSigs]⟩
    | [a, b], _ => exact ⟨[a, b], by simp [runSigs]⟩
    | a :: b :: c :: ts, h =>
      obtain ⟨rest, h1, h2⟩ := ih ts.length (by rw [← h]; simp only [List.length_cons]; omega) ts rfl
      refine ⟨rest, h1, ?_⟩
      rw [runSigs, List.flatMap_cons, List.append_assoc, ← h2]
      rfl

/-- C58 (start time). With `_` as time the default start is used, whatever `time.Parse` would say; any other text must be a time. -/
theorem C58_start (parse : String → Option Int) (dflt : Int) (r : Request) (j : Job) (h : runSig1 parse dflt r = some j) :
    (r.tm = "_" → j.start = dflt) ∧ (r.tm ≠ "_" → parse r.tm = some j.start) ∧ j.nmspc = r.nmspc ∧
    setString16 r.doc.toList = some j.doc := by
  rw [runSig1] at h
  obtain ⟨t, h1, h2⟩ := Option.bind_eq_some_iff.1 h
  obtain ⟨d, h3, h4⟩ := Option.bind_eq_some_iff.1 h2
  cases h4
  refine ⟨fun e => ?_, fun e => ?_, rfl, h3⟩
  · rw [startTime, if_pos e] at h1; exact (Option.some.inj h1).symm
  · rw [startTime, if_neg e] at h1; exact h1

/-- C58 (which triples lead to runs): those with a good time and a good document. -/
theorem C58_runs (parse : String → Option Int) (dflt : Int) (r : Request) :
    (runSig1 parse dflt r).isSome = true ↔ (r.tm = "_" ∨ (parse r.tm).isSome = true) ∧ (setString16 r.doc.toList).isSome = true := by
  rw [runSig1, startTime]
  by_cases h : r.tm = "_"
  · rw [if_pos h]
    cases setString16 r.doc.toList <;> simp [h]
  · rw [if_neg h]
    cases parse r.tm <;> cases setString16 r.doc.toList <;> simp [h]

example : runSigs ["0", "_", "AA", "1", "2022-09-01T05:50:42+02:00", "b", "2", "_"] =
    [⟨"0", "_", "AA"⟩, ⟨"1", "2022-09-01T05:50:42+02:00", "b"⟩] ∧
    runSig1 (fun _ => none) 7 ⟨"0", "_", "AA"⟩ = some ⟨"0", 7, 170⟩ ∧ runSig1 (fun _ => none) 7 ⟨"0", "-", "AA"⟩ = none := by
  refine ⟨rfl, by decide +kernel, by decide +kernel⟩

/-! ### C59 -/

theorem digitVal_iff (c : Char) (d : Nat) : digitVal c = some d ↔ HexDigit c d := by
  constructor
  · intro h
    have key : ∀ k : Nat, c.toNat = k → c = Char.ofNat k := fun k e => by rw [← e, Char.ofNat_toNat]
    rw [digitVal] at h
    by_cases h1 : '0' ≤ c ∧ c ≤ '9'
    · rw [if_pos h1] at h
      have a : 48 ≤ c.toNat := h1.1
      have b : c.toNat ≤ 57 := h1.2
      cases h
      generalize hk : c.toNat = k at a b ⊢
      rw [key k hk]
      left
      interval_cases k <;> rfl
    · rw [if_neg h1] at h
      by_cases h2 : 'a' ≤ c ∧ c ≤ 'f'
      · rw [if_pos h2] at h
        have a : 97 ≤ c.toNat := h2.1
        have b : c.toNat ≤ 102 := h2.2
        cases h
        generalize hk : c.toNat = k at a b ⊢
        rw [key k hk]
        left
        interval_cases k <;> rfl
      · rw [if_neg h2] at h
        by_cases h3 : 'A' ≤ c ∧ c ≤ 'F'
        · rw [if_pos h3] at h
          have a : 65 ≤ c.toNat := h3.1
          have b : c.toNat ≤ 70 := h3.2
          cases h
          generalize hk : c.toNat = k at a b ⊢
          rw [key k hk]
          right
          interval_cases k <;> rfl
        · rw [if_neg h3] at h; cases h
  · rintro (h | h)
    all_goals
      have hd : d < 16 := (List.getElem?_eq_some_iff.1 h).1
      interval_cases d <;> (cases h; decide)

theorem scanDigits_iff (cs : List Char) : ∀ (acc n : Nat), scanDigits cs acc = some n ↔
    ∃ vs, List.Forall₂ HexDigit cs vs ∧ n = acc * 16 ^ cs.length + Nat.ofDigits 16 vs.reverse := by
  induction cs with
  | nil =>
    intro acc n
    rw [scanDigits]
    constructor
    · intro h; cases h; exact ⟨[], .nil, by simp⟩
    · rintro ⟨vs, h, e⟩; cases h; rw [e]; simp
  | cons c cs ih =>
    intro acc n
    rw [scanDigits, Option.bind_eq_some_iff]
    constructor
    · rintro ⟨d, h1, h2⟩
      obtain ⟨vs, h3, h4⟩ := (ih _ _).1 h2
      refine ⟨d :: vs, .cons ((digitVal_iff c d).1 h1) h3, ?_⟩
      rw [h4, List.reverse_cons, Nat.ofDigits_append, Nat.ofDigits_singleton, List.length_reverse, ← h3.length_eq, List.length_cons]
      ring
    · rintro ⟨vs, h, e⟩
      cases h with
      | cons h1 h2 =>
        rename_i d vs
        refine ⟨d, (digitVal_iff c d).2 h1, (ih _ _).2 ⟨vs, h2, ?_⟩⟩
        rw [e, List.reverse_cons, Nat.ofDigits_append, Nat.ofDigits_singleton, List.length_reverse, ← h2.length_eq, List.length_cons]
        ring

theorem scanAbs_iff (cs : List Char) (n : Nat) : scanAbs cs = some n ↔ HexNum cs n := by
  rw [scanAbs, HexNum]
  by_cases h : cs = []
  · simp [h]
  · rw [if_neg h, scanDigits_iff]
    simp [h]

theorem hexNum_head {c : Char} {cs : List Char} {n : Nat} (h : HexNum (c :: cs) n) : c ≠ '-' ∧ c ≠ '+' := by
  obtain ⟨_, vs, h, _⟩ := h
  cases h with
  | cons h _ =>
    rw [← digitVal_iff] at h
    constructor <;> (rintro rfl; rw [show digitVal _ = none by decide] at h; cases h)

/-- C59 (reading). `SetString` accepts one or more hex digits after an optional sign, and nothing else; the value is that of the
digits, negated after a minus sign. -/
theorem C59_reading (s : List Char) (v : Int) : setString16 s = some v ↔
    (∃ n, HexNum s n ∧ v = n) ∨ (∃ cs n, s = '+' :: cs ∧ HexNum cs n ∧ v = n) ∨ (∃ cs n, s = '-' :: cs ∧ HexNum cs n ∧ v = -(n : Int)) := by
  have key : ∀ (cs : List Char) (f : Nat → Int), (scanAbs cs).map f = some v ↔ ∃ n, HexNum cs n ∧ v = f n := by
    intro cs f
    rw [Option.map_eq_some_iff]
    exact ⟨fun ⟨n, h1, h2⟩ => ⟨n, (scanAbs_iff cs n).1 h1, h2.symm⟩, fun ⟨n, h1, h2⟩ => ⟨n, (scanAbs_iff cs n).2 h1, h2.symm⟩⟩
  rw [setString16.eq_def]
  split
  · rename_i cs
    rw [key]
    constructor
    · rintro ⟨n, h1, h2⟩; exact .inr (.inr ⟨cs, n, rfl, h1, h2⟩)
    · rintro (⟨n, h, _⟩ | ⟨_, _, h, _⟩ | ⟨cs', n, h, h1, h2⟩)
      · exact absurd rfl (hexNum_head h).1
      · simp at h
      · cases h; exact ⟨n, h1, h2⟩
  · rename_i cs
    rw [key]
    constructor
    · rintro ⟨n, h1, h2⟩; exact .inr (.inl ⟨cs, n, rfl, h1, h2⟩)
    · rintro (⟨n, h, _⟩ | ⟨cs', n, h, h1, h2⟩ | ⟨_, _, h, _⟩)
      · exact absurd rfl (hexNum_head h).2
      · cases h; exact ⟨n, h1, h2⟩
      · simp at h
  · rename_i h1 h2
    rw [key]
    constructor
    · exact .inl
    · rintro (h | ⟨cs, n, h, _⟩ | ⟨cs, n, h, _⟩)
      · exact h
      · exact absurd h (h2 cs)
      · exact absurd h (h1 cs)

example : setString16 "00fF".toList = some 255 ∧ setString16 "+1".toList = some 1 ∧ setString16 "-9".toList = some (-9) ∧
    setString16 "0x1".toList = none ∧ setString16 "1_0".toList = none ∧ setString16 "".toList = none ∧ setString16 "-".toList = none := by
  decide +kernel

/-- C59 (the run gets it). While the runs of a job go on, and whatever is registered and deregistered for other runs, each guest
of the node signs the document of the job. -/
theorem C59_registered (docs docs1 docs2 : Docs) (guests : List Int) (j : Job) (h : registerDocs docs guests j = .ok docs1)
    (ops : List DocOp) (h2 : docExec docs1 ops = .ok docs2) (g : Int) (hg : g ∈ guests) (hk : ∀ op ∈ ops, ¬ docKey g (jobId j) op) :
    docFor docs2 g (jobId j) = some j.doc := by
  rw [docExec_other h2 hk]
  rw [registerDocs] at h
  clear h2 hk
  induction guests using List.reverseRecOn generalizing docs1 with
  | nil => cases hg
  | append_singleton gs a ih =>
    rw [List.map_append, List.map_singleton] at h
    by_cases ha : g = a
    · subst ha
      exact C66_last_registered docs docs1 _ [] g (jobId j) j.doc h (by simp)
    · rw [docExec_append, Outcome.bind_eq_ok] at h
      obtain ⟨d1, h3, h4⟩ := h
      rw [docExec_other h4]
      · exact ih d1 h3 ((List.mem_append.1 hg).resolve_right (by simpa using ha))
      · intro op hop hk
        rw [List.mem_singleton] at hop
        subst hop
        exact ha hk.1.symm

variable (H : List UInt8 → List UInt8) (SH : Share → List UInt8)

/-- A signature accepted for two messages has the same challenge for both, unless two group elements have one address. -/
theorem same_challenge {P : Pt} {x : Fn} (hx : Log P x) (sig : Schnorr.Sig) (m m' : Int)
    (h : Schnorr.verify H (.pt P) m sig = .ok ()) (h' : Schnorr.verify H (.pt P) m' sig = .ok ()) :
    Schnorr.challengeHash H P sig.addr m' = Schnorr.challengeHash H P sig.addr m ∨
      ∃ R1 R2, IsElt R1 ∧ IsElt R2 ∧ R1 ≠ R2 ∧ ethereumAddress H R1 = ethereumAddress H R2 := by
  rw [Schnorr.verify_iff H hx] at h h'
  obtain ⟨_, hx0, _, h1⟩ := h
  obtain ⟨_, _, _, h2⟩ := h'
  have hc := hx.onCurve_iff.2 hx0
  by_cases he : ofLog ((sig.s : Fn) + (Schnorr.chalOf H P sig.addr m' : Fn) * x) = ofLog ((sig.s : Fn) + (Schnorr.chalOf H P sig.addr m : Fn) * x)
  · left
    have := ((log_ofLog _).eq_iff (log_ofLog _)).1 he
    have := mul_right_cancel₀ hx0 (add_left_cancel this)
    have r1 := Schnorr.chalOf_range H P sig.addr m
    have r2 := Schnorr.chalOf_range H P sig.addr m'
    rw [Scalar.cast_eq_iff, Scalar.modG_of_range r1.1 r1.2, Scalar.modG_of_range r2.1 r2.2] at this
    rw [Schnorr.challengeHash_eq H hc, Schnorr.challengeHash_eq H hc, this]
  · right
    exact ⟨_, _, (exists_log_iff _).2 ⟨_, log_ofLog _⟩, (exists_log_iff _).2 ⟨_, log_ofLog _⟩, he,
      by rw [Schnorr.ethereumAddress_eq, Schnorr.ethereumAddress_eq, h1, h2]⟩

/-- C59 for texts without a minus sign that denote a uint256: the signature made for the text verifies for the number denoted, and
for no number with another challenge, unless two group elements have one address. Missing: texts with a minus sign and numbers from
2^256 on, for which the claim is false (`C59_counterexample`, `C59_out_of_range`). -/
theorem C59_signed_partial (parse : String → Option Int) (dflt : Int) (r : Request) (j : Job) (hj : runSig1 parse dflt r = some j)
    (cs : List Char) (n : Nat) (htext : r.doc.toList = cs ∨ r.doc.toList = '+' :: cs) (hnum : HexNum cs n) (hbig : n < 2 ^ 256)
    (hH : ∀ b, (H b).length = 32) (a : Args) (ha : a.msg = j.doc) (d : DSS) (hd : newDSS H a = .ok d) (ls rs : List Nat)
    (hl : d.long.commits = ls.map (timesAdd base)) (hr : d.random.commits = rs.map (timesAdd base)) (hrs : rs ≠ [])
    (hkey : ls.headD 0 % secp256k1N ≠ 0) (hc : Consistent d ls rs) (hT : (ls.length : Int) ≤ a.T ∧ (rs.length : Int) ≤ a.T)
    (hp : a.participants.length ≤ 2 ^ 63) (calls : List Call) (sig : Schnorr.Sig) (h : signature H (run H SH d calls) = .ok sig) :
    Schnorr.verify H (.pt (sessKey d)) n sig = .ok () ∧
    ∀ m : Int, Schnorr.verify H (.pt (sessKey d)) m sig = .ok () →
      Schnorr.challengeHash H (sessKey d) sig.addr m = Schnorr.challengeHash H (sessKey d) sig.addr n ∨
      ∃ R1 R2, IsElt R1 ∧ IsElt R2 ∧ R1 ≠ R2 ∧ ethereumAddress H R1 = ethereumAddress H R2 := by
  have hdoc : j.doc = n := by
    have h1 := (C58_start parse dflt r j hj).2.2.2
    have h2 : setString16 r.doc.toList = some (n : Int) := by
      rcases htext with e | e
      · rw [e]; exact (C59_reading _ _).2 (.inl ⟨n, hnum, rfl⟩)
      · rw [e]; exact (C59_reading _ _).2 (.inr (.inl ⟨cs, n, rfl, hnum, rfl⟩))
    exact Option.some.inj (h1.symm.trans h2)
  have hmsg : d.msg = n := by rw [(newDSS_fresh hd).2.2.2.2.2.2.2.2.1, ha, hdoc]
  have hk : Keys d ls rs := ⟨hl, hr, hrs, hkey, by rw [hmsg]; omega⟩
  have hv := C23_verifies H SH hH a d hd ls rs hk hc hT hp calls sig h
  rw [ha, hdoc] at hv
  refine ⟨hv, fun m hm => ?_⟩
  obtain ⟨l, ls', r', rs', rfl, rfl, hl0⟩ := hk.split
  exact same_challenge H hk.sessKey_log.1 sig n m hv hm

/-- The session with the negated document. -/
def neg (d : DSS) : DSS := { d with msg := -d.msg }

theorem hashSig_neg (d : DSS) : hashSig H (neg d) = hashSig H d := by
  have : ∀ P addr, Schnorr.challengeHash H P addr (-d.msg) = Schnorr.challengeHash H P addr d.msg := by
    intro P addr
    rw [Schnorr.challengeHash, Schnorr.challengeHash, BigInt.bytes, BigInt.bytes, Int.natAbs_neg]
  rw [hashSig, hashSig]
  simp only [neg, this]

theorem step_neg (d : DSS) (c : Call) : Dss.step H SH (neg d) c = neg (Dss.step H SH d c) := by
  cases c with
  | partialSig k =>
    have h : ownShare H (neg d) = ownShare H d := by
      rw [ownShare, ownShare, hashSig_neg]; rfl
    rw [Dss.step, Dss.step, partialSig, partialSig, h]
    cases ownShare H d with
    | err => rfl
    | panic => rfl
    | ok sh =>
      dsimp only
      by_cases hs : d.signed = true
      · rw [if_pos (show (neg d).signed = true from hs), if_pos hs]
      · rw [if_neg (show ¬ (neg d).signed = true from hs), if_neg hs]; rfl
  | process ps =>
    have h : checkPartialSig H SH (neg d) ps = checkPartialSig H SH d ps := by
      rw [checkPartialSig, checkPartialSig, hashSig_neg]; rfl
    rw [Dss.step, Dss.step, processPartialSig, processPartialSig, h]
    cases checkPartialSig H SH d ps <;> rfl

/-- C59 (the sign is lost). Whatever calls are made, a session for the document `-m` produces the signature that the session for `m`
would have produced. -/
theorem C59_sign_lost (d : DSS) (calls : List Call) : signature H (run H SH (neg d) calls) = signature H (run H SH d calls) := by
  have key : ∀ (calls : List Call) (d : DSS), run H SH (neg d) calls = neg (run H SH d calls) := by
    intro calls
    induction calls with
    | nil => exact fun d => rfl
    | cons c calls ih =>
      intro d
      have := ih (Dss.step H SH d c)
      rw [run, run] at this
      rw [run, run, List.foldl_cons, List.foldl_cons, step_neg, this]
  rw [key]; rfl

/-- C59 (out of range). Texts that denote negative numbers or numbers from 2^256 on are accepted, but no signature verifies for them. -/
theorem C59_out_of_range (m : Int) (hm : m < 0 ∨ 2 ^ 256 ≤ m) (P : KPoint) (sig : Schnorr.Sig) : Schnorr.verify H P m sig ≠ .ok () := by
  have h : (BigInt.cmp m 0 == -1 || BigInt.cmp m Schnorr.maxUint256 == 1) = true := by
    rw [Schnorr.msg_test]; omega
  rw [Schnorr.verify, Schnorr.verifyFull.eq_def]
  by_cases hs : Schnorr.validSignature sig.s = true
  · rw [if_neg (by rw [hs]; simp)]
    cases P with
    | nil => nofun
    | «foreign» => nofun
    | pt P =>
      dsimp only
      by_cases hv : validPublicKey (.pt P) = true
      · rw [if_neg (by rw [hv]; simp), if_pos h]; nofun
      · rw [if_pos (by simpa using hv)]; nofun
  · rw [if_pos (by simpa using hs)]; nofun

theorem newDSS_neg (a : Args) (d : DSS) (h : newDSS H a = .ok d) : newDSS H { a with msg := -a.msg } = .ok (neg d) := by
  rw [newDSS, Outcome.bind_eq_ok] at h
  obtain ⟨pub, h1, h⟩ := h
  rw [Outcome.bind_eq_ok] at h
  obtain ⟨i, h2, h⟩ := h
  cases h
  rw [newDSS, h1, Outcome.bind_ok, h2]; rfl

/-- C59 is false of the code for a text with a minus sign: the text `-9` is accepted, a session for the document -9 ends with a
signature, and this is refused for -9 and accepted for 9. -/
theorem C59_counterexample :
    ∃ (H : List UInt8 → List UInt8) (SH : Share → List UInt8) (j : Job) (a : Args) (d : DSS) (calls : List Call) (sig : Schnorr.Sig),
      (∀ b, (H b).length = 32) ∧ runSig1 (fun _ => none) 0 ⟨"0", "_", "-9"⟩ = some j ∧ j.doc = -9 ∧ a.msg = j.doc ∧ newDSS H a = .ok d ∧
      signature H (run H SH d calls) = .ok sig ∧ Schnorr.verify H (.pt (sessKey d)) (-9) sig = .err ∧
      Schnorr.verify H (.pt (sessKey d)) 9 sig = .ok () := by
  have hc := exCheck_ok
  rw [exCheck, Bool.and_eq_true, Bool.and_eq_true] at hc
  obtain ⟨_, h4⟩ := (Outcome.isOk_iff _).1 hc.1.2
  obtain ⟨sig, hs, h5⟩ := (Outcome.bind_eq_ok _ _ _).1 h4
  refine ⟨toyHash, exSH, ⟨"0", 0, -9⟩, { exArgs 0 with msg := -9 }, neg (exNode 0), [.partialSig 17, .process (exPartial 1)], sig,
    fun b => by simp [toyHash], by decide +kernel, rfl, rfl, newDSS_neg toyHash (exArgs 0) (exNode 0) exNode_new.1, ?_, ?_, h5⟩
  · rw [C59_sign_lost]; exact hs
  · have h1 := C59_out_of_range toyHash (-9) (.inl (by decide)) (.pt (timesAdd base 5)) sig
    have h2 := Schnorr.verify_ne_panic toyHash (.pt (timesAdd base 5)) (-9) sig
    change Schnorr.verify toyHash (.pt (timesAdd base 5)) (-9) sig = .err
    cases h : Schnorr.verify toyHash (.pt (timesAdd base 5)) (-9) sig with
    | ok u => exact absurd h h1
    | err => rfl
    | panic => exact absurd h h2

/-- The hypotheses of C59 are met: the text `+9` and the session of the example. -/
example : runSig1 (fun _ => none) 0 ⟨"0", "_", "+9"⟩ = some ⟨"0", 0, 9⟩ ∧ HexNum ['9'] 9 ∧ (exArgs 0).msg = 9 := by
  refine ⟨by decide +kernel, (scanAbs_iff _ _).1 (by decide), rfl⟩

/-! An example for C57: two guests; the first attempt gives guest 5 a key that is not on the curve. -/

/-- The effect of the runs of the example. -/
def exWorld : World where
  dkg i o := do
    let id := attemptId 1000000 526000000 i
    let o ← pushOutput o 0 4 id (.key ⟨⟨0, 1⟩, [base]⟩ [0, 1, 2])
    pushOutput o 0 5 id (.key ⟨⟨1, 1⟩, [if i = 0 then null else base]⟩ [2, 0, 1])
  guests i := if i = 0 then [4, 5] else [5, 4]
  shares _ := [5, 4]

theorem exWorld_orders : Orders exWorld [4, 5] := by
  refine ⟨by decide, fun i => ⟨?_, List.Perm.swap _ _ _⟩⟩
  show (if i = 0 then [4, 5] else [5, 4]).Perm [4, 5]
  by_cases h : i = 0
  · rw [if_pos h]
  · rw [if_neg h]; exact List.Perm.swap _ _ _

/-- The keys returned. -/
def exKeys (r : Option (Outcome (Outputs Output × GoMap Int KeyShare))) : Option (Outcome (List (Option KeyShare))) :=
  r.map fun x => x >>= fun y => .ok [y.2.get? 4, y.2.get? 5]

/-- Two attempts are made; with four members there is a panic instead. -/
example : exKeys (longtermLoop exWorld 3 526000000 1 1000000 (initOutputs Output 2 [4, 5])) = none ∧
    exKeys (longtermLoop exWorld 3 526000000 2 1000000 (initOutputs Output 2 [4, 5])) =
      some (.ok [some ⟨⟨0, 1⟩, [base]⟩, some ⟨⟨1, 1⟩, [base]⟩]) ∧
    exKeys (longtermLoop exWorld 4 526000000 2 1000000 (initOutputs Output 2 [4, 5])) = some .panic := by
  decide +kernel

end Verif.Props.Signode
