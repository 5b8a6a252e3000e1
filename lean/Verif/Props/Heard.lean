import Verif.Proofs.RabinHeard
import Verif.Props.RabinRun

/-! C125: a key or a signature comes only after the commitments of all the qualified members; each of them can prevent it. -/
namespace Verif.Props.Heard
open Verif.Rabin Verif.Prot Verif.Spec.Prot Verif.Point Verif.Props Verif.Dkg Verif.Dto Verif.Dss Verif.Spec.Rabin
variable {S : Suite} {R : Choice} {i : Nat} {m : Member}

theorem few (h : Able S R i) : R.keys.length ≤ 2 ^ 32 := by
  have := h.few
  omega

/-- C125 (key). Whatever others send, except for commitments in the name of the member itself and for messages of the kinds that the model leaves out (`Plain`): if a key generation puts out a key with the qualified members `q`, then the member itself is
among them, it has got a message with commitments from each of the others, and the public key is the sum of what all of them committed to, its own secret included. -/
theorem C125_key (h : Able S R i) {k0 : Gen} (h0 : newGen S (R.member i) = .ok k0) {id : String} {self t0 : Int} {hist : List (Ev Dto)}
    {r : Run Dto Obj (Data Gen)} (hr : exec (dkgConf (kyb S (R.member i)) id self R.keys.length) (newRun Dto Obj (newData k0) t0) hist = .ok r)
    (hm : ∀ m ∈ msgs hist, Foreign i m) (_ : ∀ x ∈ msgs hist, Plain i x) {sh : KeyShare} {q : List Int} (ho : .key sh q ∈ r.user.out) :
    (i : Int) ∈ q ∧ ∃ cs : Nat → List Pt, cs i = (R.f i).map (timesAdd base) ∧ (∀ j ∈ q, ∃ b : Nat, j = b ∧ (b = i ∨ Heard (msgs hist) b (cs b))) ∧
      sh.commits.headD null = sumPts (q.map fun j => (cs j.toNat).headD null) := by
  obtain ⟨n', _, hh, _⟩ := held_exec (dkg_hheld id self R.keys.length (few h)) (hst_new (L := msgs hist) h0) (fun _ h => h) hr
  rw [newGen_able h] at h0
  cases h0
  obtain ⟨n, _, hj, _⟩ := held_exec (dkg_held h id self) (jst_new _ rfl) hm hr
  have hn : 8 ≤ n := by
    by_contra hn
    rw [hj.2.2 (by omega)] at ho
    cases ho
  have hn' : 8 ≤ n' := by
    by_contra hn
    rw [hh.key (by omega)] at ho
    cases ho
  rcases dkg_final hr with e | ⟨sh', q', e, _, hk, hq⟩
  · rw [e] at ho; cases ho
  rw [e, List.mem_singleton] at ho
  cases ho
  obtain ⟨g1, g2⟩ := share_sum (m := R.member i) hk
  have hown := hj.1.own (by omega)
  rw [hh.qual (by omega)] at hq
  cases hq
  refine ⟨List.mem_map.2 ⟨i, hown.1, rfl⟩, comsOf r.user.kyb, by rw [comsOf, hown.2]; rfl, fun j hj' => ?_, ?_⟩
  · obtain ⟨b, hb, rfl⟩ := List.mem_map.1 hj'
    exact ⟨b, rfl, hh.coms b _ (g1 b hb)⟩
  · rw [g2, List.map_map]
    rfl

/-- C125 (veto). A key generation that counts `j` among the qualified members puts out nothing unless a message with commitments came from `j`, whatever else came of the kinds
that the model has (`Plain`: a reconstruction could give kyber the commitments, so there must be none). -/
theorem C125_veto_key {k0 : Gen} (h0 : newGen S m = .ok k0) {id : String} {self t0 : Int} {members : Nat} (hn : members ≤ 2 ^ 32) {hist : List (Ev Dto)}
    {r : Run Dto Obj (Data Gen)} (hr : exec (dkgConf (kyb S m) id self members) (newRun Dto Obj (newData k0) t0) hist = .ok r)
    {q : List Int} (hq : r.user.qual = some q) {j : Nat} (hj : (j : Int) ∈ q) (hi : j ≠ m.index) (hno : ∀ x ∈ msgs hist, x.sender = j → ∀ y, x.dto ≠ .commits y)
    (_ : ∀ x ∈ msgs hist, Plain m.index x) :
    r.user.out = [] := by
  obtain ⟨n, _, hh, _⟩ := held_exec (dkg_hheld id self members hn) (hst_new (L := msgs hist) h0) (fun _ h => h) hr
  rcases dkg_final hr with e | ⟨sh, q', e, _, hk, _⟩
  · exact e
  by_cases h8 : n < 8
  · exact hh.key h8
  rw [hh.qual (by omega)] at hq
  cases hq
  obtain ⟨b, hb, e'⟩ := List.mem_map.1 hj
  have : b = j := Int.ofNat.inj e'
  subst this
  rcases hh.coms b _ ((share_sum (m := m) hk).1 b hb) with e | ⟨x, h1, h2, y, _, h3, _⟩
  · exact absurd e hi
  · exact absurd h3 (hno x h1 h2 y)

/-- C125 (veto on a signature). A signing that counts `j` among the qualified members of the random number puts out no signature unless a message with commitments came from `j`, whatever
else came of the kinds that the model has, and whoever else signs. -/
theorem C125_veto_sig {k0 : Gen} (h0 : newGen S m = .ok k0) {id : String} {self t0 : Int} {members : Nat} (hn : members ≤ 2 ^ 32) {hist : List (Ev Dto)}
    {H : List UInt8 → List UInt8} {SH : Share → List UInt8} {env : Env}
    {r : Run Dto Obj (Data Gen)} (hr : exec (dssConf (kyb S m) H SH env id self members) (newRun Dto Obj (newData k0) t0) hist = .ok r)
    {q : List Int} (hq : r.user.qual = some q) {j : Nat} (hj : (j : Int) ∈ q) (hi : j ≠ m.index) (hno : ∀ x ∈ msgs hist, x.sender = j → ∀ y, x.dto ≠ .commits y)
    (_ : ∀ x ∈ msgs hist, Plain m.index x)
    (sig : Schnorr.Sig) : .sig sig ∉ r.user.out := by
  intro hs
  obtain ⟨n, _, hh, _⟩ := held_exec (dss_hheld id self members hn) (hst_new (L := msgs hist) h0) (fun _ h => h) hr
  have h11 : 11 ≤ n := by
    by_contra h
    exact hh.sig (by omega) sig hs
  obtain ⟨d, ⟨k', random, long', doc', q', d0, cs, h1, _⟩, _⟩ :=
    (track_exec (dss_keeps id self members) (newData_signing k0) (pin_exec hr)).user.out sig hs
  have hk' := pin_only (by rw [h1]; simp)
  subst hk'
  rw [pin_at] at h1
  rw [hh.qual (by omega)] at hq
  cases hq
  obtain ⟨b, hb, e'⟩ := List.mem_map.1 hj
  have : b = j := Int.ofNat.inj e'
  subst this
  rcases hh.coms b _ ((share_sum (m := m) h1).1 b hb) with e | ⟨x, h1, h2, y, _, h3, _⟩
  · exact absurd e hi
  · exact absurd h3 (hno x h1 h2 y)

end Verif.Props.Heard
