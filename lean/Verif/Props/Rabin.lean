import Verif.Proofs.Rabin
import Verif.Props.Generation

/-!
Property C116: a generator made like kyber's. That it does what C99 and its followers expect of kyber is proved, not assumed; and so is what it does when
members are not honest.
-/
namespace Verif.Props.Rabin
open Verif.Rabin Verif.Point Verif.Props Verif.Dkg Verif.Dto Verif.Dss Verif.Spec.Rabin Verif.Spec.Generation
variable {S : Suite} {R : Choice} {P : List Nat}

/-- C116 (contract). Among honest members, the generator of any of them does all that `Generates` expects: C99 and what follows from it hold of members
with these generators, whatever their random numbers, signatures, encryptions and hashes are. -/
theorem C116_generates (h : Honest S R P) {i : Nat} (hi : i ∈ P) :
    ∃ k0, newGen S (R.member i) = .ok k0 ∧ ∃ ph, Generates (kyb S (R.member i)) (net S R P) R.keys.length i k0 ph :=
  ⟨_, newGen_eq h hi, _, generates h hi (newGen_eq h hi)⟩

/-- C116 (messages). What honest members make carries its origin and can be sent. -/
theorem C116_proper (h : Honest S R P) (hs : Sent R P) : Proper (net S R P) R.keys.length where
  few := h.few
  on := h.mem
  deal a b ha _ _ := ⟨rfl, (C29_deal ((net S R P).deal a b)).1 (hs.deal a ha b _)⟩
  resp _ _ _ _ _ := ⟨rfl, _, rfl, rfl⟩
  commits a ha := ⟨rfl, (C29_commits ((net S R P).commits a)).1 fun p hp => by
    obtain ⟨x, hx, rfl⟩ := List.mem_map.1 hp
    exact sendable_times (hs.commits a ha x hx)⟩

/-- C116 (key). The secret is the sum of the secrets of the members in `P`; the shares of the members are values of one polynomial with it, and
they all have the same commitments to this polynomial. -/
theorem C116_key (i : Nat) : ((net S R P).key i).commits = (total R P).map (timesAdd base) ∧ ((net S R P).key i).share.I = i ∧
    (((net S R P).key i).share.V - peval (total R P) (i + 1)) % secp256k1N = 0 ∧
    (0 < R.T → (total R P).headD 0 = (P.map fun a => (R.f a).headD 0).sum) := by
  refine ⟨rfl, rfl, ?_, fun hT => ?_⟩
  · show (peval (total R P) (i + 1) % secp256k1N - peval (total R P) (i + 1)) % secp256k1N = 0
    rw [Int.emod_sub_emod, Int.sub_self]; rfl
  · obtain ⟨n, hn⟩ : ∃ n, R.T = n + 1 := ⟨R.T - 1, by omega⟩
    rw [total, hn, List.range_succ_eq_map, List.map_cons, List.headD_cons]
    congr 1
    refine List.map_congr_left fun a _ => ?_
    cases R.f a <;> rfl

/-- C116 (run). Given all that honest members say, the generator finishes with this share. -/
theorem C116_run (h : Honest S R P) {i : Nat} (hi : i ∈ P) :
    ∃ k, after S R P i R.f = .ok k ∧ finished (R.member i) k = true ∧ distKeyShare (R.member i) k = .ok ((net S R P).key i) :=
  after_spec h hi (fun j hj => (h.polys j hj).1) (fun _ _ => rfl) rfl

/-- The runs of members with these generators. -/
structure Runs (S : Suite) (R : Choice) (P : List Nat) (id : String) (pc : Int) where
  c : Nat → Prot.Conf Dto Obj (Data Gen)
  t0 : Nat → Int
  h : Nat → List (Prot.Ev Dto)
  r : Nat → Prot.Run Dto Obj (Data Gen)
  conf : ∀ i ∈ P, Spec.Generation.Runs (c i) (kyb S (R.member i)) id i R.keys.length ∧ (c i).pc = pc
  run : ∀ i ∈ P, Prot.exec (c i) (Prot.newRun Dto Obj (newData (first S R i)) (t0 i)) (h i) = .ok (r i)

/-- As a group of C99. -/
def Runs.group (h : Honest S R P) {id : String} {pc : Int} (w : Runs S R P id pc) : Generation.Group Gen R.keys.length id pc (net S R P) :=
  ⟨w.c, fun i => kyb S (R.member i), first S R, phases S R P, w.t0, w.h, w.r, w.conf, fun _ hi => generates h hi (newGen_eq h hi), w.run⟩

/-- C116 (together). Honest members that run the generation with these generators, accept only what they sent each other, handle all of it in time, and get to
the last stage end with their shares of the sum of their secrets: nothing is assumed of the generators. -/
theorem C116_together (h : Honest S R P) (hs : Sent R P) {id : String} {pc : Int} (w : Runs S R P id pc) (hc : Generation.Closed (w.group h))
    (ht : Generation.Timely (w.group h)) (h8 : ∀ i ∈ P, 8 ≤ Spec.Prot.stageOf (w.r i).log) :
    ∀ i ∈ P, (∀ l1 l2, (w.r i).log = l1 ++ .abandoned :: l2 → pc = 1 ∧ 9 ≤ Spec.Prot.stageOf l1) ∧
      ∃ q o, (w.r i).user.out = .key ⟨⟨i, peval (total R P) (i + 1) % secp256k1N⟩, (total R P).map (timesAdd base)⟩ q :: o ∧
        q.Nodup ∧ (∀ x, x ∈ q ↔ ∃ a ∈ P, x = (a : Int)) ∧ (pc ≠ 1 → o = []) := by
  intro i hi
  obtain ⟨_, _, h1, q, o, _, h2, h3, h4, _⟩ := Generation.C99_together (C116_proper h hs) (w.group h) hc ht h8 i hi
  exact ⟨h1, q, o, h3, h2.1, h2.2, h4⟩

/-- C116 (any messages). Whatever deals, responses and commitments a generator is told once it has made its deals, and in whatever order it is called (by the calls that the model
has, see `Model/Rabin`): if it gives a share of the key, the share is the
value of the polynomial to which its own commitments belong. Nobody can give a member a share that does not fit the public key it ends with. -/
theorem C116_fits {m : Member} {fs : List Nat} (hf : m.f = fs.map Int.ofNat) {k0 : Gen}
    (hown : ∀ pub d, m.participants[m.index]? = some pub → k0.deals[m.index]? = some d →
      S.decrypt m.long pub m.participants (m.encrypt m.index d) = some d)
    (h0 : newGen S m = .ok k0) {ds : List (Int × Deal)} (hd : (deals S m k0).2 = .ok ds) (cs : List Spec.Rabin.Call) {sh : KeyShare}
    (hk : distKeyShare m (cs.foldl (Spec.Rabin.Call.run S m) (deals S m k0).1) = .ok sh) :
    sh.share.I = m.index ∧ ∃ ls : List Nat, sh.commits = ls.map (timesAdd base) ∧ (sh.share.V - peval ls (m.index + 1)) % secp256k1N = 0 := by
  have x := Verif.Rabin.Inv.run (S := S) hf cs (Verif.Rabin.Inv.first hf hown h0 hd)
  rw [distKeyShare] at hk
  split at hk
  · obtain ⟨⟨v, pub⟩, e1, e2⟩ := (Outcome.bind_eq_ok _ _ _).1 hk
    dsimp only at e2
    split at e2
    · cases e2
    · rename_i p
      cases e2
      obtain ⟨ls, h1, h2⟩ := x.sum _ _ _ _ (fun _ => rfl) (fun _ h => by cases h) e1 p rfl
      exact ⟨rfl, ls, h1, h2⟩
  · cases hk

/-- C116 (one liar). The members need not end with the same public key: commitments are checked by each member for its own share only, and they are sent to each
member. If `j` tells `i` commitments to another polynomial with the same value at `i + 1`, and tells the others those to its own, then `i` finishes too, with
a share as before, and with another public key than the others, unless `c · (i + 1)` is a multiple of `N`. -/
theorem C116_split (h : Honest S R P) {i j c : Nat} (hi : i ∈ P) (hj : j ∈ P) (hij : i ≠ j) (hc : c * (i + 1) % secp256k1N ≠ 0) :
    ∃ k sh, after S R P i (shifted R j i c) = .ok k ∧ finished (R.member i) k = true ∧ distKeyShare (R.member i) k = .ok sh ∧
      sh.share = ((net S R P).key i).share ∧ sh.commits.headD null ≠ ((net S R P).key i).commits.headD null := by
  obtain ⟨k, h1, h2, h3⟩ := after_spec h hi (F := shifted R j i c) (fun a ha => (shifted_spec h hi ha).1) (fun a ha => (shifted_spec h hi ha).2)
    (by rw [shifted, if_neg hij])
  refine ⟨k, _, h1, h2, h3, rfl, ?_⟩
  exact shift_head h hi hj hc

/-- C116 (silence). If `SetTimeout` does not reach the responses of the dealer, then a member from which it has no response keeps it from making its
commitments, with any number of others: no key comes of the generation as long as one member is silent. -/
theorem C116_silent (hS : S.dealerTimeout = false) (m : Member) (k : Gen) (v : Nat) (hv : v < m.participants.length) (hn : k.dealer.resps.get? v = none) :
    (secretCommits S m (setTimeout S m k)).2 = .err := by
  rw [secretCommits, if_neg]
  show ¬ dealCertified m.participants.length (if S.dealerTimeout then _ else k.dealer) = true
  rw [hS]
  intro hd
  rw [dealCertified, Bool.and_eq_true, Bool.and_eq_true, List.all_eq_true] at hd
  have := hd.1.2 v (List.mem_range.2 hv)
  rw [if_neg (by decide), hn] at this
  cases this

end Verif.Props.Rabin
