import Verif.Proofs.Hiding
import Verif.Props.RabinExample
import Mathlib.Logic.Equiv.List
import Mathlib.Logic.Encodable.Basic

/-!
Property C117: what fewer members than the threshold see of another one, before it publishes the commitments to its polynomial, says nothing about its secret.
-/
namespace Verif.Props.Hiding
open Verif.Rabin Verif.Hiding Verif.Point Verif.Props Verif.Dkg Verif.Dto Verif.Dss Verif.Spec.Rabin Verif.Spec.Hiding

variable {S : Suite} {m : Member} {f g f' g' : List Nat}

/-- The threshold is possible, the keys are few, the own deals can be read, and the second base is not the identity. -/
structure Usual (S : Suite) (m : Member) : Prop where
  low : 2 ≤ m.T
  high : m.T ≤ m.participants.length
  few : m.participants.length < secp256k1N
  mem : m.index < m.participants.length
  own : ∀ pk, m.participants[m.index]? = some pk → ∀ d, S.decrypt m.long pk m.participants (m.encrypt m.index d) = some d
  second : IsElt (S.deriveH m.participants) ∧ S.deriveH m.participants ≠ null

/-- C117 (deals hide the secret). Take any coefficients of a member, any `B` of fewer members than the threshold, and any number `s`. There are coefficients with
the secret `s` with which those in `B` see the same, whatever they and others send except for complaints about the deals of the member (`Ask.Plain`), by which kyber
discloses deals: the same deals for them, the same answers, the same members
qualified. So nothing they can compute from it tells one secret from another. -/
theorem C117_hides (h : Usual S m) (hf : f.length = m.T) (hg : g.length = m.T) {B : List Nat} (hB : B.length < m.T)
    (hm : ∀ b ∈ B, b < m.participants.length) (s : Nat) :
    ∃ f' g' : List Nat, f'.length = m.T ∧ g'.length = m.T ∧ f'.headD 0 % secp256k1N = s % secp256k1N ∧
      ∀ as, (∀ a ∈ as, a.Plain m.index) → ∃ v, view S (with_ m f g) B as = .ok v ∧ view S (with_ m f' g') B as = .ok v := by
  have hb : ∀ b ∈ B, ((b : Fn) + 1) ≠ 0 := by
    intro b hb e
    have e2 : ((b + 1 : Nat) : Fn) = 0 := by push_cast; exact e
    have := Nat.le_of_dvd (by omega) ((ZMod.natCast_eq_zero_iff _ _).1 e2)
    have := hm b hb
    have := h.few
    omega
  obtain ⟨f', g', h1, h2, h3, h4, h5⟩ := others h.second.1 h.second.2 f g hf hg hB hb s
  refine ⟨f', g', h1, h2, h3, fun as _ => ?_⟩
  obtain ⟨pub, hp, _⟩ := log_base.mul m.long
  obtain ⟨pk, hpk⟩ : ∃ pk, m.participants[m.index]? = some pk := ⟨_, List.getElem?_eq_getElem h.mem⟩
  have hc : coms S m f g = coms S m f' g' := h4.symm
  have ho := h.own _ hpk
  refine ⟨_, view_start h.second.1 (hf.trans hg.symm) h.low h.high h.mem hp hpk (ho _) B as, ?_⟩
  rw [view_start h.second.1 (h1.trans h2.symm) h.low h.high h.mem hp hpk (ho _) B as]
  obtain ⟨ha, hs⟩ := (deals_alike (pub := pub) hc).told (S := S) (m := m) (f := f) (g := g) (f' := f') (g' := g') as
  have hs : (told S (with_ m f g) (dealt S m pub f g) as).2 = (told S (with_ m f' g') (dealt S m pub f' g') as).2 := hs
  have hq := ha.qual (m := m) (f := f) (g := g) (f' := f') (g' := g')
  have hd := ha.dealer
  rw [otherDeals_alike hc fun b hb => ⟨(h5 b hb).1.symm, (h5 b hb).2.symm⟩, hs]
  refine congrArg Outcome.ok ?_
  rw [View.mk.injEq]
  exact ⟨rfl, rfl, hq.symm, congrArg (dealCertified m.participants.length) hd.symm⟩

/-- C117 (as many as the threshold). The threshold is exact: the deals for `T` members fix the secret. -/
theorem C117_fixed {k k' : Gen} (hf : f.length = m.T) (hf' : f'.length = m.T) (few : m.participants.length < secp256k1N)
    (hk : newGen S (with_ m f g) = .ok k) (hk' : newGen S (with_ m f' g') = .ok k') {B : List Nat} (hn : B.Nodup) (hB : m.T ≤ B.length)
    (hs : ∀ b ∈ B, ∃ d d', k.deals[b]? = some d ∧ k'.deals[b]? = some d' ∧ d.secShare = d'.secShare) :
    f.headD 0 % secp256k1N = f'.headD 0 % secp256k1N :=
  fixed_head hf hf' few hk hk' hn hB hs

/-- C117 (publication). The commitments that the member publishes later fix its secret: it is from then on that only the difficulty of logarithms hides it. -/
theorem C117_published {k k' : Gen} (hk : newGen S (with_ m f g) = .ok k) (hk' : newGen S (with_ m f' g') = .ok k')
    (hs : k.secret = k'.secret) : f.headD 0 % secp256k1N = f'.headD 0 % secp256k1N :=
  published_head hk hk' hs

/-! An encryption that can be read. -/

/-- The parts of a deal. -/
def parts (d : VssDeal) : List Nat × (Int × Int) × (Int × Int) × Nat × List (Int × Int) :=
  (d.sessionID.map UInt8.toNat, (d.secShare.I, d.secShare.V), (d.rndShare.I, d.rndShare.V), d.T, d.commitments.map fun p => (p.X, p.Y))

/-- The deal with these parts. -/
def ofParts (x : List Nat × (Int × Int) × (Int × Int) × Nat × List (Int × Int)) : VssDeal :=
  ⟨x.1.map UInt8.ofNat, ⟨x.2.1.1, x.2.1.2⟩, ⟨x.2.2.1.1, x.2.2.1.2⟩, x.2.2.2.1, x.2.2.2.2.map fun p => ⟨p.1, p.2⟩⟩

theorem ofParts_parts (d : VssDeal) : ofParts (parts d) = d := by
  obtain ⟨a, ⟨b, c⟩, ⟨d, e⟩, f, g⟩ := d
  simp [ofParts, parts, List.map_map, Function.comp_def]

/-- A suite with which every deal can be read from its number, and a member. -/
def exS : Suite :=
  { Rabin.exS0 true with decrypt := fun _ _ _ e => (Encodable.decode e.signature.length).map ofParts }

/-- The second member of C116's example, with this encryption. -/
def exM : Member :=
  { Rabin.exR.member 1 with encrypt := fun _ d => ⟨base, List.replicate (Encodable.encode (parts d)) 0, [], []⟩ }

theorem ex_encrypt (i : Nat) (d : VssDeal) : (exM.encrypt i d).signature = List.replicate (Encodable.encode (parts d)) 0 := rfl

theorem ex_decrypt (k : Int) (p : Pt) (l : List Pt) (e : EncryptedDeal) : exS.decrypt k p l e = (Encodable.decode e.signature.length).map ofParts := rfl

theorem ex_second (l : List Pt) : exS.deriveH l = timesAdd base 13 := rfl

theorem ex_usual : Usual exS exM where
  low := Nat.le_refl 2
  high := by decide
  few := by show 3 < secp256k1N; decide
  mem := by decide
  own pk _ d := by rw [ex_decrypt, ex_encrypt, List.length_replicate, Encodable.encodek, Option.map_some, ofParts_parts]
  second := by
    rw [ex_second]
    refine ⟨(exists_log_iff _).2 ⟨_, log_base_nat 13⟩, fun e => ?_⟩
    have := log_base_nat 13
    rw [e] at this
    exact absurd ((ZMod.natCast_eq_zero_iff _ _).1 (this.unique_right log_null)) (by decide)

/-- Member 0 sees of member 1 with the secret 4 what it might see with the secret 1000. -/
example : ∃ f' g' : List Nat, f'.length = 2 ∧ g'.length = 2 ∧ f'.headD 0 % secp256k1N = 1000 % secp256k1N ∧
    ∀ as, (∀ a ∈ as, a.Plain 1) → ∃ v, view exS (with_ exM [4, 1] [5, 3]) [0] as = .ok v ∧ view exS (with_ exM f' g') [0] as = .ok v :=
  C117_hides ex_usual rfl rfl (by decide) (by decide) 1000

/-- Coefficients given by the theorem, up to multiples of `N`: `1000 - 995 x`, with the value 5 at 1 too. -/
example : peval [4, 1] 1 % secp256k1N = peval [1000, secp256k1N - 995] 1 % secp256k1N ∧
    peval [4, 1] 3 % secp256k1N ≠ peval [1000, secp256k1N - 995] 3 % secp256k1N := by decide

theorem times_mod (x n : Nat) (h : (n : Fn) = 0) : timesAdd base (x + n) = timesAdd base x := by
  have h2 := log_base_nat (x + n)
  rw [Nat.cast_add, h, add_zero] at h2
  exact h2.unique_left (log_base_nat x)

/-- Two members' deals from coefficients that differ by `n`. -/
theorem ex_same (n : Nat) (h : (n : Fn) = 0) : ∃ k k' : Gen, newGen exS (with_ exM [4, 1] [5, 3]) = .ok k ∧ newGen exS (with_ exM [4 + n, 1] [5, 9]) = .ok k' ∧
    (∀ b ∈ [2, 0], ∃ d d', k.deals[b]? = some d ∧ k'.deals[b]? = some d' ∧ d.secShare = d'.secShare) ∧ k.secret = k'.secret := by
  obtain ⟨pub, hp, _⟩ := log_base.mul exM.long
  have e : ∀ z : Int, peval [4, 1] z % secp256k1N = peval [4 + n, 1] z % secp256k1N := by
    intro z
    refine (ZMod.intCast_eq_intCast_iff' _ _ secp256k1N).1 ?_
    simp only [peval]
    push_cast
    rw [h]
    ring
  have e1 : ∀ f g : List Nat, f.length = g.length → newGen exS (with_ exM f g) = .ok (start exS exM pub f g) :=
    fun _ _ h => newGen_start ex_usual.second.1 h hp
  refine ⟨start exS exM pub [4, 1] [5, 3], start exS exM pub [4 + n, 1] [5, 9], e1 [4, 1] [5, 3] rfl, e1 [4 + n, 1] [5, 9] rfl, ?_, ?_⟩
  case refine_2 =>
    show [timesAdd base 4, timesAdd base 1] = [timesAdd base (4 + n), timesAdd base 1]
    rw [times_mod 4 n h]
  intro b hb
  have hb : b = 2 ∨ b = 0 := by simpa using hb
  rcases hb with rfl | rfl
  · exact ⟨dealFor exS exM pub [4, 1] [5, 3] 2, dealFor exS exM pub [4 + n, 1] [5, 9] 2, rfl, rfl, congrArg (Share.mk 2) (e _)⟩
  · exact ⟨dealFor exS exM pub [4, 1] [5, 3] 0, dealFor exS exM pub [4 + n, 1] [5, 9] 0, rfl, rfl, congrArg (Share.mk 0) (e _)⟩

/-- Deals for two members, and commitments, that do not tell coefficients apart which differ by `N`. -/
example : ([4, 1].headD 0) % secp256k1N = ([4 + secp256k1N, 1].headD 0) % secp256k1N := by
  obtain ⟨k, k', h1, h2, h3, h4⟩ := ex_same secp256k1N (ZMod.natCast_self _)
  have := C117_published h1 h2 h4
  exact C117_fixed (m := exM) (B := [2, 0]) rfl rfl ex_usual.few h1 h2 (by decide) (Nat.le_refl 2) h3

end Verif.Props.Hiding
