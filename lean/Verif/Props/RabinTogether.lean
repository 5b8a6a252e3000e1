import Verif.Props.RabinProgram
import Verif.Props.Rabin
import Verif.Props.Quorum
import Verif.Props.KeyAbsent

/-!
Property C120: the tool from the first start to a signature (C103, C104) with kyber's generators. Nothing is assumed of what they do.
-/
namespace Verif.Props.RabinTogether
open Verif.Rabin Verif.Prot Verif.Layout Verif.Dto Verif.Dss Verif.Dkg Verif.Point Verif.Signode Verif.Tables Verif.Start Verif.Props
open Verif.Spec.Rabin Verif.Spec.Generation Verif.Spec.Signode
open Verif.Props.Start Verif.Props.KeyStart
open Verif.Props.RabinProgram (Members Fine runsSafe_key)
variable {ι : Type} {S : Suite} {R : Choice} {P : List Nat}

/-- What the members in `P` choose is as it should be: polynomials with as many coefficients as the threshold, signatures that can be checked, encryptions
that can be read, and commitments and keys that can be sent; and it does not matter, or nobody is missing, what the dealers wait for. -/
structure Fair (S : Suite) (R : Choice) (P : List Nat) : Prop where
  low : 2 ≤ R.T
  few : R.keys.length ≤ 2 ^ 32
  polys : ∀ a ∈ P, (R.f a).length = R.T ∧ (R.g a).length = R.T
  second : IsElt (S.deriveH R.keys)
  sign : ∀ a ∈ P, ∀ b, S.verify (R.key a) b (R.sign a b) = true
  encrypt : ∀ a ∈ P, ∀ b ∈ P, S.decrypt (R.long b) (R.key a) R.keys (R.encrypt a b (dealOf S R a b)) = some (dealOf S R a b)
  iter : ∀ a ∈ P, ∀ l, (R.iter a l).Perm l
  timeout : S.dealerTimeout = true ∨ ∀ a < R.keys.length, a ∈ P
  sent : Sent R P

/-- The processes that were started have generators of kyber for their runs `id` of protocol `pc`, made of the keys and the threshold in their files,
the secrets of their guests, and the choices of these. -/
structure Kyber (st : ι → Started) (rest : ι → Rest Gen) (objs : ι → List Registry.Obj) (S : Suite) (R : Choice) (pc : Int) (id : String) : Prop where
  keys : ∀ p, memberPubs (st p).layout.members = R.keys
  threshold : ∀ p, (st p).threshold = R.T
  secret : ∀ p x e, (st p).guests.get? x = some e → R.long x = e.sec
  gen : ∀ p (x r : Nat) o, x ∈ (st p).guests.keys → (objs p)[r]? = some o → o.key = ⟨pc, x, id⟩ →
    (rest p).y x r = kyb S (R.member x) ∧ newGen S (R.member x) = .ok ((rest p).gen x r)

/-- Members whose processes were started with their keys are honest. -/
theorem honest {w : ι → World Gen} {a : ι → Cmd} {entries : ι → List Host} {st : ι → Started} (hs : ∀ p, SortContract (w p).srt)
    (hc : ∀ p, Compiled (a p) (entries p)) (hst : ∀ p, start (w p) (a p) = .ok (st p)) {rest : ι → Rest Gen} {objs : ι → List Registry.Obj}
    {pc : Int} {id : String} (hk : Kyber st rest objs S R pc id) (hf : Fair S R P) (hn : P.Nodup) (hP : ∀ x ∈ P, ∃ p, x ∈ (st p).guests.keys)
    (hT : R.T ≤ P.length) : Spec.Rabin.Honest S R P := by
  have key : ∀ x ∈ P, x < R.keys.length ∧ mul (R.long x) base = .ok (R.key x) := by
    intro x hx
    obtain ⟨p, hp⟩ := hP x hx
    obtain ⟨e, he⟩ := Option.isSome_iff_exists.1 ((GoMap.get?_isSome_iff _ _).2 hp)
    obtain ⟨_, _, h3⟩ := guest_facts (hs p) (hc p) (hst p)
    obtain ⟨_, ⟨m, h4, h5, _⟩, _⟩ := h3 x e he
    have h6 : R.keys[x]? = some m.pub := by
      rw [← hk.keys p, memberPubs, List.getElem?_map, h4]; rfl
    refine ⟨(List.getElem?_eq_some_iff.1 h6).1, ?_⟩
    rw [hk.secret p x e he, Choice.key, List.getD_eq_getElem?_getD, h6]
    exact h5
  exact ⟨hn, fun x hx => (key x hx).1, hf.low, hT, hf.few, fun x hx => (key x hx).2, hf.polys, hf.second, hf.sign, hf.encrypt, hf.iter, hf.timeout⟩

/-- The sum of the polynomials has no coefficient that is zero. -/
def NoZero (R : Choice) (P : List Nat) : Prop := ∀ x ∈ total R P, x % secp256k1N ≠ 0

theorem total_length : (total R P).length = R.T := by rw [total, List.length_map, List.length_range]

theorem is_share (x : Nat) : IsShare (total R P) x ((net S R P).key x) := by
  refine ⟨?_, rfl, ?_⟩
  · have h : (0 : Int) < secp256k1N := by decide
    exact ⟨Int.emod_nonneg _ (by omega), Int.emod_lt_of_pos _ h⟩
  · rw [Int.toNat_natCast]
    show (peval (total R P) (x + 1) % secp256k1N - peval (total R P) (x + 1)) % secp256k1N = 0
    rw [Int.emod_sub_emod, Int.sub_self]; rfl

section
variable {t : Cast ι Gen} {i n : Nat} {d : Int} (ht : Meeting t i n d) (hk : Kyber t.st t.rest (fun p => (t.s p).prog.node.reg.objs) S R 0 (idOf d i))
  (hf : Fair S R P)
include ht hk hf

omit hf in
theorem count (p : ι) : R.keys.length = n := by
  rw [← hk.keys p, memberPubs, List.length_map,
    member_count (ht.punctual p).sorts (ht.punctual p).compiled (ht.punctual p).start, ht.files p]

theorem generating (hn : P.Nodup) (hP : ∀ x, x ∈ P ↔ ∃ p, x ∈ (t.st p).guests.keys) (hT : R.T ≤ P.length) :
    Proper (net S R P) n ∧ Spec.KeyProgram.Generating t.crew (net S R P) n (idOf d i) := by
  have hh : Spec.Rabin.Honest S R P := honest (fun p => (ht.punctual p).sorts) (fun p => (ht.punctual p).compiled) (fun p => (ht.punctual p).start)
    hk hf hn (fun x hx => (hP x).1 hx) hT
  obtain ⟨x0, hx0⟩ := List.exists_mem_of_length_pos (l := P) (by have := hf.low; omega)
  obtain ⟨p, _⟩ := (hP x0).1 hx0
  have hn := count ht hk p
  have hp := Rabin.C116_proper hh hf.sent
  rw [hn] at hp
  refine ⟨hp, fun x => ?_, fun q x r o hx ho e => ?_⟩
  · refine ⟨fun h => ?_, fun ⟨q, h⟩ => ?_⟩
    · obtain ⟨q, hq⟩ := (hP x).1 h
      exact ⟨q, mem_guests.2 hq⟩
    · exact (hP x).2 ⟨q, mem_guests.1 h⟩
  · have hx' := mem_guests.1 hx
    obtain ⟨h1, h2⟩ := hk.gen q x r o hx' ho e
    show ∃ ph, Generates ((t.rest q).y x r) _ n x ((t.rest q).gen x r) ph
    obtain ⟨k0, h5, ph, h6⟩ := Rabin.C116_generates hh ((hP x).2 ⟨q, hx'⟩)
    rw [hn] at h6
    rw [h1]
    rw [h2] at h5
    rw [Outcome.ok.inj h5]
    exact ⟨ph, h6⟩

end

theorem all_generating {t : Cast ι Gen} {i n : Nat} {d : Int} (ht : Together t i n d)
    (hk : Kyber t.st t.rest (fun p => (t.s p).prog.node.reg.objs) S R 0 (idOf d i)) (hf : Fair S R (List.range n)) (hT : R.T ≤ n) :
    Proper (net S R (List.range n)) n ∧ Spec.KeyProgram.Generating t.crew (net S R (List.range n)) n (idOf d i) := by
  refine generating ht.toMeeting hk hf List.nodup_range (fun x => ⟨fun h => ht.hosts x (List.mem_range.1 h), fun ⟨q, h⟩ => ?_⟩)
    (by rw [List.length_range]; exact hT)
  obtain ⟨y, h1, h2⟩ := (C100_on_schedule ht.toMeeting).guests q x (mem_guests.2 h)
  rw [Int.ofNat.inj h2]; exact List.mem_range.2 h1

theorem savable (h : NoZero R P) (h2 : 2 ≤ R.T) : Spec.KeyProgram.Savable (net S R P) n := by
  intro x _
  refine ⟨?_, ?_⟩
  · show (total R P).map (timesAdd base) ≠ []
    rw [Ne, List.map_eq_nil_iff, ← List.length_eq_zero_iff, total_length]
    omega
  · intro p hp
    obtain ⟨k, h1, rfl⟩ := List.mem_map.1 (show p ∈ (total R P).map (timesAdd base) from hp)
    have hl := log_timesAdd log_base k
    rw [mul_one] at hl
    rw [hl.onCurve_iff, Ne, ZMod.natCast_eq_zero_iff, Nat.dvd_iff_mod_eq_zero]
    exact h k h1

/-- C120 (keys). Let processes with all members as guests between them be started without long-term keys, as in C103, with a network that works and with
nothing late, and let their generators be kyber's. Then, on complete messages, whoever sends them, a process that has guests does not panic, and when it
has nothing left to do it has saved shares of one key for its guests: the sum of what the members chose. -/
theorem C120_keys [DecidableEq ι] {t : Cast ι Gen} {i n : Nat} {d : Int} (ht : Together t i n d) {ks : List Pt} (hwi : Wired t.a t.entries t.st ks)
    {h : List (Network.Ev ι Verif.KeyProgram.Ev)} (ho : t.Online (idOf d i) h)
    (hk : Kyber t.st t.rest (fun p => (t.s p).prog.node.reg.objs) S R 0 (idOf d i)) (hf : Fair S R (List.range n)) (hT : R.T ≤ n)
    (hz : NoZero R (List.range n)) (p : ι) (hne : (t.st p).guests.keys ≠ []) {R' : Int → Nat → Choice} {T' : Nat}
    (hy : Members (programCfg (t.st p) (t.rest p)) S R' T') (hm : ∀ m, .prog (.net m) ∈ t.h p → Fine m) :
    (∀ e, Verif.KeyProgram.step (keyCfg (t.st p) (t.rest p)) (t.s p) e ≠ .panic) ∧
    (Spec.KeyProgram.Settled (keyCfg (t.st p) (t.rest p)) (t.s p) → ∃ (lts : GoMap Int KeyShare) (f : GoMap Int DksDTO), (t.s p).file = some f ∧
      saveLongterms lts = .ok f ∧ lts.keys.Perm ((t.st p).guests.keys.map fun x : Nat => (x : Int)) ∧
      ∀ x ∈ (t.st p).guests.keys, lts.get? (x : Int) = some ⟨⟨x, peval (total R (List.range n)) (x + 1) % secp256k1N⟩, (total R (List.range n)).map (timesAdd base)⟩) := by
  obtain ⟨h1, h2⟩ := all_generating ht hk hf hT
  refine started_safe ht h1 h2 (C103_carried ht.toMeeting hwi ho) (savable hz hf.low) p hne (runsSafe_key hy ?_)
  rintro m (hx | ⟨g, id, rfl⟩)
  · exact hm m hx
  · exact ⟨trivial, fun _ _ x hx => by cases hx⟩

/-- C120 (a member is missing). Let processes be started without long-term keys, with a network that works, with nothing late and with kyber's generators, which
do not wait for deals that never come, and let them have at least as many guests as the threshold; but let some member not be among them. Then no process gets
long-term keys: 525 ms after the start of the attempt each one that has guests panics, on complete messages, and nothing else is left for it to do. -/
theorem C120_absent [DecidableEq ι] {t : Cast ι Gen} {i n : Nat} {d : Int} (ht : Meeting t i n d) {ks : List Pt} (hwi : Wired t.a t.entries t.st ks)
    {h : List (Network.Ev ι Verif.KeyProgram.Ev)} (ho : t.Online (idOf d i) h)
    (hk : Kyber t.st t.rest (fun p => (t.s p).prog.node.reg.objs) S R 0 (idOf d i)) (hn : P.Nodup) (hP : ∀ x, x ∈ P ↔ ∃ p, x ∈ (t.st p).guests.keys)
    (hf : Fair S R P) (hT : R.T ≤ P.length) {x : Nat} (hx : x < n) (hno : x ∉ P)
    (p : ι) (hne : (t.st p).guests.keys ≠ []) {R' : Int → Nat → Choice} {T' : Nat}
    (hy : Members (programCfg (t.st p) (t.rest p)) S R' T') (hm : ∀ m, .prog (.net m) ∈ t.h p → Fine m) :
    (t.s p).file = none ∧ (t.s p).prog.node.fw.now = d / 1000000 + 580 + 1525 * i ∧
    ((∀ e, Spec.KeyProgram.own e = true → ∀ s', Verif.KeyProgram.step (keyCfg (t.st p) (t.rest p)) (t.s p) e ≠ .ok s') →
      ∃ x ∈ (t.st p).guests.keys, Verif.KeyProgram.step (keyCfg (t.st p) (t.rest p)) (t.s p) (.main (x : Int)) = .panic) := by
  obtain ⟨h1, h2⟩ := generating ht hk hf hn hP hT
  refine absent_safe ht hwi ho h1 h2 hx (fun q hq => hno ((hP x).2 ⟨q, hq⟩)) p hne (runsSafe_key hy ?_)
  rintro m (hx | ⟨g, id, rfl⟩)
  · exact hm m hx
  · exact ⟨trivial, fun _ _ x hx => by cases hx⟩

/-- C120 (any quorum). Let processes make long-term keys together as in `C120_keys`. Then any set `A` of them with guests `P`, at least as many as the threshold,
can sign without the others: when those in `A` are started again with their files, with a network that works between them, with nothing late and with
kyber's generators, they have printed one signature for all their guests 650 ms after the start of a request, and it verifies under the public key of the sum of the
secrets that all members had chosen. -/
theorem C120_any_quorum [DecidableEq ι] {t : Cast ι Gen} {i n : Nat} {d : Int} (ht : Together t i n d) {ks : List Pt} (hwi : Wired t.a t.entries t.st ks)
    {h0 : List (Network.Ev ι Verif.KeyProgram.Ev)} (ho : t.Online (idOf d i) h0)
    (hk : Kyber t.st t.rest (fun p => (t.s p).prog.node.reg.objs) S R 0 (idOf d i)) (hf : Fair S R (List.range n)) (hT : R.T ≤ n)
    (hz : NoZero R (List.range n)) (hne : ∀ p, (t.st p).guests.keys ≠ [])
    (hq : ∀ p, Spec.KeyProgram.Settled (keyCfg (t.st p) (t.rest p)) (t.s p)) :
    ∃ f : ι → GoMap Int DksDTO, (∀ p, (t.s p).file = some (f p)) ∧
      ∀ (A : Finset ι) (w : A → World Gen) (time : A → String) (_ : ∀ p : A, Again (t.w p) (w p) (time p)),
        ∃ st : A → Started, (∀ p : A, start (w p) (signCmd (t.a p) (f p) (time p)) = .ok (st p) ∧ (st p).guests = (t.st p).guests) ∧
          ∀ (rest : A → Rest Gen) (h : A → List Program.Ev) (s : A → Program.Sys Gen) (j : Job) (P : List Nat) (S' : Suite) (R' : Choice)
            (H : List UInt8 → List UInt8) (SH : Share → List UInt8) (_ : ∀ b, (H b).length = 32) (_ : ∀ p, (rest p).H = H ∧ (rest p).SH = SH)
            (_ : ∀ p, InTime (programCfg (st p) (rest p)) (h p) (s p) j) (_ : 0 ≤ j.doc ∧ j.doc < 2 ^ 256)
            (_ : P.Nodup) (_ : ∀ x, x ∈ P ↔ ∃ p ∈ A, x ∈ (t.st p).guests.keys) (_ : R.T ≤ P.length) (_ : R'.T = R.T)
            (_ : Kyber st rest (fun p => (s p).node.reg.objs) S' R' 1 (jobId j)) (_ : Fair S' R' P)
            (h1 : List (Network.Ev A Program.Ev)) (_ : (t.again (Subtype.val : A → ι) f w time st rest h s).Online j h1),
            ∃ sig, Schnorr.verify H (.pt (timesAdd base ((List.range n).map fun a => (R.f a).headD 0).sum)) j.doc sig = .ok () ∧
              ∀ p : A, ∃ b ∈ (s p).jobs, b.job = j ∧ b.pc = .ended ∧
                b.lines.Perm ((t.st p).guests.keys.map fun x : Nat => ((x : Int), some sig)) := by
  obtain ⟨g1, g2⟩ := all_generating ht hk hf hT
  obtain ⟨f, hf1, hf2⟩ := C104_any_quorum ht hwi ho g1 g2 (savable hz hf.low) hne hq (ls := total R (List.range n)) (fun x _ => is_share x)
    (T := R.T) hk.threshold (by rw [total_length])
  refine ⟨f, hf1, fun A w time hag => ?_⟩
  obtain ⟨st, h1, h2⟩ := hf2 A w time hag
  refine ⟨st, h1, fun rest h s j P S' R' H SH h32 hH hin hdoc hPn hP hPT hTT hk' hf' h3 hon => ?_⟩
  rw [← (Rabin.C116_key (S := S) (R := R) (P := List.range n) 0).2.2.2 (by have := hf.low; omega)]
  have hcom : ∀ p : A, Compiled (signCmd (t.a p) (f p) (time p)) (t.entries p) := fun p => ⟨(ht.punctual p).compiled.conf, (ht.punctual p).compiled.once⟩
  have guests : ∀ p : A, (st p).guests.keys = (t.st p).guests.keys := fun p => by rw [(h1 p).2]
  have hh : Spec.Rabin.Honest S' R' P := honest (w := w) (a := fun p => signCmd (t.a p) (f p) (time p)) (entries := fun p => t.entries p)
    (fun p => by rw [(hag p).srt]; exact (ht.punctual p).sorts) hcom (fun p => (h1 p).1) hk' hf' hPn
    (fun x hx => by
      obtain ⟨p, hp, hx⟩ := (hP x).1 hx
      exact ⟨⟨p, hp⟩, by rw [guests]; exact hx⟩) (by rw [hTT]; exact hPT)
  obtain ⟨x0, hx0⟩ := List.exists_mem_of_length_pos (l := P) (by have := hf.low; omega)
  obtain ⟨p0, hp0, _⟩ := (hP x0).1 hx0
  have hlen : R'.keys.length = ks.length := by
    rw [← hk'.keys ⟨p0, hp0⟩]
    obtain ⟨_, h4⟩ := same_members (w := w ⟨p0, hp0⟩) (by rw [(hag ⟨p0, hp0⟩).srt]; exact (ht.punctual p0).sorts) (by rw [(hag ⟨p0, hp0⟩).srt]; exact (ht.punctual p0).sorts)
      (a := signCmd (t.a p0) (f p0) (time ⟨p0, hp0⟩)) (entries := t.entries p0) (hcom ⟨p0, hp0⟩) (hcom ⟨p0, hp0⟩) (hwi.keys p0) (hwi.keys p0) (List.Perm.refl _)
      (h1 ⟨p0, hp0⟩).1 (h1 ⟨p0, hp0⟩).1
    exact h4.length_eq
  have hlenT : (total R' P).length = R.T := by rw [total_length, hTT]
  refine h2 rest h s j (total R' P) (net S' R' P) H SH h32 hH hin ⟨?_, ?_⟩ hdoc P hPn (by exact_mod_cast hPT) (fun x hx => (hP x).1 hx) ?_ h3 hon
  · intro e
    rw [e] at hlenT
    have := hf.low
    simp at hlenT
    omega
  · rw [hlenT]
  · refine ⟨?_, fun x => ?_, ?_, fun x _ => ?_⟩
    · show Proper (net S' R' P) ks.length
      rw [← hlen]; exact Rabin.C116_proper hh hf'.sent
    · show x ∈ P ↔ _
      rw [hP]
      constructor
      · rintro ⟨p, hp, hx⟩
        exact ⟨_, Signers.mem_all (t := t.again (Subtype.val : A → ι) f w time st rest h s) ⟨p, hp⟩, (Signers.guest _ _).2 ⟨x, by
          show x ∈ (st ⟨p, hp⟩).guests.keys
          rw [guests]; exact hx, rfl⟩⟩
      · rintro ⟨q, hq, hx⟩
        obtain ⟨p, _, rfl⟩ := List.mem_map.1 hq
        obtain ⟨y, h4, h5⟩ := (Signers.guest _ _).1 hx
        have h4 : y ∈ (st p).guests.keys := h4
        rw [guests] at h4
        exact ⟨p, p.2, by rw [Int.ofNat.inj h5]; exact h4⟩
    · intro q hq x r o hx ho' he
      obtain ⟨p, _, rfl⟩ := List.mem_map.1 hq
      obtain ⟨y, h4, h5⟩ := (Signers.guest _ _).1 hx
      have h4 : y ∈ (st p).guests.keys := h4
      rw [← Int.ofNat.inj h5] at h4
      obtain ⟨k1, k2⟩ := hk'.gen p x r o h4 ho' he
      obtain ⟨k0, h6, ph, h7⟩ := Rabin.C116_generates hh ((hP x).2 ⟨p, p.2, by rw [← guests]; exact h4⟩)
      rw [hlen] at h7
      rw [k2] at h6
      refine ⟨ph, ?_⟩
      show Generates ((rest p).y x r) _ ks.length x ((rest p).gen x r) ph
      rw [k1, Outcome.ok.inj h6]
      exact h7
    · obtain ⟨k1, _, k2, _⟩ := Rabin.C116_key (S := S') (R := R') (P := P) x
      exact ⟨k1, k2⟩

end Verif.Props.RabinTogether
