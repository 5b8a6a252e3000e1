import Verif.Proofs.NetworkSent
import Verif.Props.SignTogetherStart

/-!
C103: the processes of C100 to C102 with the network between them. What those assume about messages follows when the network works: what comes in was
sent by one of the processes, and what is sent comes in, in time, at the process of the member it is for.
-/
namespace Verif.Props.KeyStart
open Verif.Prot Verif.Layout Verif.Dto Verif.Dss Verif.Dkg Verif.Point Verif.Signode Verif.Tables Verif.Start Verif.Props Verif.Spec.Prot Verif.Spec.Signode
open Verif.Spec.Generation
open Verif.Spec.Program (requests ends)
open Verif.Props.Start
open Verif.Network (signNet keyNet addr)
open Verif.Spec.Network (Works signClock signRoom keyClock keyRoom)
variable {ι κ K : Type}

/-- The processes know the same hosts, in whose files are the keys `ks`, all different, and no two of them listen on the same address. -/
structure Wired (a : ι → Cmd) (entries : ι → List Host) (st : ι → Started) (ks : List Pt) : Prop where
  hosts : ∃ es, ∀ p, entries p = es
  keys : ∀ p, HoldKeys (a p) (entries p) ks
  nodup : ks.Nodup
  apart : ∀ p q ad, ad ∈ (st p).listen → ad ∈ (st q).listen → p = q

/-- What a process sends to a guest of another one goes there. -/
theorem wired_addr {w : ι → World K} {a : ι → Cmd} {entries : ι → List Host} {st : ι → Started} {ks : List Pt} (hw : Wired a entries st ks)
    (hs : ∀ p, SortContract (w p).srt) (hc : ∀ p, Compiled (a p) (entries p)) (hst : ∀ p, start (w p) (a p) = .ok (st p)) {pc : Int}
    (hpc : pc = 0 ∨ pc = 1) {q p : ι} {x y : Nat} (hx : x ∈ (st q).guests.keys) (hy : y ∈ (st p).guests.keys) :
    ∃ qs ad, (st q).callers.get? (pc, (x : Int)) = some qs ∧ queueOf qs y = .ok (some ad) ∧ ad ∈ (st p).listen := by
  obtain ⟨es, he⟩ := hw.hosts
  have hcq := hc q
  have hcp := hc p
  have hkq := hw.keys q
  have hkp := hw.keys p
  rw [he] at hcq hcp hkq hkp
  rw [← GoMap.get?_isSome_iff, Option.isSome_iff_exists] at hx hy
  obtain ⟨e, hx⟩ := hx
  obtain ⟨e', hy⟩ := hy
  exact C84_reaches (w q) (w p) (hs q) (hs p) (a q) (a p) es hcq hcp ks hkq hkp hw.nodup _ _ (hst q) (hst p) pc hpc x y e e' hx hy

/-- Processes that sign, with their network. -/
def Signers.net (t : Signers ι K) : Network.Net ι (Program.Sys K) Program.Ev :=
  signNet (fun p => programCfg (t.st p) (t.rest p)) (fun p => (t.st p).callers) fun p => (t.st p).listen

/-- This is what has happened in the processes and in the network, which works. Others may send anything; but what they send for
the generation of the nonce of the request and passes the checks is what one of the processes has sent. -/
structure Signers.Online [DecidableEq ι] (t : Signers ι K) (j : Job) (h : List (Network.Ev ι Program.Ev)) : Prop where
  run : ∃ S, Network.run t.net (Network.init t.net) h = .ok S ∧ (∀ p, S.hist p = t.h p) ∧ ∀ p, S.procs p = t.s p
  works : Works t.net signClock signRoom h
  others : ∀ p m, .outside p m ∈ h → m.pc = 1 → m.runId = jobId j → m.op ≤ 7 → Plausible (programCfg (t.st p) (t.rest p)).members m →
    ∃ q, ∃ u ∈ (t.s q).runs, .sent m ∈ u.log

/-- C103 (signing, messages). With the network between them, the processes of C102 get each other's messages as C101 and C102 assume. -/
theorem C103_relayed [DecidableEq ι] [Fintype ι] {t : Signers ι K} {ks : List Pt} (hsort : ∀ p, SortContract (t.w p).srt)
    (hcom : ∀ p, Compiled (t.a p) (t.entries p)) (hst : ∀ p, start (t.w p) (t.a p) = .ok (t.st p)) (hwi : Wired t.a t.entries t.st ks)
    {j : Job} (hin : ∀ p, InTime (programCfg (t.st p) (t.rest p)) (t.h p) (t.s p) j) {h : List (Network.Ev ι Program.Ev)} (ho : t.Online j h)
    (T : Int) (ls rs : List Nat) : Program.Relayed ⟨jobId j, ks, T, ls, rs, j.doc⟩ (t.all j) := by
  obtain ⟨S, hrun, hh, hp⟩ := ho.run
  have hg : ∀ p, (programCfg (t.st p) (t.rest p)).guests.Nodup := fun p =>
    (guest_facts (hsort p) (hcom p) (hst p)).1.map fun _ _ e => Int.ofNat.inj e
  have hd : ∀ p, ((requests (S.hist p)).map jobId).Nodup := fun p => by rw [hh]; exact (hin p).ids
  constructor
  · refine Signers.of_all fun p m hm hpc hid hop hpl => ?_
    have hm : .net m ∈ S.hist p := by rw [hh]; exact hm
    rcases Network.sign_authentic hrun hg hd hm with h1 | ⟨q, u, hu, h1⟩
    · obtain ⟨q, u, hu, h1⟩ := ho.others p m h1 hpc hid hop (by
        have hl := (same_members (hsort p) (hsort p) (hcom p) (hcom p) (hwi.keys p) (hwi.keys p) (List.Perm.refl _) (hst p) (hst p)).2.length_eq
        rw [memberPubs, List.length_map] at hl
        show Plausible (t.st p).layout.members.length m
        rw [hl]; exact hpl)
      exact ⟨_, Signers.mem_all q, u, hu, h1⟩
    · exact ⟨_, Signers.mem_all q, u, by show u ∈ (t.s q).runs; rw [← hp]; exact hu, h1⟩
  · refine Signers.of_all fun p => Signers.of_all fun q m τ hs hpc hid hrc => ?_
    obtain ⟨y, hy, hrc⟩ := (Signers.guest p m.rcpt).1 hrc
    obtain ⟨hop, htime, _⟩ := Program.C91_sends _ _ _ (hin q).run (hg q) (hin q).ids (hin q).prompt j (hin q).asked m hid τ hs
    have htime : τ = unixMilli j.start + ends (m.op - 1) + 5 := htime
    have hends : ends (m.op - 1) ≤ 550 := by
      simp only [List.mem_cons, List.not_mem_nil, or_false] at hop
      rcases hop with e | e | e | e | e | e | e <;> rw [e] <;> decide
    have hnow := (hin q).now
    obtain ⟨r, ad, t', h1, h2, h3, h4⟩ := Network.sign_arrives hrun ho.works (hg q) (hd q) (m := m) (t := τ) (by rw [hh]; exact hs)
      (by rw [hp]; omega) (P := fun ad => ad ∈ (t.st p).listen) (fun ad hl => ⟨p, hl⟩) (fun x hx => by
        obtain ⟨x, hx', rfl⟩ := (Signers.guest q x).1 hx
        obtain ⟨qs, ad, h1, h2, h3⟩ := wired_addr hwi hsort hcom hst (.inr rfl) hx' hy
        refine ⟨ad, ?_, h3⟩
        show (match (t.st q).callers.get? (1, (x : Int)) with
          | none => none
          | some qs => match queueOf qs m.rcpt with
            | .ok a => a
            | _ => none) = some ad
        rw [h1, hrc]
        dsimp only
        rw [h2])
    obtain rfl := hwi.apart p r ad h1 h2
    exact ⟨t', by rw [hh] at h3; exact h3, h4⟩

/-- C103 (signature). C102 with the network: let processes be started with the same hosts and keys and with files of shares of one long-term key,
with `T` or more guests in all. Let nothing be late in them, let the network work, and let kyber do what is expected of it among honest
members of which these guests take part. Then 650 ms after the start of the request all of them have printed one signature for all their guests, and it verifies under the
long-term key. -/
theorem C103_signs [DecidableEq ι] [Fintype ι] {t : Signers ι K} {ks : List Pt} {T : Int} (ht : t.Set ks T) (hwi : Wired t.a t.entries t.st ks)
    {ls rs : List Nat} (hsh : ∀ p, SavedShares (t.a p) ls) {H : List UInt8 → List UInt8} {SH : Share → List UInt8} (h32 : ∀ b, (H b).length = 32)
    (hH : ∀ p, (t.rest p).H = H ∧ (t.rest p).SH = SH) {j : Job}
    (hin : ∀ p, InTime (programCfg (t.st p) (t.rest p)) (t.h p) (t.s p) j)
    (hlong : (ls.length : Int) ≤ T) (hkey : GoodKey ls) (hrs : rs ≠ [] ∧ (rs.length : Int) ≤ T) (hfew : ks.length ≤ 2 ^ 63)
    {S : List Nat} (hSn : S.Nodup) (hST : T ≤ S.length) (hSg : ∀ x ∈ S, ∃ p, x ∈ (t.st p).guests.keys)
    (hdoc : 0 ≤ j.doc ∧ j.doc < 2 ^ 256) {net : Net} (hg : Program.Generating ⟨jobId j, ks, T, ls, rs, j.doc⟩ net (t.all j))
    {h : List (Network.Ev ι Program.Ev)} (ho : t.Online j h) :
    ∃ sig, Schnorr.verify H (.pt (timesAdd base (ls.headD 0))) j.doc sig = .ok () ∧ ∀ p, ∃ b ∈ (t.s p).jobs, b.job = j ∧ b.pc = .ended ∧
      b.lines.Perm ((t.st p).guests.keys.map fun x : Nat => ((x : Int), some sig)) :=
  C102_signs ht hsh h32 hH hin hlong hkey hrs hfew hSn hST hSg hdoc hg (C103_relayed ht.sorts ht.compiled ht.start hwi hin ho T ls rs)

/-- Processes that make long-term keys, with their network. -/
def Cast.net (t : Cast ι K) : Network.Net ι (Verif.KeyProgram.Sys K) Verif.KeyProgram.Ev :=
  keyNet (fun p => keyCfg (t.st p) (t.rest p)) (fun p => (t.st p).callers) fun p => (t.st p).listen

/-- This is what has happened in the processes and in the network, which works. Others may send anything; but what they send for
the attempt and passes the checks is what one of the processes has sent. -/
structure Cast.Online [DecidableEq ι] (t : Cast ι K) (id : String) (h : List (Network.Ev ι Verif.KeyProgram.Ev)) : Prop where
  run : ∃ S, Network.run t.net (Network.init t.net) h = .ok S ∧ (∀ p, S.hist p = t.h p) ∧ ∀ p, S.procs p = t.s p
  works : Works t.net keyClock keyRoom h
  others : ∀ p m, .outside p m ∈ h → m.pc = 0 → m.runId = id → Plausible (keyCfg (t.st p) (t.rest p)).base.members m →
    ∃ q, ∃ u ∈ (t.s q).prog.runs, .sent m ∈ u.log

/-- C103 (keys, messages). With the network between them, the processes of C100 get each other's messages as C100 assumes. -/
theorem C103_carried [DecidableEq ι] {t : Cast ι K} {i n : Nat} {d : Int} (ht : Meeting t i n d) {ks : List Pt} (hwi : Wired t.a t.entries t.st ks)
    {h : List (Network.Ev ι Verif.KeyProgram.Ev)} (ho : t.Online (idOf d i) h) : Spec.KeyProgram.Carried t.crew (idOf d i) := by
  obtain ⟨S, hrun, hh, hp⟩ := ho.run
  have hw := C100_on_schedule ht
  have hfit := fun p => Verif.KeyProgram.on_fit hw p
  constructor
  · intro p m hm hpc hid hpl
    have hm : .prog (.net m) ∈ S.hist p := by rw [hh]; exact hm
    rcases Network.key_authentic hrun hfit hm with h1 | ⟨q, u, hu, h1⟩
    · exact ho.others p m h1 hpc hid hpl
    · exact ⟨q, u, by show u ∈ (t.s q).prog.runs; rw [← hp]; exact hu, h1⟩
  · intro q p m τ hs hpc hid hrc
    obtain ⟨y, hy, hrc⟩ : ∃ y : Nat, y ∈ (t.st p).guests.keys ∧ m.rcpt = y := by
      obtain ⟨y, hy, e⟩ := List.mem_map.1 (show m.rcpt ∈ (t.st p).guests.keys.map (fun i : Nat => (i : Int)) from hrc)
      exact ⟨y, hy, e.symm⟩
    obtain ⟨hop, htime, _⟩ := KeyProgram.C98_sends _ _ _ (hw.run q) (hw.nodup q) (hw.epoch q).1 (hw.epoch q).2 (hw.apart q) (hw.prompt q) i m
      (by rw [hw.id q]; exact hid) τ hs
    rw [hw.start q] at htime
    have hends : ends (m.op - 1) ≤ 475 := by
      simp only [List.mem_cons, List.not_mem_nil, or_false] at hop
      rcases hop with e | e | e | e | e | e <;> rw [e] <;> decide
    have hnow := hw.over q
    obtain ⟨r, ad, t', h1, h2, h3, h4⟩ := Network.key_arrives hrun ho.works (hfit q) (m := m) (t := τ) (by rw [hh]; exact hs)
      (by rw [hp]; show _ < (t.crew.s q).prog.node.fw.now; omega) (P := fun ad => ad ∈ (t.st p).listen) (fun ad hl => ⟨p, hl⟩) (fun x hx => by
        obtain ⟨x, hx', rfl⟩ := List.mem_map.1 (show x ∈ (t.st q).guests.keys.map (fun i : Nat => (i : Int)) from hx)
        obtain ⟨qs, ad, h1, h2, h3⟩ := wired_addr hwi (fun p => (ht.punctual p).sorts) (fun p => (ht.punctual p).compiled)
          (fun p => (ht.punctual p).start) (.inl rfl) hx' hy
        refine ⟨ad, ?_, h3⟩
        show (match (t.st q).callers.get? (0, (x : Int)) with
          | none => none
          | some qs => match queueOf qs m.rcpt with
            | .ok a => a
            | _ => none) = some ad
        rw [h1, hrc]
        dsimp only
        rw [h2])
    obtain rfl := hwi.apart p r ad h1 h2
    exact ⟨t', by rw [hh] at h3; exact h3, h4⟩

/-- C103 (keys). C100 with the network: when it works, and kyber does what is expected of it among honest members, no process panics, on
messages without nil pointers, and a process with guests that has nothing left to do has saved the shares of its guests. -/
theorem C103_keys [DecidableEq ι] {t : Cast ι K} {i n : Nat} {d : Int} (ht : Together t i n d) {ks : List Pt} (hwi : Wired t.a t.entries t.st ks)
    {h : List (Network.Ev ι Verif.KeyProgram.Ev)} (ho : t.Online (idOf d i) h) {net : Net} (hn : Proper net n)
    (hg : Spec.KeyProgram.Generating t.crew net n (idOf d i)) (hs : Spec.KeyProgram.Savable net n) (p : ι) (hne : (t.st p).guests.keys ≠ [])
    (hy : ∀ g r, Calm ((t.rest p).y g r)) (hm : ∀ m, .prog (.net m) ∈ t.h p → Complete m.dto) :
    (∀ e, Verif.KeyProgram.step (keyCfg (t.st p) (t.rest p)) (t.s p) e ≠ .panic) ∧
    (Spec.KeyProgram.Settled (keyCfg (t.st p) (t.rest p)) (t.s p) → ∃ (lts : GoMap Int KeyShare) (f : GoMap Int DksDTO), (t.s p).file = some f ∧
      saveLongterms lts = .ok f ∧ lts.keys.Perm ((t.st p).guests.keys.map fun x : Nat => (x : Int)) ∧
      ∀ x ∈ (t.st p).guests.keys, lts.get? (x : Int) = some (net.key x)) :=
  C100_started ht hn hg (C103_carried ht.toMeeting hwi ho) hs p hne hy hm

/-- C103 (end to end). Let processes know the same hosts and the same keys, and let each member be a guest of one of them. Started without
long-term keys, with a network that works and with nothing late, they make long-term keys together and save them. When some of them are started again
with these files, with at least as many guests as the threshold, with a network that works between them and with nothing late, they have printed,
650 ms after the start of a request, one signature for all their guests; it verifies under the key that was made. -/
theorem C103_end_to_end [DecidableEq ι] {t : Cast ι K} {i n : Nat} {d : Int} (ht : Together t i n d) {ks : List Pt}
    (hwi : Wired t.a t.entries t.st ks) {h0 : List (Network.Ev ι Verif.KeyProgram.Ev)} (ho : t.Online (idOf d i) h0) {net : Net} (hn : Proper net n)
    (hg : Spec.KeyProgram.Generating t.crew net n (idOf d i)) (hs : Spec.KeyProgram.Savable net n)
    (hne : ∀ p, (t.st p).guests.keys ≠ []) (hq : ∀ p, Spec.KeyProgram.Settled (keyCfg (t.st p) (t.rest p)) (t.s p))
    {ls : List Nat} (hls : ∀ x < n, IsShare ls x (net.key x)) {T : Int} (hth : ∀ p, (t.st p).threshold = T) (hlong : (ls.length : Int) ≤ T) :
    ∃ f : ι → GoMap Int DksDTO, (∀ p, (t.s p).file = some (f p)) ∧
      ∀ {κ : Type} [DecidableEq κ] [Fintype κ] (e : κ → ι) (_ : Function.Injective e) (w : κ → World K) (time : κ → String)
        (_ : ∀ p, Again (t.w (e p)) (w p) (time p)),
        ∃ st : κ → Started, (∀ p, start (w p) (signCmd (t.a (e p)) (f (e p)) (time p)) = .ok (st p) ∧ (st p).guests = (t.st (e p)).guests) ∧
          ∀ (rest : κ → Rest K) (h : κ → List Program.Ev) (s : κ → Program.Sys K) (j : Job) (rs : List Nat) (net' : Net)
            (H : List UInt8 → List UInt8) (SH : Share → List UInt8) (_ : ∀ b, (H b).length = 32) (_ : ∀ p, (rest p).H = H ∧ (rest p).SH = SH)
            (_ : ∀ p, InTime (programCfg (st p) (rest p)) (h p) (s p) j) (_ : rs ≠ [] ∧ (rs.length : Int) ≤ T) (_ : 0 ≤ j.doc ∧ j.doc < 2 ^ 256)
            (S : List Nat) (_ : S.Nodup) (_ : T ≤ S.length) (_ : ∀ x ∈ S, ∃ p, x ∈ (t.st (e p)).guests.keys)
            (_ : Program.Generating ⟨jobId j, ks, T, ls, rs, j.doc⟩ net' ((t.again e f w time st rest h s).all j))
            (h1 : List (Network.Ev κ Program.Ev)) (_ : (t.again e f w time st rest h s).Online j h1),
            ∃ sig, Schnorr.verify H (.pt (timesAdd base (ls.headD 0))) j.doc sig = .ok () ∧
              ∀ p, ∃ b ∈ (s p).jobs, b.job = j ∧ b.pc = .ended ∧
                b.lines.Perm ((t.st (e p)).guests.keys.map fun x : Nat => ((x : Int), some sig)) := by
  obtain ⟨f, hf, hrest⟩ := C102_end_to_end ht hn hg (C103_carried ht.toMeeting hwi ho) hs hne hq hls (fun p => ⟨ks, hwi.keys p, List.Perm.refl _⟩) hth hlong
  refine ⟨f, hf, fun {κ} _ _ e he w time hag => ?_⟩
  obtain ⟨st, hst, hsig⟩ := hrest e he w time hag
  refine ⟨st, hst, fun rest h s j rs net' H SH h32 hH hin hrs hdoc S hSn hST hSg hgen h1 ho1 =>
    hsig rest h s j rs net' H SH h32 hH hin hrs hdoc S hSn hST hSg hgen ?_⟩
  have hsort : ∀ p, SortContract (w p).srt := fun p => by rw [(hag p).srt]; exact (ht.punctual (e p)).sorts
  have hcom : ∀ p, Compiled (signCmd (t.a (e p)) (f (e p)) (time p)) (t.entries (e p)) :=
    fun p => ⟨(ht.punctual (e p)).compiled.conf, (ht.punctual (e p)).compiled.once⟩
  have hlis : ∀ p ad, ad ∈ (st p).listen ↔ ad ∈ (t.st (e p)).listen := fun p ad => by
    rw [(C84_listens _ (hsort p) _ _ (hcom p) _ (hst p).1).2 ad,
      (C84_listens _ (ht.punctual (e p)).sorts _ _ (ht.punctual (e p)).compiled _ (ht.punctual (e p)).start).2 ad, (hst p).2]
  exact C103_relayed hsort hcom (fun p => (hst p).1) ⟨by
    obtain ⟨es, he⟩ := hwi.hosts
    exact ⟨es, fun p => he (e p)⟩, fun p => hwi.keys (e p), hwi.nodup, fun p q ad hp hq => he (hwi.apart _ _ ad ((hlis p ad).1 hp) ((hlis q ad).1 hq))⟩ hin ho1 T ls rs

end Verif.Props.KeyStart
