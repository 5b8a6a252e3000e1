import Mathlib.Data.Fintype.Defs
import Mathlib.Data.Finset.Dedup
import Verif.Props.SignTogether
import Verif.Props.KeyTogetherStart

/-!
C102: the tool from the first start to a signature. Processes that are started without long-term keys make them together (C100), are started again
with their files, and sign together (C101). Not all of them need to be started again.
-/
namespace Verif.Props.KeyStart
open Verif.Prot Verif.Layout Verif.Dto Verif.Dss Verif.Dkg Verif.Point Verif.Signode Verif.Tables Verif.Start Verif.Props Verif.Spec.Prot Verif.Spec.Signode
open Verif.Spec.Generation
open Verif.Spec.Program (requests)
open Verif.Props.Start
variable {ι κ K : Type}

/-- Processes that are started with files of long-term keys. -/
structure Signers (ι K : Type) where
  w : ι → World K
  a : ι → Cmd
  entries : ι → List Host
  st : ι → Started
  rest : ι → Rest K
  h : ι → List Program.Ev
  s : ι → Program.Sys K

/-- One of them. -/
def Signers.process (t : Signers ι K) (p : ι) : Program.Process K := ⟨programCfg (t.st p) (t.rest p), t.h p, t.s p⟩

/-- All of them, with a request. -/
noncomputable def Signers.all [Fintype ι] (t : Signers ι K) (j : Job) : List (Program.Process K × Job) :=
  Finset.univ.toList.map fun p => (t.process p, j)

/-- They are started with compiled configurations, with the keys `ks` in any order, and with one threshold. -/
structure Signers.Set (t : Signers ι K) (ks : List Pt) (T : Int) : Prop where
  sorts : ∀ p, SortContract (t.w p).srt
  compiled : ∀ p, Compiled (t.a p) (t.entries p)
  start : ∀ p, start (t.w p) (t.a p) = .ok (t.st p)
  keys : ∀ p, ∃ ks', HoldKeys (t.a p) (t.entries p) ks' ∧ ks'.Perm ks
  threshold : ∀ p, (t.st p).threshold = T
  once : ∀ p q x, x ∈ (t.st p).guests.keys → x ∈ (t.st q).guests.keys → p = q

/-- The process reads the request before its start, which is not before the process takes messages, nothing is late in it, and it has gone on for
more than 650 ms after the start. -/
structure InTime (c : Program.Cfg K) (h : List Program.Ev) (s : Program.Sys K) (j : Job) : Prop where
  run : Program.run c (Program.init c) h = .ok s
  ids : ((requests h).map jobId).Nodup
  prompt : Spec.Program.Prompt c h
  drop : c.dropUntil ≤ unixMilli j.start
  read : ∃ h1 h2 s, h = h1 ++ .request j :: h2 ∧ Program.run c (Program.init c) h1 = .ok s ∧ s.node.fw.now ≤ unixMilli j.start
  now : unixMilli j.start + 650 < s.node.fw.now

theorem allow_eq (st : Started) (r : Rest K) (j : Job) :
    (programCfg st r).allow j = ⟨unixMilli j.start - 5, unixMilli j.start, unixMilli j.start + 1650⟩ := rfl

theorem InTime.asked {st : Started} {r : Rest K} {h : List Program.Ev} {s : Program.Sys K} {j : Job} (ht : InTime (programCfg st r) h s j) :
    Spec.Program.Asked (programCfg st r) h j := by
  refine ⟨?_, ?_, ?_, ?_⟩ <;> rw [allow_eq]
  · show unixMilli j.start - 5 ≤ unixMilli j.start; omega
  · exact ht.drop
  · show unixMilli j.start + 650 ≤ unixMilli j.start + 1650; omega
  · exact ht.read

theorem InTime.req {c : Program.Cfg K} {h : List Program.Ev} {s : Program.Sys K} {j : Job} (ht : InTime c h s j) : j ∈ requests h := by
  obtain ⟨h1, h2, _, rfl, _⟩ := ht.read
  rw [Program.requests_append]
  exact List.mem_append_right _ List.mem_cons_self

/-- All processes number the members alike. -/
theorem Signers.Set.members {t : Signers ι K} {ks : List Pt} {T : Int} (ht : t.Set ks T) (p q : ι) :
    memberPubs (t.st p).layout.members = memberPubs (t.st q).layout.members ∧ (memberPubs (t.st p).layout.members).Perm ks := by
  obtain ⟨k1, h1, h2⟩ := ht.keys p
  obtain ⟨k2, h3, h4⟩ := ht.keys q
  obtain ⟨h5, h6⟩ := same_members (ht.sorts p) (ht.sorts q) (ht.compiled p) (ht.compiled q) h1 h3 (h2.trans h4.symm) (ht.start p) (ht.start q)
  exact ⟨h5, h6.trans h2⟩

section
variable [Fintype ι] {t : Signers ι K} {ks : List Pt} {T : Int} {j : Job}

theorem Signers.mem_all (p : ι) : (t.process p, j) ∈ t.all j := List.mem_map.2 ⟨p, Finset.mem_toList.2 (Finset.mem_univ p), rfl⟩

theorem Signers.of_all {P : Program.Process K × Job → Prop} (h : ∀ p, P (t.process p, j)) : ∀ q ∈ t.all j, P q := by
  intro q hq
  obtain ⟨p, _, rfl⟩ := List.mem_map.1 hq
  exact h p

omit [Fintype ι] in
theorem Signers.guest (p : ι) (x : Int) : x ∈ (t.process p).c.guests ↔ ∃ y : Nat, y ∈ (t.st p).guests.keys ∧ x = y := by
  show x ∈ (t.st p).guests.keys.map (fun i : Nat => (i : Int)) ↔ _
  rw [List.mem_map]
  exact ⟨fun ⟨y, h1, h2⟩ => ⟨y, h1, h2.symm⟩, fun ⟨y, h1, h2⟩ => ⟨y, h1, h2.symm⟩⟩

/-- Such processes have been asked to sign together, in the sense of C101. -/
theorem Signers.Set.gathered (ht : t.Set ks T) {ls : List Nat} (rs : List Nat) (hsh : ∀ p, SavedShares (t.a p) ls)
    {H : List UInt8 → List UInt8} {SH : Share → List UInt8} (hH : ∀ p, (t.rest p).H = H ∧ (t.rest p).SH = SH)
    (hin : ∀ p, InTime (programCfg (t.st p) (t.rest p)) (t.h p) (t.s p) j) (p0 : ι) :
    Program.Gathered H SH (groupOf (t.st p0) ls rs j) (unixMilli j.start) (t.all j) := by
  refine ⟨of_all fun p => ?_, of_all fun p => ⟨(hin p).req, rfl, rfl⟩, of_all fun p => (hin p).prompt, of_all fun p => (hin p).asked,
    of_all fun p => rfl, of_all fun p => (hin p).now, of_all fun p => of_all fun q x hp hq => ?_⟩
  · have := C85_ready (t.w p) (ht.sorts p) (t.a p) (t.entries p) (ht.compiled p) (t.st p) (ht.start p) ls (hsh p) (t.rest p) (t.h p) (t.s p)
      (hin p).run (hin p).ids (groupOf (t.st p0) ls rs j) (ht.members p0 p).1 ((ht.threshold p0).trans (ht.threshold p).symm) rfl
    rw [(hH p).1, (hH p).2] at this
    exact this
  · obtain ⟨y, hy, rfl⟩ := (guest p x).1 hp
    obtain ⟨y', hy', e⟩ := (guest q _).1 hq
    have := Int.ofNat.inj e
    subst this
    rw [ht.once p q y hy hy']

end

/-- C102 (signature). Let processes be started with compiled configurations, the same keys, the same threshold and files of shares of one long-term
key, with `T` or more guests in all. Let nothing be late in them, let each read the request before its start, let messages be carried within
70 ms, and let kyber do what is expected of it among honest members of which these guests take part. Then 650 ms after the start all of them have printed one signature for
all their guests, and it verifies under the long-term key. -/
theorem C102_signs [Fintype ι] {t : Signers ι K} {ks : List Pt} {T : Int} (ht : t.Set ks T) {ls rs : List Nat}
    (hsh : ∀ p, SavedShares (t.a p) ls) {H : List UInt8 → List UInt8} {SH : Share → List UInt8} (h32 : ∀ b, (H b).length = 32)
    (hH : ∀ p, (t.rest p).H = H ∧ (t.rest p).SH = SH) {j : Job}
    (hin : ∀ p, InTime (programCfg (t.st p) (t.rest p)) (t.h p) (t.s p) j)
    (hlong : (ls.length : Int) ≤ T) (hkey : GoodKey ls) (hrs : rs ≠ [] ∧ (rs.length : Int) ≤ T) (hfew : ks.length ≤ 2 ^ 63)
    {S : List Nat} (hSn : S.Nodup) (hST : T ≤ S.length) (hSg : ∀ x ∈ S, ∃ p, x ∈ (t.st p).guests.keys)
    (hdoc : 0 ≤ j.doc ∧ j.doc < 2 ^ 256) {net : Net} (hg : Program.Generating ⟨jobId j, ks, T, ls, rs, j.doc⟩ net (t.all j))
    (hc : Program.Relayed ⟨jobId j, ks, T, ls, rs, j.doc⟩ (t.all j)) :
    ∃ sig, Schnorr.verify H (.pt (timesAdd base (ls.headD 0))) j.doc sig = .ok () ∧ ∀ p, ∃ b ∈ (t.s p).jobs, b.job = j ∧ b.pc = .ended ∧
      b.lines.Perm ((t.st p).guests.keys.map fun x : Nat => ((x : Int), some sig)) := by
  obtain ⟨x0, hx0⟩ := List.exists_mem_of_length_pos (l := S) (by
    have := List.length_pos_of_ne_nil hrs.1
    omega)
  obtain ⟨p0, _⟩ := hSg x0 hx0
  have hl : (memberPubs (t.st p0).layout.members).length = ks.length := (ht.members p0 p0).2.length_eq
  obtain ⟨_, _, _, _, _, _, _, g6, _⟩ := start_compiled (ht.compiled p0) (ht.start p0)
  have hload := (C32_index (t.w p0).srt (ht.sorts p0) (t.a p0).pubdir _ _ (layout_parts g6).1).2.2
  have hgen : Program.Generating (groupOf (t.st p0) ls rs j) net (t.all j) := by
    refine ⟨?_, hg.part, ?_, hg.shares⟩
    · show Proper net (memberPubs (t.st p0).layout.members).length
      rw [hl]; exact hg.proper
    · show ∀ p ∈ t.all j, ∀ (x r : Nat) (o : Registry.Obj), _ → _ → o.key = ⟨1, x, jobId j⟩ → ∃ ph, Generates _ net
        (memberPubs (t.st p0).layout.members).length x _ ph
      rw [hl]; exact hg.gen
  have hsound : (groupOf (t.st p0) ls rs j).Sound := by
    refine ⟨?_, hkey, ⟨hrs.1, ?_⟩, ?_, ?_, hdoc⟩
    · show _ ≤ (t.st p0).threshold; rw [ht.threshold]; exact hlong
    · show _ ≤ (t.st p0).threshold; rw [ht.threshold]; exact hrs.2
    · intro p hp
      obtain ⟨m, hm, rfl⟩ := List.mem_map.1 hp
      exact ⟨(Loaded.curve (hload m hm)).1, .inr (Loaded.curve (hload m hm)).2⟩
    · show (memberPubs (t.st p0).layout.members).length ≤ _; rw [hl]; exact hfew
  obtain ⟨sig, h1, h2⟩ := Program.C101_all (ht.gathered rs hsh hH hin p0) h32 hsound hgen ⟨fun p hp m h3 h4 h5 h6 (h7 : Plausible (memberPubs (t.st p0).layout.members).length m) =>
      hc.authentic p hp m h3 h4 h5 h6 (hl ▸ h7), hc.arrives⟩
    (S.map fun x : Nat => (x : Int)) (hSn.map fun _ _ e => Int.ofNat.inj e)
    (by show (t.st p0).threshold ≤ _; rw [ht.threshold, List.length_map]; exact hST) (fun x hx => by
      obtain ⟨y, hy, rfl⟩ := List.mem_map.1 hx
      obtain ⟨p, hp⟩ := hSg y hy
      exact ⟨_, Signers.mem_all p, (Signers.guest p y).2 ⟨y, hp, rfl⟩⟩)
  refine ⟨sig, h1, fun p => ?_⟩
  obtain ⟨b, h3, h4, h5, h6⟩ := h2 _ (Signers.mem_all p)
  refine ⟨b, h3, h4, h5, h6.trans (List.Perm.of_eq ?_)⟩
  show ((t.st p).guests.keys.map fun i : Nat => (i : Int)).map (fun x => (x, some sig)) = _
  rw [List.map_map]; rfl

/-- The process is started again in the same surroundings, with a time that it can read. -/
structure Again (w w' : World K) (time : String) : Prop where
  srt : w'.srt = w.srt
  newGen : w'.newGen = w.newGen
  canListen : w'.canListen = w.canListen
  time : time = "_" ∨ ∃ t, w'.parse time = some t

/-- The processes `e p` of a cast, started again with their files `f`. -/
def Cast.again (t : Cast ι K) (e : κ → ι) (f : ι → GoMap Int DksDTO) (w : κ → World K) (time : κ → String) (st : κ → Started) (rest : κ → Rest K)
    (h : κ → List Program.Ev) (s : κ → Program.Sys K) : Signers κ K :=
  ⟨w, fun p => signCmd (t.a (e p)) (f (e p)) (time p), fun p => t.entries (e p), st, rest, h, s⟩

/-- C102 (end to end). Let processes make long-term keys together as in C100, with shares of one key and with the same keys and threshold in their
files, until nothing is left to do. Then they have written their files. When some of them are started again with these, they run with the same
guests, and when they have at least as many guests as the threshold they sign together as in C101: 650 ms after the start of a request all of them
have printed one signature for all their guests, and it verifies under the key that was made. -/
theorem C102_end_to_end {t : Cast ι K} {i n : Nat} {d : Int} (ht : Together t i n d) {net : Net} (hn : Proper net n)
    (hg : Spec.KeyProgram.Generating t.crew net n (idOf d i)) (hc : Spec.KeyProgram.Carried t.crew (idOf d i)) (hs : Spec.KeyProgram.Savable net n)
    (hne : ∀ p, (t.st p).guests.keys ≠ []) (hq : ∀ p, Spec.KeyProgram.Settled (keyCfg (t.st p) (t.rest p)) (t.s p))
    {ls : List Nat} (hls : ∀ x < n, IsShare ls x (net.key x)) {ks : List Pt} (hks : ∀ p, ∃ ks', HoldKeys (t.a p) (t.entries p) ks' ∧ ks'.Perm ks)
    {T : Int} (hth : ∀ p, (t.st p).threshold = T) (hlong : (ls.length : Int) ≤ T) :
    ∃ f : ι → GoMap Int DksDTO, (∀ p, (t.s p).file = some (f p)) ∧
      ∀ {κ : Type} [Fintype κ] (e : κ → ι) (_ : Function.Injective e) (w : κ → World K) (time : κ → String)
        (_ : ∀ p, Again (t.w (e p)) (w p) (time p)),
        ∃ st : κ → Started, (∀ p, start (w p) (signCmd (t.a (e p)) (f (e p)) (time p)) = .ok (st p) ∧ (st p).guests = (t.st (e p)).guests) ∧
          ∀ (rest : κ → Rest K) (h : κ → List Program.Ev) (s : κ → Program.Sys K) (j : Job) (rs : List Nat) (net' : Net)
            (H : List UInt8 → List UInt8) (SH : Share → List UInt8) (_ : ∀ b, (H b).length = 32) (_ : ∀ p, (rest p).H = H ∧ (rest p).SH = SH)
            (_ : ∀ p, InTime (programCfg (st p) (rest p)) (h p) (s p) j) (_ : rs ≠ [] ∧ (rs.length : Int) ≤ T) (_ : 0 ≤ j.doc ∧ j.doc < 2 ^ 256)
            (S : List Nat) (_ : S.Nodup) (_ : T ≤ S.length) (_ : ∀ x ∈ S, ∃ p, x ∈ (t.st (e p)).guests.keys)
            (_ : Program.Generating ⟨jobId j, ks, T, ls, rs, j.doc⟩ net' ((t.again e f w time st rest h s).all j))
            (_ : Program.Relayed ⟨jobId j, ks, T, ls, rs, j.doc⟩ ((t.again e f w time st rest h s).all j)),
            ∃ sig, Schnorr.verify H (.pt (timesAdd base (ls.headD 0))) j.doc sig = .ok () ∧
              ∀ p, ∃ b ∈ (s p).jobs, b.job = j ∧ b.pc = .ended ∧
                b.lines.Perm ((t.st (e p)).guests.keys.map fun x : Nat => ((x : Int), some sig)) := by
  have hw := C100_on_schedule ht.toMeeting
  have hfiles : ∀ p, ∃ (lts : GoMap Int KeyShare) (f : GoMap Int DksDTO), (t.s p).file = some f ∧ saveLongterms lts = .ok f ∧
      lts.keys.Perm ((t.st p).guests.keys.map fun x : Nat => (x : Int)) ∧ ∀ x ∈ (t.st p).guests.keys, lts.get? (x : Int) = some (net.key x) := by
    intro p
    have hne' : (keyCfg (t.st p) (t.rest p)).base.guests ≠ [] := by
      show (t.st p).guests.keys.map (fun x : Nat => (x : Int)) ≠ []
      rw [Ne, List.map_eq_nil_iff]; exact hne p
    obtain ⟨lts, f, h1, h2, h3, h4⟩ := KeyProgram.C100_files hw hn hg hc hs p hne' (hq p)
    exact ⟨lts, f, h1, h2, h3, fun x hx => h4 x (mem_guests.2 hx)⟩
  choose lts f hf1 hf2 hf3 hf4 using hfiles
  have hguest : ∀ p, (t.st p).guests.keys.Nodup ∧ ∀ x ∈ (t.st p).guests.keys, x < n := by
    intro p
    obtain ⟨h1, h2, _⟩ := guest_facts (ht.punctual p).sorts (ht.punctual p).compiled (ht.punctual p).start
    refine ⟨h1, fun x hx => ?_⟩
    obtain ⟨_, _, m, h3, _⟩ := (h2 x).1 (Option.isSome_iff_exists.1 ((GoMap.get?_isSome_iff _ _).2 hx))
    have := Verif.Registry.lt_of_some h3
    rw [member_count (ht.punctual p).sorts (ht.punctual p).compiled (ht.punctual p).start, ht.files p] at this
    exact this
  have hnd : ∀ p, (lts p).keys.Nodup := fun p => (hf3 p).nodup_iff.2 ((hguest p).1.map fun _ _ e => Int.ofNat.inj e)
  have hshare : ∀ p g s, (lts p).get? g = some s → ∃ x : Nat, x < n ∧ g = x ∧ s = net.key x := by
    intro p g s hgs
    have : g ∈ (lts p).keys := by rw [← GoMap.get?_isSome_iff, hgs]; rfl
    rw [(hf3 p).mem_iff] at this
    obtain ⟨x, hx, rfl⟩ := List.mem_map.1 this
    exact ⟨x, (hguest p).2 x hx, rfl, Option.some.inj (hgs.symm.trans (hf4 p x hx))⟩
  have good : ∀ p g s, (lts p).get? g = some s → GoodKeyShare s := by
    intro p g s hgs
    obtain ⟨x, hx, _, rfl⟩ := hshare p g s hgs
    refine ⟨(hls x hx).1, fun P hP => ⟨?_, (hs x hx).2 P hP⟩⟩
    rw [(hls x hx).2.1] at hP
    obtain ⟨k, _, rfl⟩ := List.mem_map.1 hP
    exact ((exists_log_iff _).2 ⟨_, log_timesAdd log_base k⟩).1
  refine ⟨f, hf1, fun {κ} _ e he w time hag => ?_⟩
  have hst : ∀ p, ∃ st2, start (w p) (signCmd (t.a (e p)) (f (e p)) (time p)) = .ok st2 ∧ st2.guests = (t.st (e p)).guests ∧
      st2.threshold = (t.st (e p)).threshold := by
    intro p
    obtain ⟨st2, h1, _, h2, h3, _⟩ := restarts_of ⟨(hag p).srt, (hag p).newGen, (hag p).canListen⟩ (ht.punctual (e p)).start (hf2 (e p)) (hnd (e p))
      (fun x hx => (hf3 (e p)).mem_iff.2 (List.mem_map.2 ⟨x, hx, rfl⟩)) (good (e p)) (hag p).time
    exact ⟨st2, h1, h2, h3⟩
  choose st hst1 hst2 hst3 using hst
  refine ⟨st, fun p => ⟨hst1 p, hst2 p⟩, ?_⟩
  intro rest h s j rs net' H SH h32 hH hin hrs hdoc S hSn hST hSg hgen hrel
  have hfew : ∀ _ : ι, ks.length = n := by
    intro p
    obtain ⟨ks', h1, h2⟩ := hks p
    rw [← h2.length_eq, ← h1.length_eq, ht.files p]
  obtain ⟨x0, hx0⟩ := List.exists_mem_of_length_pos (l := S) (by
    have := List.length_pos_of_ne_nil hrs.1
    omega)
  obtain ⟨p0, hp0⟩ := hSg x0 hx0
  have hn0 : 0 < n := by
    have := (hguest _).2 x0 hp0
    omega
  have hlen := hfew (e p0)
  have hset : (t.again e f w time st rest h s).Set ks T := by
    refine ⟨fun p => ?_, fun p => ⟨(ht.punctual (e p)).compiled.conf, (ht.punctual (e p)).compiled.once⟩, hst1, fun p => hks (e p),
      fun p => (hst3 p).trans (hth (e p)), fun p q x hp hq => ?_⟩
    · show SortContract (w p).srt
      rw [(hag p).srt]; exact (ht.punctual (e p)).sorts
    · refine he (ht.once (e p) (e q) x ?_ ?_)
      · rw [← hst2]; exact hp
      · rw [← hst2]; exact hq
  have hkey : GoodKey ls := by
    obtain ⟨h1, h2⟩ := hs 0 hn0
    obtain ⟨_, h3, _⟩ := hls 0 hn0
    exact (onChain_iff h3).1 (by
      obtain ⟨c, cs, e⟩ := List.exists_cons_of_ne_nil h1
      exact ⟨c, cs, e, h2 c (by rw [e]; exact List.mem_cons_self)⟩)
  have hsh : ∀ p, SavedShares ((t.again e f w time st rest h s).a p) ls := by
    refine fun p => ⟨lts (e p), f (e p), rfl, hf2 (e p), hnd (e p), fun g s hgs => ?_⟩
    obtain ⟨x, hx, rfl, rfl⟩ := hshare (e p) g s hgs
    exact ⟨good (e p) _ _ hgs, (hls x hx).2⟩
  obtain ⟨sig, h1, h2⟩ := C102_signs hset hsh h32 hH hin hlong hkey hrs
    (by rw [hlen]; exact le_trans hn.few (by norm_num)) hSn hST (fun x hx => by
      obtain ⟨p, hp⟩ := hSg x hx
      exact ⟨p, by show x ∈ (st p).guests.keys; rw [hst2]; exact hp⟩) hdoc hgen hrel
  refine ⟨sig, h1, fun p => ?_⟩
  obtain ⟨b, h3, h4, h5, h6⟩ := h2 p
  refine ⟨b, h3, h4, h5, h6.trans (List.Perm.of_eq ?_)⟩
  show (st p).guests.keys.map _ = _
  rw [hst2]

end Verif.Props.KeyStart
