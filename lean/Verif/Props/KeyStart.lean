import Verif.Model.KeyStart
import Verif.Props.Start
import Verif.Props.KeyProgram

/-! C88: processes make long-term keys, are started again with the files, and sign. -/
namespace Verif.Props.KeyStart
open Verif.Point Verif.Layout Verif.Dto Verif.Dss Verif.Dkg Verif.Signode Verif.Start Verif.Props Verif.Spec.Program Verif.Spec.Signode
open Verif.Spec.KeyProgram Verif.Props.Start
open Verif.KeyProgram (Cfg Ev Sys)
variable {K : Type}

/-- The share of member `g` of the key with the polynomial `ls`. -/
def IsShare (ls : List Nat) (g : Int) (s : KeyShare) : Prop :=
  CanonicalShare s.share ∧ s.commits = ls.map (timesAdd base) ∧ (s.share.V - peval ls (g.toNat + 1)) % secp256k1N = 0

/-- What the key generation is meant to do: the shares of the i-th attempt are those of the polynomial `poly i`. -/
def Deals (c : Cfg K) (h : List Ev) (poly : Nat → List Nat) : Prop :=
  ∀ s i g share, Verif.KeyProgram.run c (Verif.KeyProgram.init c) h = .ok s → FromRun c h s i g share → IsShare (poly i) g share

/-- The file was saved from shares of the polynomial `ls`, one for each guest. -/
def Saved (gs : List Int) (ls : List Nat) (f : GoMap Int DksDTO) : Prop :=
  ∃ lts : GoMap Int KeyShare, saveLongterms lts = .ok f ∧ lts.keys.Perm gs ∧
    ∀ g s, lts.get? g = some s → IsShare ls g s ∧ ∀ p ∈ s.commits, Sendable p

/-- The key with this polynomial is one that the chain takes: a multiple of the base point other than zero. -/
def GoodKey (ls : List Nat) : Prop := ls.headD 0 % secp256k1N ≠ 0

theorem onChain_iff {s : KeyShare} {ls : List Nat} (h : s.commits = ls.map (timesAdd base)) : OnChain s ↔ GoodKey ls := by
  have hc : ∀ k : Nat, OnCurve (timesAdd base k).X (timesAdd base k).Y ↔ k % secp256k1N ≠ 0 := by
    intro k
    have hl := log_timesAdd log_base k
    rw [mul_one] at hl
    rw [hl.onCurve_iff, Ne, ZMod.natCast_eq_zero_iff, Nat.dvd_iff_mod_eq_zero]
  cases ls with
  | nil =>
    refine ⟨fun ⟨c, cs, e, _⟩ => ?_, fun hg => absurd rfl hg⟩
    rw [h] at e; cases e
  | cons k ls =>
    rw [OnChain, h, GoodKey]
    constructor
    · rintro ⟨c, cs, e, ho⟩
      injection e with e _
      subst e
      exact (hc k).1 ho
    · exact fun hk => ⟨_, _, rfl, (hc k).2 hk⟩

theorem onCurve_of_saved {lts : GoMap Int KeyShare} {f : GoMap Int DksDTO} (h : saveLongterms lts = .ok f) (hn : lts.keys.Nodup) {g : Int}
    {s : KeyShare} (hs : lts.get? g = some s) : ∀ p ∈ s.commits, OnCurve p.X p.Y := by
  rw [saveLongterms, orPanic_ok, ltsToDto, mapO_ok] at h
  obtain ⟨d, _, hd⟩ := forall2_mem_left h (g, s) ((GoMap.mem_iff_get? hn g s).2 hs)
  rw [Outcome.bind_eq_ok] at hd
  obtain ⟨x, hx, _⟩ := hd
  rw [dksToDto, Outcome.bind_eq_ok] at hx
  obtain ⟨cs, hcs, _⟩ := hx
  intro p hp
  by_contra hno
  have := (points_err s.commits).1.2 ⟨p, hp, hno⟩
  rw [this] at hcs; cases hcs

/-- What one process has saved. -/
theorem saved (c : Cfg K) (h : List Ev) (s : Sys K) (hrun : Verif.KeyProgram.run c (Verif.KeyProgram.init c) h = .ok s)
    (hgn : c.base.guests.Nodup) (hne : c.base.guests ≠ []) (hs : 0 ≤ c.start) (hi : 0 ≤ c.interval) (f : GoMap Int DksDTO)
    (hf : s.file = some f) (poly : Nat → List Nat) (hd : Deals c h poly) :
    ∃ i, GoodKey (poly i) ∧ (∀ j < i, ¬ GoodKey (poly j)) ∧ Saved c.base.guests (poly i) f := by
  obtain ⟨i, lts, h1, h2, h3, h4⟩ := KeyProgram.C86_saved c h s hrun hgn hs hi f hf
  have hn : lts.keys.Nodup := h2.nodup_iff.2 hgn
  have share : ∀ g s, lts.get? g = some s → IsShare (poly i) g s := fun g s hg => hd _ i g s hrun (h3 g s hg).2
  refine ⟨i, ?_, fun j hj => ?_, lts, h1, h2, fun g s hg => ⟨share g s hg, fun p hp => ⟨?_, onCurve_of_saved h1 hn hg p hp⟩⟩⟩
  · obtain ⟨g, hg⟩ := List.exists_mem_of_ne_nil _ hne
    rw [← h2.mem_iff, ← GoMap.get?_isSome_iff, Option.isSome_iff_exists] at hg
    obtain ⟨s, hg⟩ := hg
    exact (onChain_iff (share g s hg).2.1).1 (h3 g s hg).1
  · obtain ⟨sh, e1, g, hg, e2⟩ := h4 j hj
    exact fun hk => e2 ((onChain_iff (hd _ j g _ hrun (e1 g hg)).2.1).2 hk)
  · rw [(share g s hg).2.1] at hp
    obtain ⟨k, _, rfl⟩ := List.mem_map.1 hp
    exact ((exists_log_iff _).2 ⟨_, log_timesAdd log_base k⟩).1

/-- C88 (same key). Processes in which the attempts at long-term keys go together save the shares of one and the same attempt, the first
one with a key that the chain takes. -/
theorem C88_same_key (c c' : Cfg K) (h h' : List Ev) (s s' : Sys K)
    (hrun : Verif.KeyProgram.run c (Verif.KeyProgram.init c) h = .ok s) (hrun' : Verif.KeyProgram.run c' (Verif.KeyProgram.init c') h' = .ok s')
    (hgn : c.base.guests.Nodup) (hgn' : c'.base.guests.Nodup) (hne : c.base.guests ≠ []) (hne' : c'.base.guests ≠ [])
    (hs : 0 ≤ c.start ∧ 0 ≤ c.interval) (hs' : 0 ≤ c'.start ∧ 0 ≤ c'.interval)
    (f f' : GoMap Int DksDTO) (hf : s.file = some f) (hf' : s'.file = some f')
    (poly : Nat → List Nat) (hd : Deals c h poly) (hd' : Deals c' h' poly) :
    ∃ i, GoodKey (poly i) ∧ (∀ j < i, ¬ GoodKey (poly j)) ∧ Saved c.base.guests (poly i) f ∧ Saved c'.base.guests (poly i) f' := by
  obtain ⟨i, h1, h2, h3⟩ := saved c h s hrun hgn hne hs.1 hs.2 f hf poly hd
  obtain ⟨i', h1', h2', h3'⟩ := saved c' h' s' hrun' hgn' hne' hs'.1 hs'.2 f' hf' poly hd'
  have : i = i' := by
    rcases Nat.lt_trichotomy i i' with lt | eq | gt
    · exact absurd h1 (h2' i lt)
    · exact eq
    · exact absurd h1' (h2 i' gt)
  subst this
  exact ⟨i, h1, h2, h3, h3'⟩

/-- The command line with the file of long-term keys, and another time. -/
def signCmd (a : Cmd) (f : GoMap Int DksDTO) (time : String) : Cmd := { a with longterms := some f, dropUntil := time }

/-- The process was started without a file of long-term keys, and has written one. -/
structure Keygen (w : World K) (a : Cmd) (st : Started) (r : Rest K) (h : List Ev) (f : GoMap Int DksDTO) : Prop where
  start : start w a = .ok st
  guests : st.guests ≠ []
  epoch : 0 ≤ st.startAt
  run : ∃ s, Verif.KeyProgram.run (keyCfg st r) (Verif.KeyProgram.init (keyCfg st r)) h = .ok s ∧ s.file = some f

/-- The attempts start 1.525 s apart. -/
theorem interval_eq (st : Started) (r : Rest K) : (keyCfg st r).interval = 1525000000 := rfl

theorem Keygen.facts {w : World K} (hs : SortContract w.srt) {a : Cmd} {entries : List Host} (hc : Compiled a entries) {st : Started}
    {r : Rest K} {h : List Ev} {f : GoMap Int DksDTO} (hk : Keygen w a st r h f) :
    (keyCfg st r).base.guests.Nodup ∧ (keyCfg st r).base.guests ≠ [] ∧ 0 ≤ (keyCfg st r).start ∧ 0 ≤ (keyCfg st r).interval := by
  refine ⟨(guest_facts hs hc hk.start).1.map fun _ _ e => Int.ofNat.inj e, ?_, hk.epoch, by rw [interval_eq]; decide⟩
  intro e
  have : st.guests.keys = [] := List.map_eq_nil_iff.1 e
  exact hk.guests (List.map_eq_nil_iff.1 this)

/-- A process that was started without a file can be started with one that was saved from good shares for its guests. -/
theorem restarts_of {w w2 : World K} (hw : w2.srt = w.srt ∧ w2.newGen = w.newGen ∧ w2.canListen = w.canListen) {a : Cmd} {st : Started}
    (hst : start w a = .ok st) {lts : GoMap Int KeyShare} {f : GoMap Int DksDTO} (hf : saveLongterms lts = .ok f) (hn : lts.keys.Nodup)
    (hk : ∀ x ∈ st.guests.keys, (x : Int) ∈ lts.keys) (good : ∀ g s, lts.get? g = some s → GoodKeyShare s)
    {time : String} (ht : time = "_" ∨ ∃ t, w2.parse time = some t) :
    ∃ st2, start w2 (signCmd a f time) = .ok st2 ∧ st2.layout = st.layout ∧ st2.guests = st.guests ∧ st2.threshold = st.threshold ∧
      st2.callers = st.callers ∧ st2.listen = st.listen := by
  obtain ⟨du, hdu⟩ : ∃ du, dropTime w2 time = .ok du := by
    rw [dropTime]
    by_cases h_ : time = "_"
    · exact ⟨_, by rw [if_pos h_]⟩
    · obtain ⟨t, ht⟩ := ht.resolve_left h_
      exact ⟨t, by rw [if_neg h_, ht]; rfl⟩
  obtain ⟨longs, hlo⟩ : ∃ longs, loadShares (some f) st.guests = .ok longs := by
    obtain ⟨f', f1, f2, _⟩ := C30_save_load lts good hn (st.guests.map fun p => ((p.1 : Int), p.2))
    have := Outcome.ok.inj (hf.symm.trans f1)
    subst this
    obtain ⟨lts', f3, _⟩ := f2 (by
      rintro x ⟨e, he⟩
      obtain ⟨n, rfl, hn⟩ := (castGuests_get? st.guests x e).1 he
      have : (n : Int) ∈ lts.keys := hk n (by rw [← GoMap.get?_isSome_iff, hn]; rfl)
      rw [← GoMap.get?_isSome_iff, Option.isSome_iff_exists] at this
      exact this)
    exact ⟨lts', f3⟩
  obtain ⟨conf, secrets, p1, p2, p3, p4, p5, _, _, _, p8, p9, p10⟩ := start_parts hst
  refine ⟨⟨st.layout, st.guests, st.threshold, du, Start.startTime du, longs, st.callers, st.listen⟩, ?_, rfl, rfl, rfl, rfl, rfl⟩
  have v : verifyConfig w2 st.layout.members st.guests st.threshold = .ok () := by
    rw [verifyConfig, hw.2.1]; exact p8
  have l : startListeners w2 st.guests = .ok st.listen := by
    rw [startListeners, hw.2.2]; exact p10
  rw [start]
  simp only [signCmd]
  rw [p1, Outcome.bind_ok, hw.1, p2, Outcome.bind_ok, p3, Outcome.bind_ok, p4, Outcome.bind_ok, p5, Outcome.ofOption_some, Outcome.orPanic_ok,
    Outcome.bind_ok, hdu, Outcome.bind_ok, hlo, Outcome.bind_ok, v, Outcome.bind_ok, p9, Outcome.bind_ok, l, Outcome.bind_ok]
  rfl

/-- C88 (started again). A process that has saved its shares can be started with the file, in the same directories, at any time that it
can read; it has the same members and guests then. -/
theorem C88_restarts (w w2 : World K) (hs : SortContract w.srt) (hw : w2.srt = w.srt ∧ w2.newGen = w.newGen ∧ w2.canListen = w.canListen)
    (a : Cmd) (entries : List Host) (hc : Compiled a entries) (st : Started) (r : Rest K) (h : List Ev) (f : GoMap Int DksDTO)
    (hk : Keygen w a st r h f) (poly : Nat → List Nat) (hd : Deals (keyCfg st r) h poly)
    (time : String) (ht : time = "_" ∨ ∃ t, w2.parse time = some t) :
    ∃ i st2, GoodKey (poly i) ∧ start w2 (signCmd a f time) = .ok st2 ∧ SavedShares (signCmd a f time) (poly i) ∧
      st2.layout = st.layout ∧ st2.guests = st.guests ∧ st2.threshold = st.threshold ∧ st2.callers = st.callers ∧ st2.listen = st.listen := by
  obtain ⟨k1, k2, k3, k4⟩ := hk.facts hs hc
  obtain ⟨s, hrun, hf⟩ := hk.run
  obtain ⟨i, e1, _, lts, e2, e3, e4⟩ := saved _ h s hrun k1 k2 k3 k4 f hf poly hd
  have hn : lts.keys.Nodup := e3.nodup_iff.2 k1
  have good : ∀ g s, lts.get? g = some s → GoodKeyShare s := fun g s hg => ⟨(e4 g s hg).1.1, (e4 g s hg).2⟩
  obtain ⟨st2, h1, h2⟩ := restarts_of hw hk.start e2 hn (fun x hx => e3.mem_iff.2 (List.mem_map.2 ⟨x, hx, rfl⟩)) good ht
  exact ⟨i, st2, e1, h1, ⟨lts, f, rfl, e2, hn, fun g s hg => ⟨good g s hg, (e4 g s hg).1.2⟩⟩, h2⟩

/-- C88 (end to end). Two processes with the same keys make long-term keys together and save their shares. Started again with the files,
they sign a request, and so they print the same signature. It verifies under the key that was made. -/
theorem C88_end_to_end (w w' : World K) (hs : SortContract w.srt) (hs' : SortContract w'.srt) (a a' : Cmd) (entries entries' : List Host)
    (hc : Compiled a entries) (hc' : Compiled a' entries') (ks ks' : List Pt) (hk : HoldKeys a entries ks) (hk' : HoldKeys a' entries' ks')
    (hp : ks.Perm ks') (ht : a.threshold = a'.threshold) (st0 st0' : Started) (r0 r0' : Rest K) (h0 h0' : List Ev) (f f' : GoMap Int DksDTO)
    (hg : Keygen w a st0 r0 h0 f) (hg' : Keygen w' a' st0' r0' h0' f') (poly : Nat → List Nat)
    (hd : Deals (keyCfg st0 r0) h0 poly) (hd' : Deals (keyCfg st0' r0') h0' poly) :
    ∃ i, GoodKey (poly i) ∧ (∀ j < i, ¬ GoodKey (poly j)) ∧
      ∀ (w2 w2' : World K) (_ : SortContract w2.srt) (_ : SortContract w2'.srt) (time time' : String)
        (st st' : Started) (_ : start w2 (signCmd a f time) = .ok st) (_ : start w2' (signCmd a' f' time') = .ok st')
        (r r' : Rest K) (_ : r.H = r'.H) (_ : r.SH = r'.SH) (_ : ∀ b, (r.H b).length = 32)
        (hist hist' : List Program.Ev) (s s' : Program.Sys K)
        (_ : Program.run (programCfg st r) (Program.init (programCfg st r)) hist = .ok s)
        (_ : Program.run (programCfg st' r') (Program.init (programCfg st' r')) hist' = .ok s')
        (_ : ((requests hist).map jobId).Nodup) (_ : ((requests hist').map jobId).Nodup) (j : Job) (rs : List Nat)
        (_ : Program.Process.Signs ⟨programCfg st r, hist, s⟩ (groupOf st (poly i) rs j) j)
        (_ : Program.Process.Signs ⟨programCfg st' r', hist', s'⟩ (groupOf st (poly i) rs j) j)
        (_ : ((poly i).length : Int) ≤ st.threshold) (_ : rs ≠ [] ∧ (rs.length : Int) ≤ st.threshold)
        (_ : ks.length ≤ 2 ^ 63) (_ : 0 ≤ j.doc ∧ j.doc < 2 ^ 256)
        (b b' : Program.JobSt) (_ : b ∈ s.jobs) (_ : b' ∈ s'.jobs) (_ : b.job = j) (_ : b'.job = j)
        (x x' : Int) (sig sig' : Schnorr.Sig) (_ : (x, some sig) ∈ b.lines) (_ : (x', some sig') ∈ b'.lines),
        sig = sig' ∧ Schnorr.verify r.H (.pt (timesAdd base ((poly i).headD 0))) j.doc sig = .ok () := by
  obtain ⟨k1, k2, k3, k4⟩ := hg.facts hs hc
  obtain ⟨k1', k2', k3', k4'⟩ := hg'.facts hs' hc'
  obtain ⟨s, hrun, hf⟩ := hg.run
  obtain ⟨s', hrun', hf'⟩ := hg'.run
  obtain ⟨i, e1, e2, e3, e3'⟩ := C88_same_key _ _ h0 h0' s s' hrun hrun' k1 k1' k2 k2' ⟨k3, k4⟩ ⟨k3', k4'⟩ f f' hf hf' poly hd hd'
  have shares : ∀ {a : Cmd} {gs : List Int} {f : GoMap Int DksDTO} (time : String), gs.Nodup → Saved gs (poly i) f →
      SavedShares (signCmd a f time) (poly i) := by
    rintro a gs f time hn ⟨lts, l1, l2, l3⟩
    exact ⟨lts, f, rfl, l1, l2.nodup_iff.2 hn, fun g s hg => ⟨⟨(l3 g s hg).1.1, (l3 g s hg).2⟩, (l3 g s hg).1.2⟩⟩
  refine ⟨i, e1, e2, ?_⟩
  intro w2 w2' hw2 hw2' time time' st st' h h' r r' hH hSH h32 hist hist' s s' hr hr' hids hids' j rs hj hj' hlong hrs hfew hdoc b b' hb hb'
    hbj hbj' x x' sig sig' hl hl'
  exact C85_same w2 w2' hw2 hw2' (signCmd a f time) (signCmd a' f' time') entries entries' ⟨hc.conf, hc.once⟩ ⟨hc'.conf, hc'.once⟩ ks ks' hk hk' hp ht
    (poly i) (shares time k1 e3) (shares time' k1' e3') st st' h h' r r' hH hSH h32 hist hist' s s' hr hr' hids hids' j rs hj hj' hlong e1 hrs
    hfew hdoc b b' hb hb' hbj hbj' x x' sig sig' hl hl'

end Verif.Props.KeyStart
