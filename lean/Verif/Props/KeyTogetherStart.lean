import Verif.Props.KeyTogether
import Verif.Props.KeyPromptStart

/-! C100 for processes that are started from their files. -/
namespace Verif.Props.KeyStart
open Verif.Prot Verif.Layout Verif.Dto Verif.Dss Verif.Dkg Verif.Signode Verif.Tables Verif.Start Verif.Props Verif.Spec.Prot Verif.Spec.Signode
open Verif.Spec.KeyProgram Verif.Spec.Generation
open Verif.Props.Start
open Verif.KeyProgram (Ev Sys)
variable {ι K : Type}

/-- Processes with their files: the world and the command line of each, the host entries its configuration was made of, what it was started
with, what the files leave open, and what happened. -/
structure Cast (ι K : Type) where
  w : ι → World K
  a : ι → Cmd
  entries : ι → List Host
  st : ι → Started
  rest : ι → Rest K
  h : ι → List Ev
  s : ι → Sys K

/-- They make long-term keys. -/
def Cast.crew (t : Cast ι K) : Crew ι K := ⟨fun p => keyCfg (t.st p) (t.rest p), t.h, t.s⟩

/-- All of them are started in time, their configurations list `n` files of public keys, they are told the same time `d` up to which to drop
messages, no member is a guest of two of them, and the time of attempt `i` is over. -/
structure Meeting (t : Cast ι K) (i n : Nat) (d : Int) : Prop where
  punctual : ∀ p, Punctual (t.w p) (t.a p) (t.entries p) (t.st p) (t.rest p) (t.h p) (t.s p)
  files : ∀ p, (files (t.entries p)).length = n
  drop : ∀ p, (t.st p).dropUntil = d
  once : ∀ p q x, x ∈ (t.st p).guests.keys → x ∈ (t.st q).guests.keys → p = q
  over : ∀ p, d / 1000000 + 580 + 1525 * i ≤ (t.s p).prog.node.fw.now

/-- Besides, each of `n` members is a guest of one of them. -/
structure Together (t : Cast ι K) (i n : Nat) (d : Int) : Prop extends Meeting t i n d where
  hosts : ∀ x < n, ∃ p, x ∈ (t.st p).guests.keys

theorem member_count {w : World K} (hs : SortContract w.srt) {a : Cmd} {entries : List Host} (hc : Compiled a entries) {st : Started}
    (h : start w a = .ok st) : st.layout.members.length = (files entries).length := by
  obtain ⟨conf, _, _, _, _, _, h5, h6, _⟩ := start_compiled hc h
  obtain ⟨h7, _⟩ := layout_parts h6
  have := (C32_index w.srt hs a.pubdir conf.pubfiles _ h7).2.1.length_eq
  rw [List.length_map, h5] at this
  exact this

theorem mem_guests {st : Started} {r : Rest K} {x : Nat} : (x : Int) ∈ (keyCfg st r).base.guests ↔ x ∈ st.guests.keys := by
  show (x : Int) ∈ st.guests.keys.map (fun i : Nat => (i : Int)) ↔ _
  rw [List.mem_map]
  exact ⟨fun ⟨y, hy, e⟩ => Int.ofNat.inj e ▸ hy, fun h => ⟨x, h, rfl⟩⟩

/-- The identifier of attempt `i`. -/
def idOf (d : Int) (i : Nat) : String := attemptId (d + 55000000) 1525000000 i

/-- C100 (started processes, schedule). Such processes are on schedule. -/
theorem C100_on_schedule {t : Cast ι K} {i n : Nat} {d : Int} (ht : Meeting t i n d) :
    OnSchedule t.crew i n (idOf d i) (d / 1000000 + 55 + 1525 * i) := by
  have hk := fun p => C98_started (t.w p) (t.a p) (t.st p) (ht.punctual p).start (t.rest p) (ht.punctual p).there
  have hat : ∀ p, (t.st p).startAt = d + 55000000 := fun p => by
    obtain ⟨_, _, _, _, _, _, _, _, hat, _⟩ := start_parts (ht.punctual p).start
    rw [hat, ht.drop p, Verif.Start.startTime]; rfl
  have hm : ∀ p, (t.st p).layout.members.length = n := fun p => by
    rw [member_count (ht.punctual p).sorts (ht.punctual p).compiled (ht.punctual p).start, ht.files p]
  refine ⟨fun p => (ht.punctual p).run, fun p => (ht.punctual p).prompt, fun p => (hk p).1, fun p => ⟨(ht.punctual p).epoch, ?_⟩,
    fun p => (ht.punctual p).guests, hm, fun p g hg => ?_, fun p q g hp hq => ?_, fun p => ?_, fun p => ?_, fun p => ?_⟩
  · show 0 ≤ (keyCfg (t.st p) (t.rest p)).interval
    rw [interval_eq]; decide
  · obtain ⟨x, hx, rfl⟩ := List.mem_map.1 (show g ∈ (t.st p).guests.keys.map (fun i : Nat => (i : Int)) from hg)
    refine ⟨x, ?_, rfl⟩
    obtain ⟨_, h2, _⟩ := guest_facts (ht.punctual p).sorts (ht.punctual p).compiled (ht.punctual p).start
    obtain ⟨_, _, m, h3, _⟩ := (h2 x).1 (Option.isSome_iff_exists.1 ((GoMap.get?_isSome_iff _ _).2 hx))
    have := Verif.Registry.lt_of_some h3
    rw [hm p] at this
    exact this
  · obtain ⟨x, hx, rfl⟩ := List.mem_map.1 (show g ∈ (t.st p).guests.keys.map (fun i : Nat => (i : Int)) from hp)
    exact ht.once p q x hx (mem_guests.1 hq)
  · show attemptId (t.st p).startAt (keyCfg (t.st p) (t.rest p)).interval i = _
    rw [interval_eq, hat, idOf]
  · show (allowed (keyCfg (t.st p) (t.rest p)) i).start = _
    rw [(hk p).2, ht.drop p]
  · have := ht.over p
    show _ ≤ (t.s p).prog.node.fw.now
    omega

/-- `C100_started` of runs that do not panic. -/
theorem started_safe {t : Cast ι K} {i n : Nat} {d : Int} (ht : Together t i n d) {net : Net} (hn : Proper net n)
    (hg : Generating t.crew net n (idOf d i)) (hc : Carried t.crew (idOf d i)) (hs : Savable net n) (p : ι) (hne : (t.st p).guests.keys ≠ [])
    (hy : Verif.KeyProgram.RunsSafe (programCfg (t.st p) (t.rest p)) (KeyProgram.Seen (t.h p))) :
    (∀ e, Verif.KeyProgram.step (keyCfg (t.st p) (t.rest p)) (t.s p) e ≠ .panic) ∧
    (Settled (keyCfg (t.st p) (t.rest p)) (t.s p) → ∃ (lts : GoMap Int KeyShare) (f : GoMap Int DksDTO), (t.s p).file = some f ∧
      saveLongterms lts = .ok f ∧ lts.keys.Perm ((t.st p).guests.keys.map fun x : Nat => (x : Int)) ∧
      ∀ x ∈ (t.st p).guests.keys, lts.get? (x : Int) = some (net.key x)) := by
  have hw := C100_on_schedule ht.toMeeting
  have hne' : (keyCfg (t.st p) (t.rest p)).base.guests ≠ [] := by
    show (t.st p).guests.keys.map (fun x : Nat => (x : Int)) ≠ []
    rw [Ne, List.map_eq_nil_iff]; exact hne
  have ha : t.crew.Full n := fun x hx => by
    obtain ⟨p, hp⟩ := ht.hosts x hx
    exact ⟨p, mem_guests.2 hp⟩
  refine ⟨fun e => KeyProgram.no_panic hw hn hg ha hc hs p hne' hy e, fun hq => ?_⟩
  obtain ⟨lts, f, h1, h2, h3, h4⟩ := KeyProgram.C100_files hw hn hg hc hs p hne' hq
  exact ⟨lts, f, h1, h2, h3, fun x hx => h4 x (mem_guests.2 hx)⟩

/-- C100 (started processes, files). Let such processes carry each other's messages of attempt `i` within 70 ms, and let kyber do what is
expected of it among honest members, with commitments on the curve. Then, on messages without nil pointers, none of them panics, and when
nothing is left to do in one of them it has written its file, with the shares of its guests and no others. -/
theorem C100_started {t : Cast ι K} {i n : Nat} {d : Int} (ht : Together t i n d) {net : Net} (hn : Proper net n)
    (hg : Generating t.crew net n (idOf d i)) (hc : Carried t.crew (idOf d i)) (hs : Savable net n) (p : ι) (hne : (t.st p).guests.keys ≠ [])
    (hy : ∀ g r, Calm ((t.rest p).y g r)) (hm : ∀ m, .prog (.net m) ∈ t.h p → Complete m.dto) :
    (∀ e, Verif.KeyProgram.step (keyCfg (t.st p) (t.rest p)) (t.s p) e ≠ .panic) ∧
    (Settled (keyCfg (t.st p) (t.rest p)) (t.s p) → ∃ (lts : GoMap Int KeyShare) (f : GoMap Int DksDTO), (t.s p).file = some f ∧
      saveLongterms lts = .ok f ∧ lts.keys.Perm ((t.st p).guests.keys.map fun x : Nat => (x : Int)) ∧
      ∀ x ∈ (t.st p).guests.keys, lts.get? (x : Int) = some (net.key x)) :=
  started_safe ht hn hg hc hs p hne (Verif.KeyProgram.calm_runs (fun g _ r => hy g r) (KeyProgram.complete hm))

end Verif.Props.KeyStart
