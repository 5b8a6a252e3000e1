import Verif.Props.NetworkTogether
import Verif.Props.KeyLive

/-!
C105: unlike signing (C104), the making of long-term keys needs all members. When nothing is heard of one of them, an attempt in which nothing is
late ends with a panic in every process.
-/
namespace Verif.Props.KeyProgram
open Verif.Prot Verif.Dto Verif.Dss Verif.Dkg Verif.Tables Verif.Signode Verif.Props Verif.Spec.Prot Verif.Spec.Signode Verif.Spec.Generation
open Verif.Spec.KeyProgram Verif.KeyProgram
variable {ι K : Type}

section
variable {w : Crew ι K} {i n : Nat} {id : String} {T : Int} {net : Net} (hw : OnSchedule w i n id T) (hn : Proper net n)
  (hg : Generating w net n id) (hc : Carried w id) {x : Nat} (hx : x < n) (hno : ∀ p, (x : Int) ∉ (w.c p).base.guests)
include hw hn hg hc hx hno

/-- The QUAL that comes with a share in the attempt is short. -/
theorem short_key {p : ι} {g : Int} (hgg : g ∈ (w.c p).base.guests) {r : Nat} {o : Registry.Obj} {u : Prot.Run Dto Obj (Data K)}
    (ho : (w.s p).prog.node.reg.objs[r]? = some o) (hk : o.key = ⟨0, g, id⟩) (hu : (w.s p).prog.runs[r]? = some u) :
    ∃ sh q, u.user.out = [.key sh q] ∧ q.length < n := by
  obtain ⟨y, hy, rfl⟩ := hw.guests p g hgg
  obtain ⟨q, h1, h2⟩ := on_key hw hn hg hc ho hk hu
  exact ⟨_, q, h1, short_length hn hx (fun h => by
    obtain ⟨p', hp⟩ := (hg.part x).1 h
    exact hno p' hp) h2⟩

/-- C105 (no keys). Let processes be on schedule up to the end of attempt `i`, let what they send for it be carried and let kyber do what is
expected of it among honest members, but let some member `x` be a guest of none of them. Then no process with guests has written a file of
long-term keys, none has begun a later attempt, and in none of them has time gone on after the end of the attempt. -/
theorem C105_no_keys (p : ι) (hne : (w.c p).base.guests ≠ []) :
    (w.s p).file = none ∧ (w.s p).main.i = i ∧ (w.s p).prog.node.fw.now = T + 525 := by
  have hI := on_reached hw p
  have hid : ids (w.c p) i = id := hw.id p
  have ended : ∀ g ∈ (w.c p).base.guests, ∀ sh, ¬ Ended (w.c p) (w.s p).prog i g sh := by
    rintro g hgg sh ⟨r, o, u, q, h1, h2, h3, _, h5, h6⟩
    obtain ⟨sh', q', h7, h8⟩ := short_key hw hn hg hc hx hno hgg h1 (by rw [h2, hid]) h3
    rw [h5] at h7
    have h9 := (List.cons.inj h7).1
    rw [← (Output.key.inj h9).2] at h8
    have := hw.members p
    omega
  obtain ⟨g, hgg⟩ := List.exists_mem_of_ne_nil _ hne
  have hi : (w.s p).main.i = i := by
    have h1 := begun hw hg hne
    by_contra hx
    obtain ⟨lts, h2, h3, g, sh, h4, _⟩ := hI.m.past i (by omega)
    obtain ⟨h5, h6⟩ := h3 g sh h4
    exact ended g h5 sh h6
  have hf : (w.s p).file = none := by
    cases hf : (w.s p).file with
    | none => rfl
    | some f =>
      obtain ⟨h1, h2, h3⟩ := hI.m.file f hf
      obtain ⟨h4, h5⟩ := hI.m.lts (.inr h1)
      have h6 := (h5 g).2 (hI.m.all h1 g hgg)
      rw [← GoMap.get?_isSome_iff] at h6
      obtain ⟨sh, h7⟩ := Option.isSome_iff_exists.1 h6
      have := hI.m.got (.inr h1) g sh h7
      rw [hi] at this
      exact absurd this (ended g hgg sh)
  refine ⟨hf, hi, ?_⟩
  have h1 := hw.over p
  by_contra hx
  rcases (on_sched hw p).over i (by rw [hw.start p]; omega) with h | h
  · rw [hf] at h; cases h
  · omega

/-- `C105_panics` of runs that do not panic. -/
theorem stuck (p : ι) (hne : (w.c p).base.guests ≠ []) (hy : RunsSafe (w.c p).base (Seen (w.h p))) (hend : ∀ e, own e = true → ∀ s', step (w.c p) (w.s p) e ≠ .ok s') :
    ∃ g ∈ (w.c p).base.guests, step (w.c p) (w.s p) (.main g) = .panic := by
  obtain ⟨hf, hi, _⟩ := C105_no_keys hw hn hg hc hx hno p hne
  have hid : attemptId (w.c p).start (w.c p).interval i = id := hw.id p
  by_cases hq : Settled (w.c p) (w.s p)
  · rcases settled_over (on_fit hw p) (hw.apart p) ⟨_, hw.run p⟩ (on_sched hw p) hq (i := i) (by rw [hw.start p]; exact hw.over p) with h | h
    · rw [hf] at h; cases h
    · omega
  · rw [Settled] at hq
    push Not at hq
    obtain ⟨e, he, hse⟩ := hq
    have hp : step (w.c p) (w.s p) e = .panic := by
      cases h : step (w.c p) (w.s p) e with
      | panic => rfl
      | err => exact absurd h hse
      | ok s' => exact absurd h (hend e he s')
    rcases panics _ _ _ (hw.run p) (hw.nodup p) (hw.epoch p).1 (hw.epoch p).2 hy e hp with ⟨g, hgg, _, _, rfl, _⟩ | ⟨order, lts, _, h1, h2, _⟩
    · exact ⟨g, hgg, hp⟩
    · obtain ⟨g, hgg⟩ := List.exists_mem_of_ne_nil _ hne
      obtain ⟨sh, hsh⟩ := Option.isSome_iff_exists.1 ((GoMap.get?_isSome_iff lts g).2 (h1.mem_iff.2 hgg))
      obtain ⟨r, u, q, ⟨⟨o, ho, hk⟩, hu, _⟩, _, _, hout, hlen⟩ := h2 g sh hsh
      rw [hi, hid] at hk
      obtain ⟨sh', q', h7, h8⟩ := short_key hw hn hg hc hx hno hgg ho hk hu
      rw [hout] at h7
      have h9 := (List.cons.inj h7).1
      rw [← (Output.key.inj h9).2] at h8
      have := hw.members p
      omega

/-- C105 (panic). When such a process can do nothing more by itself, on messages without nil pointers, it is because its main goroutine panics
as it takes the output of some run. -/
theorem C105_panics (p : ι) (hne : (w.c p).base.guests ≠ []) (hy : ∀ g ∈ (w.c p).base.guests, ∀ r, Calm ((w.c p).base.y g r))
    (hm : ∀ m, .prog (.net m) ∈ w.h p → Complete m.dto) (hend : ∀ e, own e = true → ∀ s', step (w.c p) (w.s p) e ≠ .ok s') :
    ∃ g ∈ (w.c p).base.guests, step (w.c p) (w.s p) (.main g) = .panic :=
  stuck hw hn hg hc hx hno p hne (calm_runs hy (complete hm)) hend

/-- C105 (whenever). Once the main goroutine of such a process takes the outputs, it panics with the first, whichever it is. -/
theorem C105_first (p : ι) (hy : ∀ g ∈ (w.c p).base.guests, ∀ r, Calm ((w.c p).base.y g r))
    (hm : ∀ m, .prog (.net m) ∈ w.h p → Complete m.dto) (hpc : (w.s p).main.pc = .collecting) (g : Int) (hgg : g ∈ (w.c p).base.guests) :
    g ∉ (w.s p).main.done ∧ step (w.c p) (w.s p) (.main g) = .panic := by
  have hne : (w.c p).base.guests ≠ [] := List.ne_nil_of_mem hgg
  obtain ⟨_, hi, _⟩ := C105_no_keys hw hn hg hc hx hno p hne
  have hid : attemptId (w.c p).start (w.c p).interval i = id := hw.id p
  have hI := on_reached hw p
  have hd : g ∉ (w.s p).main.done := by
    intro hd
    obtain ⟨h4, h5⟩ := hI.m.lts (.inl hpc)
    have h6 := (h5 g).2 hd
    rw [← GoMap.get?_isSome_iff] at h6
    obtain ⟨sh, h7⟩ := Option.isSome_iff_exists.1 h6
    obtain ⟨r, o, u, q, h1, h2, h3, _, h5, h6⟩ := hI.m.got (.inl hpc) g sh h7
    rw [hi] at h2
    obtain ⟨sh', q', h7, h8⟩ := short_key hw hn hg hc hx hno hgg h1 (by rw [h2]; exact congrArg _ hid) h3
    rw [h5] at h7
    have h9 := (List.cons.inj h7).1
    rw [← (Output.key.inj h9).2] at h8
    have := hw.members p
    omega
  refine ⟨hd, ?_⟩
  obtain ⟨r, u, ⟨⟨o, ho, hk⟩, hu, _⟩, h⟩ := C87_gives_up _ _ _ (hw.run p) (hw.nodup p) (hw.epoch p).1 (hw.epoch p).2 hy hm hpc g hgg hd
  rw [hi, hid] at hk
  obtain ⟨sh, q, h1, h2⟩ := short_key hw hn hg hc hx hno hgg ho hk hu
  exact h.2 (.inr ⟨sh, q, h1, by rw [hw.members p]; exact h2⟩)

end
end Verif.Props.KeyProgram

namespace Verif.Props.KeyStart
open Verif.Prot Verif.Layout Verif.Dto Verif.Dss Verif.Dkg Verif.Point Verif.Signode Verif.Tables Verif.Start Verif.Network Verif.Props
open Verif.Spec.KeyProgram Verif.Spec.Generation Verif.Spec.Signode Verif.Spec.Prot
open Verif.Props.Start
variable {ι K : Type}

/-- `C105_started` of runs that do not panic. -/
theorem absent_safe [DecidableEq ι] {t : Cast ι K} {i n : Nat} {d : Int} (ht : Meeting t i n d) {ks : List Pt} (hwi : Wired t.a t.entries t.st ks)
    {h : List (Network.Ev ι Verif.KeyProgram.Ev)} (ho : t.Online (idOf d i) h) {net : Net} (hn : Proper net n)
    (hg : Spec.KeyProgram.Generating t.crew net n (idOf d i)) {x : Nat} (hx : x < n) (hno : ∀ p, x ∉ (t.st p).guests.keys)
    (p : ι) (hne : (t.st p).guests.keys ≠ []) (hy : Verif.KeyProgram.RunsSafe (programCfg (t.st p) (t.rest p)) (KeyProgram.Seen (t.h p))) :
    (t.s p).file = none ∧ (t.s p).prog.node.fw.now = d / 1000000 + 580 + 1525 * i ∧
    ((∀ e, own e = true → ∀ s', Verif.KeyProgram.step (keyCfg (t.st p) (t.rest p)) (t.s p) e ≠ .ok s') →
      ∃ x ∈ (t.st p).guests.keys, Verif.KeyProgram.step (keyCfg (t.st p) (t.rest p)) (t.s p) (.main (x : Int)) = .panic) := by
  have hw := C100_on_schedule ht
  have hc := C103_carried ht hwi ho
  have hno' : ∀ p, (x : Int) ∉ (t.crew.c p).base.guests := fun p h => hno p (mem_guests.1 h)
  have hne' : (keyCfg (t.st p) (t.rest p)).base.guests ≠ [] := by
    show (t.st p).guests.keys.map (fun x : Nat => (x : Int)) ≠ []
    rw [Ne, List.map_eq_nil_iff]; exact hne
  obtain ⟨h1, _, h2⟩ := KeyProgram.C105_no_keys hw hn hg hc hx hno' p hne'
  refine ⟨h1, by have h2 : (t.s p).prog.node.fw.now = _ := h2; omega, fun hend => ?_⟩
  obtain ⟨g, hgg, hp⟩ := KeyProgram.stuck hw hn hg hc hx hno' p hne' hy hend
  obtain ⟨x, hx, rfl⟩ := List.mem_map.1 (show g ∈ (t.st p).guests.keys.map (fun i : Nat => (i : Int)) from hgg)
  exact ⟨x, hx, hp⟩

/-- C105 (started processes with their network). Let processes know the same hosts and keys, be started in time without long-term keys, with a network
that works and with nothing late, and let kyber do what is expected of it; but let the process of some member not be started. Then no process gets
long-term keys: 525 ms after the start of the attempt each one that has guests panics, and nothing else is left for it to do. -/
theorem C105_started [DecidableEq ι] {t : Cast ι K} {i n : Nat} {d : Int} (ht : Meeting t i n d) {ks : List Pt} (hwi : Wired t.a t.entries t.st ks)
    {h : List (Network.Ev ι Verif.KeyProgram.Ev)} (ho : t.Online (idOf d i) h) {net : Net} (hn : Proper net n)
    (hg : Spec.KeyProgram.Generating t.crew net n (idOf d i)) {x : Nat} (hx : x < n) (hno : ∀ p, x ∉ (t.st p).guests.keys)
    (p : ι) (hne : (t.st p).guests.keys ≠ []) (hy : ∀ g r, Calm ((t.rest p).y g r)) (hm : ∀ m, .prog (.net m) ∈ t.h p → Complete m.dto) :
    (t.s p).file = none ∧ (t.s p).prog.node.fw.now = d / 1000000 + 580 + 1525 * i ∧
    ((∀ e, own e = true → ∀ s', Verif.KeyProgram.step (keyCfg (t.st p) (t.rest p)) (t.s p) e ≠ .ok s') →
      ∃ x ∈ (t.st p).guests.keys, Verif.KeyProgram.step (keyCfg (t.st p) (t.rest p)) (t.s p) (.main (x : Int)) = .panic) :=
  absent_safe ht hwi ho hn hg hx hno p hne (Verif.KeyProgram.calm_runs (fun g _ r => hy g r) (KeyProgram.complete hm))

end Verif.Props.KeyStart
