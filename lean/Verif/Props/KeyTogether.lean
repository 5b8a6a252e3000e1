import Verif.Proofs.KeyTogether

/-!
C100: tools making long-term keys together. When nothing is late in any process and every message of an attempt is carried in time, the
attempt succeeds for all: each run puts out the share of its member, with all members in QUAL, no process panics, and each writes its file.
-/
namespace Verif.Props.KeyProgram
open Verif.Prot Verif.Dto Verif.Dss Verif.Dkg Verif.Tables Verif.Signode Verif.Props Verif.Spec.Prot Verif.Spec.Signode Verif.Spec.Generation
open Verif.Spec.KeyProgram Verif.KeyProgram
variable {ι K : Type}

/-- C100 (keys). Let processes with guests for all `n` members be on schedule up to the end of attempt `i`, let what they send for it be
carried, and let kyber do what is expected of it among honest members. Then every guest has its run for the attempt, and all that the run has
put out is the share of the member, with a QUAL of exactly the `n` members. -/
theorem C100_keys {w : Crew ι K} {i n : Nat} {id : String} {T : Int} {net : Net} (hw : OnSchedule w i n id T) (hn : Proper net n)
    (hg : Generating w net n id) (ha : w.Full n) (hc : Carried w id) (p : ι) (x : Nat) (hx : (x : Int) ∈ (w.c p).base.guests) :
    ∃ (r : Nat) (o : Registry.Obj) (u : Prot.Run Dto Obj (Data K)) (q : List Int), (w.s p).prog.node.reg.objs[r]? = some o ∧
      o.key = ⟨0, x, id⟩ ∧ (w.s p).prog.runs[r]? = some u ∧ u.user.out = [.key (net.key x) q] ∧ ∀ y : Int, y ∈ q ↔ ∃ b : Nat, b < n ∧ y = b := by
  obtain ⟨d, rfl, hd⟩ := on_seat hw hg hx
  obtain ⟨o, ho, hk⟩ := hd.key
  obtain ⟨q, h1, h2⟩ := on_key hw hn hg hc ho hk hd.run
  exact ⟨d.r, o, d.u, q, ho, hk, hd.run, h1, all_qual hn hg ha h2⟩

/-- A share some guest has got in the attempt is the one of the network. -/
theorem ended_key {w : Crew ι K} {i n : Nat} {id : String} {T : Int} {net : Net} (hw : OnSchedule w i n id T) (hn : Proper net n)
    (hg : Generating w net n id) (hc : Carried w id) {p : ι} {g : Int} (hgg : g ∈ (w.c p).base.guests) {sh : KeyShare}
    (he : Ended (w.c p) (w.s p).prog i g sh) : ∃ x : Nat, x < n ∧ g = x ∧ sh = net.key x := by
  obtain ⟨x, hx, rfl⟩ := hw.guests p g hgg
  obtain ⟨r, o, u, q, h1, h2, h3, _, h5, _⟩ := he
  have hid : ids (w.c p) i = id := hw.id p
  obtain ⟨q', h6, _⟩ := on_key hw hn hg hc h1 (by rw [h2, hid]) h3
  rw [h5] at h6
  have h7 := (List.cons.inj h6).1
  exact ⟨x, hx, rfl, (Output.key.inj h7).1⟩

/-- The attempt is the current one, or a later one is. -/
theorem begun {w : Crew ι K} {i n : Nat} {id : String} {T : Int} {net : Net} (hw : OnSchedule w i n id T) (hg : Generating w net n id) {p : ι}
    (hne : (w.c p).base.guests ≠ []) : i ≤ (w.s p).main.i := by
  obtain ⟨g, hgg⟩ := List.exists_mem_of_ne_nil _ hne
  obtain ⟨x, hx, rfl⟩ := hw.guests p g hgg
  obtain ⟨d, rfl, hd⟩ := on_seat hw hg hgg
  obtain ⟨o, ho, hk⟩ := hd.key
  obtain ⟨j, g, _, h1, h2⟩ := obj_owner (on_reached hw d.p) ho
  rw [hk] at h1
  have h3 : ids (w.c d.p) i = ids (w.c d.p) j := (hw.id d.p).trans (congrArg RunKey.runId h1)
  have h4 := (on_fit hw d.p).inj _ _ h3
  rcases h2 with h | ⟨h, _⟩ <;> omega

/-- No later attempt is begun. -/
theorem not_later {w : Crew ι K} {i n : Nat} {id : String} {T : Int} {net : Net} (hw : OnSchedule w i n id T) (hn : Proper net n)
    (hg : Generating w net n id) (hc : Carried w id) (hs : Savable net n) (p : ι) : ¬ i < (w.s p).main.i := by
  intro hlt
  obtain ⟨lts, _, h2, g, sh, h3, h4⟩ := (on_reached hw p).m.past i hlt
  obtain ⟨h5, h6⟩ := h2 g sh h3
  obtain ⟨x, hx, _, rfl⟩ := ended_key hw hn hg hc h5 h6
  obtain ⟨h7, h8⟩ := hs x hx
  obtain ⟨c, cs, h9⟩ := List.exists_cons_of_ne_nil h7
  exact h4 ⟨c, cs, h9, h8 c (by rw [h9]; exact List.mem_cons_self)⟩

/-- `C100_no_panic` of runs that do not panic. -/
theorem no_panic {w : Crew ι K} {i n : Nat} {id : String} {T : Int} {net : Net} (hw : OnSchedule w i n id T) (hn : Proper net n)
    (hg : Generating w net n id) (ha : w.Full n) (hc : Carried w id) (hs : Savable net n) (p : ι) (hne : (w.c p).base.guests ≠ [])
    (hy : RunsSafe (w.c p).base (Seen (w.h p))) (e : Ev) :
    step (w.c p) (w.s p) e ≠ .panic := by
  intro hp
  have hi : (w.s p).main.i = i := by
    have h1 := begun hw hg hne
    have h2 := not_later hw hn hg hc hs p
    omega
  have hid : attemptId (w.c p).start (w.c p).interval i = id := hw.id p
  have key : ∀ g share, FromRun (w.c p) (w.h p) (w.s p) i g share → g ∈ (w.c p).base.guests → ∃ x : Nat, x < n ∧ share = net.key x := by
    rintro g share ⟨r, u, q, ⟨⟨o, ho, hk⟩, hu, _⟩, _, _, hout, _⟩ hgg
    obtain ⟨x, hx, rfl⟩ := hw.guests p g hgg
    obtain ⟨q', h6, _⟩ := on_key hw hn hg hc ho (by rw [hk, hid]) hu
    rw [hout] at h6
    have h7 := (List.cons.inj h6).1
    exact ⟨x, hx, (Output.key.inj h7).1⟩
  rcases panics _ _ _ (hw.run p) (hw.nodup p) (hw.epoch p).1 (hw.epoch p).2 hy e hp with h | ⟨order, lts, _, h1, h2, h3⟩
  · obtain ⟨g, hgg, r, u, _, ⟨⟨o, ho, hk⟩, hu, _⟩, hno⟩ := h
    obtain ⟨x, hx, rfl⟩ := hw.guests p g hgg
    rw [hi] at hk
    obtain ⟨q, h4, h5⟩ := on_key hw hn hg hc ho (by rw [hk, hid]) hu
    rcases hno with h | ⟨sh, q', h, hl⟩
    · rw [h4] at h; cases h
    · rw [h4] at h
      have h7 := (List.cons.inj h).1
      rw [← (Output.key.inj h7).2, hw.members p] at hl
      have := all_length (all_qual hn hg ha h5)
      omega
  · rw [hi] at h2
    have mem : ∀ {g share}, lts.get? g = some share → g ∈ (w.c p).base.guests := fun {g share} h =>
      h1.mem_iff.1 ((GoMap.get?_isSome_iff _ _).1 (by rw [h]; rfl))
    rcases h3 with ⟨g, share, h4, h5⟩ | ⟨_, g, share, pt, h4, h5, h6⟩
    · obtain ⟨x, hx, rfl⟩ := key g share (h2 g share h4) (mem h4)
      exact (hs x hx).1 h5
    · obtain ⟨x, hx, rfl⟩ := key g share (h2 g share h4) (mem h4)
      exact h6 ((hs x hx).2 pt h5)

/-- C100 (no panic). Let, besides, the shares have commitments, all on the curve. Then no step of a process with guests panics, on messages
without nil pointers. -/
theorem C100_no_panic {w : Crew ι K} {i n : Nat} {id : String} {T : Int} {net : Net} (hw : OnSchedule w i n id T) (hn : Proper net n)
    (hg : Generating w net n id) (ha : w.Full n) (hc : Carried w id) (hs : Savable net n) (p : ι) (hne : (w.c p).base.guests ≠ [])
    (hy : ∀ g ∈ (w.c p).base.guests, ∀ r, Calm ((w.c p).base.y g r)) (hm : ∀ m, .prog (.net m) ∈ w.h p → Complete m.dto) (e : Ev) :
    step (w.c p) (w.s p) e ≠ .panic :=
  no_panic hw hn hg ha hc hs p hne (calm_runs hy (complete hm)) e

/-- C100 (files). Once nothing is left to do by itself in such a process, it has written its file. It holds the long-term shares of its
guests in attempt `i`, and nothing else. -/
theorem C100_files {w : Crew ι K} {i n : Nat} {id : String} {T : Int} {net : Net} (hw : OnSchedule w i n id T) (hn : Proper net n)
    (hg : Generating w net n id) (hc : Carried w id) (hs : Savable net n) (p : ι) (hne : (w.c p).base.guests ≠ [])
    (hq : Settled (w.c p) (w.s p)) :
    ∃ (lts : GoMap Int KeyShare) (f : GoMap Int DksDTO), (w.s p).file = some f ∧ saveLongterms lts = .ok f ∧
      lts.keys.Perm (w.c p).base.guests ∧ ∀ x : Nat, (x : Int) ∈ (w.c p).base.guests → lts.get? x = some (net.key x) := by
  have hI := on_reached hw p
  have hi : (w.s p).main.i = i := by
    have h1 := begun hw hg hne
    have h2 := not_later hw hn hg hc hs p
    omega
  have ht : (allowed (w.c p) i).start + 525 ≤ (w.s p).prog.node.fw.now := by rw [hw.start p]; exact hw.over p
  rcases settled_over (on_fit hw p) (hw.apart p) ⟨_, hw.run p⟩ (on_sched hw p) hq ht with h | h
  · obtain ⟨f, hf⟩ := Option.isSome_iff_exists.1 h
    obtain ⟨h1, h2, h3⟩ := hI.m.file f hf
    obtain ⟨h4, h5⟩ := hI.m.lts (.inr h1)
    refine ⟨(w.s p).main.lts, f, hf, h2, ?_, fun x hx => ?_⟩
    · rw [List.perm_ext_iff_of_nodup h4 (hw.nodup p)]
      intro g
      rw [h5]
      exact ⟨fun hg => hI.m.done g hg, fun hg => hI.m.all h1 g hg⟩
    · cases hget : (w.s p).main.lts.get? (x : Int) with
      | none =>
        have := (h5 x).2 (hI.m.all h1 x hx)
        rw [← GoMap.get?_isSome_iff, hget] at this
        cases this
      | some sh =>
        have he := hI.m.got (.inr h1) x sh hget
        rw [hi] at he
        obtain ⟨x', _, e, rfl⟩ := ended_key hw hn hg hc hx he
        rw [Int.ofNat.inj e]
  · exact absurd h (not_later hw hn hg hc hs p)

end Verif.Props.KeyProgram
