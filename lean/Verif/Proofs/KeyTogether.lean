import Verif.Props.KeyPrompt
import Verif.Props.Generation
import Verif.Proofs.Plausible
import Verif.Spec.KeyTogether

/-! The runs of an attempt in processes that make long-term keys together are a group of key generations. -/
namespace Verif.KeyProgram
open Verif.Prot Verif.Dto Verif.Dss Verif.Dkg Verif.Tables Verif.Signode Verif.Props Verif.Spec.Prot Verif.Spec.Signode Verif.Spec.Generation
open Verif.Spec.KeyProgram Verif.Props.KeyProgram
open Verif.Spec.Program (ends)
open Verif.Registry (lt_of_some)
variable {ι K : Type}

/-- What a run has sent, its process sent at some time. -/
theorem sends_of {c : Cfg K} {h : List Ev} {s : Sys K} (hr : run c (init c) h = .ok s) {m : Message Dto}
    (hm : ∃ u ∈ s.prog.runs, .sent m ∈ u.log) : ∃ t, Sends c h m t := by
  induction h using List.reverseRecOn generalizing s with
  | nil =>
    rw [run] at hr
    rw [← Outcome.ok.inj hr] at hm
    obtain ⟨u, hu, _⟩ := hm
    exact absurd hu List.not_mem_nil
  | append_singleton h e ih =>
    obtain ⟨s1, h1, h2⟩ := run_append_ok hr
    rw [run, Outcome.bind_eq_ok] at h2
    obtain ⟨s2, h2, h3⟩ := h2
    rw [run] at h3
    have := Outcome.ok.inj h3
    subst this
    by_cases hx : ∃ u ∈ s1.prog.runs, .sent m ∈ u.log
    · obtain ⟨t, g1, e', g2, t1, t2, a1, a2⟩ := ih h1 hx
      exact ⟨t, g1, e', g2 ++ [e], t1, t2, by rw [a1]; simp, a2⟩
    · push Not at hx
      exact ⟨_, h, e, [], s1, s2, rfl, h1, h2, rfl, hx, hm⟩

theorem handled_given {D A U : Type} {c : Conf D A U} {r : Prot.Run D A U} (hi : Prot.Inv c r) {m : Message D} :
    .handled m ∈ r.log ↔ m.op ≤ r.state ∧ m ∈ early m.op r.log ++ inTime m.op r.log := by
  have h1 := hi.core.handled m.op
  have h2 : .handled m ∈ r.log ↔ m ∈ handledOf m.op r.log := by
    rw [handledOf, List.mem_filterMap]
    constructor
    · intro h; exact ⟨_, h, by simp⟩
    · rintro ⟨x, hx, h⟩
      cases x with
      | handled m' =>
        dsimp only at h
        by_cases ho : m'.op = m.op
        · rw [if_pos ho] at h; rw [← Option.some.inj h]; exact hx
        · rw [if_neg ho] at h; cases h
      | _ => cases h
  have e : (if m.op = r.state then ([] : List (Message D)) else []) = [] := by split <;> rfl
  rw [e, List.append_nil] at h1
  rw [h2, h1]
  by_cases h : m.op ≤ r.state
  · rw [if_pos h]; exact ⟨fun h' => ⟨h, h'⟩, fun h' => h'.2⟩
  · rw [if_neg h]; exact ⟨fun h' => absurd h' List.not_mem_nil, fun h' => absurd h'.1 h⟩

theorem given_received {D A : Type} {n : Int} {l : List (Entry D A)} {m : Message D} (h : m ∈ early n l ++ inTime n l) : m ∈ receivedOf l := by
  rw [List.mem_append] at h
  rcases h with h | h
  all_goals
    obtain ⟨l1, l2, e, _⟩ := recvFrom_mem h
    rw [receivedOf, List.mem_filterMap]
    exact ⟨.received m, by rw [e]; simp, rfl⟩

/-- A run at the end of its time is in its last stage. -/
theorem last_stage {cf : Conf Dto Obj (Data K)} {u : Prot.Run Dto Obj (Data K)} {T now : Int} (hi : Prot.Inv cf u) (hl : cf.stages.length = 9)
    (ht : OnTime 525 T now u) (hn : T + 525 ≤ now) : u.state = 8 := by
  have key : ∀ {n : Int}, n ≤ 7 → ends n ≤ 500 := fun h => by have := ends_mono h; have e : ends 7 = 500 := rfl; omega
  rw [OnTime] at ht
  cases hp : u.phase with
  | fresh => rw [hp] at ht; dsimp only at ht; omega
  | started => rw [hp] at ht; dsimp only at ht; omega
  | staged =>
    rw [hp] at ht; dsimp only at ht
    have h1 := (hi.staged hp).2.1
    by_contra hx
    have := key (n := u.state) (by omega)
    omega
  | pausing =>
    rw [hp] at ht; dsimp only at ht
    have h1 := (hi.pausing hp).2.1
    have := key (n := u.state) (by omega)
    omega
  | done =>
    have := (hi.done hp).1
    omega

/-- The run of a member in the attempt. -/
structure Seat (ι K : Type) where
  p : ι
  r : Nat
  u : Prot.Run Dto Obj (Data K)
  t0 : Int
  hist : List (Prot.Ev Dto)
  ph : Phases K

/-- It is the one of member `x`. -/
structure Seat.Of (w : Crew ι K) (net : Net) (n : Nat) (id : String) (x : Nat) (d : Seat ι K) : Prop where
  guest : (x : Int) ∈ (w.c d.p).base.guests
  key : ∃ o, (w.s d.p).prog.node.reg.objs[d.r]? = some o ∧ o.key = ⟨0, x, id⟩
  run : (w.s d.p).prog.runs[d.r]? = some d.u
  msgs : ∀ m ∈ msgs d.hist, Seen (w.h d.p) m ∧ 0 ≤ m.op ∧ m.key = ⟨0, x, id⟩
  exec : exec (dkgConf ((w.c d.p).base.y x d.r) id x n) (newRun Dto Obj (newData ((w.c d.p).base.gen x d.r)) d.t0) d.hist = .ok d.u
  gen : Generates ((w.c d.p).base.y x d.r) net n x ((w.c d.p).base.gen x d.r) d.ph
  stage : d.u.state = 8

section
variable {w : Crew ι K} {i n : Nat} {id : String} {T : Int} {net : Net} (hw : OnSchedule w i n id T)
include hw

theorem on_fit (p : ι) : Fit (w.c p) := ⟨inj (hw.epoch p).1 (hw.epoch p).2, hw.nodup p⟩

theorem on_sched (p : ι) : Sched (w.c p) (w.s p) := Verif.KeyProgram.sched (on_fit hw p) (hw.apart p) (hw.run p) (hw.prompt p)

theorem on_reached (p : ι) : SInv (w.c p) (Seen (w.h p)) (w.s p) :=
  Verif.Props.KeyProgram.reached (hw.run p) (hw.nodup p) (hw.epoch p).1 (hw.epoch p).2

/-- Every member has its run. -/
theorem on_seat (hg : Generating w net n id) {p : ι} {x : Nat} (hx : (x : Int) ∈ (w.c p).base.guests) :
    ∃ d : Seat ι K, d.p = p ∧ d.Of w net n id x := by
  have hS := on_sched hw p
  have hI := on_reached hw p
  have hst := hw.start p
  have hov := hw.over p
  have hid : ids (w.c p) i = id := hw.id p
  rcases hS.made i x hx with h | ⟨⟨o, ho, hk⟩, _⟩
  · omega
  · obtain ⟨r, hr⟩ := List.mem_iff_getElem?.1 ho
    have hlt : r < (w.s p).prog.runs.length := by rw [hI.p.u.len]; exact lt_of_some hr
    have hu := List.getElem?_eq_getElem hlt
    obtain ⟨t0, hist, h1, h2⟩ := hI.p.u.trace r o _ hr hu
    rw [hid] at hk
    obtain ⟨ph, h3⟩ := hg.gen p x r o hx hr hk
    rw [hk] at h1 h2
    rw [hw.members p] at h2
    refine ⟨⟨p, r, _, t0, hist, ph⟩, rfl, ⟨hx, ⟨o, hr, hk⟩, hu, h1, h2, h3, ?_⟩⟩
    exact last_stage (agree_exec h2).inv rfl (hst ▸ hS.time i x r o _ hx hr (by rw [hk, hid]) hu) hov

/-- A run for the attempt is the one of its member. -/
theorem on_unique {x : Nat} {d : Seat ι K} (hd : d.Of w net n id x) {p : ι} {r : Nat} {o : Registry.Obj} {u : Prot.Run Dto Obj (Data K)}
    (ho : (w.s p).prog.node.reg.objs[r]? = some o) (hk : o.key = ⟨0, x, id⟩) (hu : (w.s p).prog.runs[r]? = some u) :
    p = d.p ∧ r = d.r ∧ u = d.u := by
  obtain ⟨j, g, hg, hkey, _⟩ := obj_owner (on_reached hw p) ho
  have hgx : g = x := by rw [hkey] at hk; exact congrArg RunKey.gidx hk
  rw [hgx] at hg
  obtain rfl := hw.once _ _ _ hg hd.guest
  obtain ⟨o', ho', hk'⟩ := hd.key
  obtain rfl := (on_reached hw d.p).p.n.one ho ho' (by rw [hk, hk'])
  exact ⟨rfl, rfl, Option.some.inj (hu.symm.trans hd.run)⟩

/-- The runs of the attempt, as a group. -/
def groupOf (d : Nat → Seat ι K) (hd : ∀ x, net.on x → (d x).Of w net n id x) : Verif.Props.Generation.Group K n id 0 net where
  c x := dkgConf ((w.c (d x).p).base.y x (d x).r) id x n
  y x := (w.c (d x).p).base.y x (d x).r
  k0 x := (w.c (d x).p).base.gen x (d x).r
  ph x := (d x).ph
  t0 x := (d x).t0
  h x := (d x).hist
  r x := (d x).u
  conf _ _ := ⟨.inl rfl, rfl⟩
  gen x hx := (hd x hx).gen
  run x hx := (hd x hx).exec

theorem group_closed (hg : Generating w net n id) {d : Nat → Seat ι K} (hd : ∀ x, net.on x → (d x).Of w net n id x) (hc : Carried w id) :
    Verif.Props.Generation.Closed (groupOf d hd) := by
  intro x hx m hm ho hacc
  have hm : .handled m ∈ (d x).u.log := hm
  have a := agree_exec (hd x hx).exec
  obtain ⟨_, h1⟩ := (handled_given a.inv).1 hm
  have h2 := given_received h1
  rw [a.received] at h2
  obtain ⟨h3, h4, h5⟩ := (hd x hx).msgs m h2
  have hpc : m.pc = 0 := congrArg RunKey.pc h5
  have hrc : m.rcpt = x := congrArg RunKey.gidx h5
  have hid : m.runId = id := congrArg RunKey.runId h5
  refine ⟨hrc, ?_⟩
  rcases h3 with h3 | ⟨g, id', rfl⟩
  · obtain ⟨q, u, hu, hs⟩ := hc.authentic _ m h3 hpc hid (by
      rw [hw.members]
      exact (Verif.Generation.dkg_accepts.1 hacc).1)
    obtain ⟨r, hr⟩ := List.mem_iff_getElem?.1 hu
    have hI := on_reached hw q
    have hlt : r < (w.s q).prog.node.reg.objs.length := by rw [← hI.p.u.len]; exact lt_of_some hr
    have ho' := List.getElem?_eq_getElem hlt
    obtain ⟨j, g, hgg, hkey, _⟩ := obj_owner hI ho'
    obtain ⟨t0, hist, _, htr⟩ := hI.p.u.trace r _ u ho' hr
    obtain ⟨l1, l2, e⟩ := List.append_of_mem (Verif.Props.sent_requested htr hs)
    obtain ⟨_, _, f3⟩ := (agree_exec htr).inv.core.legal l1 _ l2 e
    have f3 : m.runId = ((w.s q).prog.node.reg.objs[r]'hlt).key.runId := f3
    obtain ⟨y, hy, rfl⟩ := hw.guests q g hgg
    have hy : net.on y := (hg.part y).2 ⟨q, hgg⟩
    have hk : ((w.s q).prog.node.reg.objs[r]'hlt).key = ⟨0, y, id⟩ := by
      rw [hkey] at f3 ⊢
      rw [← hid, f3]
    obtain ⟨rfl, rfl, rfl⟩ := on_unique hw (hd y hy) ho' hk hr
    exact ⟨y, hy, hs⟩
  · obtain ⟨a', s, h6, _, h7, _⟩ := hacc
    have h6 : some (psStep stepInit) = some s := h6
    rw [← Option.some.inj h6] at h7
    cases h7

theorem group_timely {d : Nat → Seat ι K} (hd : ∀ x, net.on x → (d x).Of w net n id x) (hc : Carried w id) :
    Verif.Props.Generation.Timely (groupOf d hd) := by
  intro x hx y hy m hm hrc ho
  have hm : .sent m ∈ (d y).u.log := hm
  show .handled m ∈ (d x).u.log
  obtain ⟨l1, l2, e⟩ := List.append_of_mem (Verif.Props.sent_requested (hd y hy).exec hm)
  obtain ⟨_, f2, f3⟩ := (agree_exec (hd y hy).exec).inv.core.legal l1 _ l2 e
  have f2 : m.pc = 0 := f2
  have f3 : m.runId = id := f3
  obtain ⟨t, hs⟩ := sends_of (hw.run (d y).p) ⟨_, List.mem_of_getElem? (hd y hy).run, hm⟩
  have hgx := (hd x hx).guest
  obtain ⟨t', ha, h1, h2⟩ := hc.arrives _ (d x).p m t hs f2 f3 (by rw [hrc]; exact hgx)
  have hP := fun p => (hw.epoch p).1
  have hQ := fun p => (hw.epoch p).2
  obtain ⟨hop, ht, _⟩ := C98_sends _ _ _ (hw.run (d y).p) (hw.nodup _) (hP _) (hQ _) (hw.apart _) (hw.prompt _) i m (f3.trans (hw.id _).symm) t hs
  have hst := hw.start (d y).p
  have hov := hw.over (d x).p
  have h5 : ends (m.op - 1) ≤ 425 := by
    have := ends_mono (show m.op - 1 ≤ 6 by omega)
    have e : ends 6 = 425 := rfl
    omega
  have hkey : m.key = ⟨0, x, id⟩ := by rw [Message.key, f2, hrc, f3]
  obtain ⟨r, o, u, g1, g2, g3, g4⟩ := C98_taken (w.c (d x).p) (w.c (d y).p) (w.h (d x).p) (w.h (d y).p) (w.s (d x).p) (w.s (d y).p)
    (hw.run _) (hw.run _) (hw.nodup _) (hw.nodup _) (hP _) (hP _) (hQ _) (hQ _) (hw.apart _) (hw.apart _) (hw.prompt _) (hw.prompt _) i i
    ((hw.id _).trans (hw.id _).symm) ((hw.start _).trans (hw.start _).symm) x hgx m (by rw [hw.id]; exact hkey) t t' hs ha h1 h2 (by omega)
  obtain ⟨_, _, rfl⟩ := on_unique hw (hd x hx) g1 (by rw [g2, hw.id]) g3
  refine (handled_given (agree_exec (hd x hx).exec).inv).2 ⟨?_, g4⟩
  rw [(hd x hx).stage]; omega

/-- Every run of the attempt has put out the share of its member. -/
theorem on_key (hn : Proper net n) (hg : Generating w net n id) (hc : Carried w id) {p : ι} {x r : Nat} {o : Registry.Obj}
    {u : Prot.Run Dto Obj (Data K)} (ho : (w.s p).prog.node.reg.objs[r]? = some o) (hk : o.key = ⟨0, x, id⟩)
    (hu : (w.s p).prog.runs[r]? = some u) : ∃ q, u.user.out = [.key (net.key x) q] ∧ Qualify net q := by
  obtain ⟨j, g, hgg, hkey, _⟩ := obj_owner (on_reached hw p) ho
  have hgx : g = x := by rw [hkey] at hk; exact congrArg RunKey.gidx hk
  obtain ⟨x', hx, e⟩ := hw.guests p g hgg
  have : x' = x := by omega
  subst this
  have hon : net.on x' := (hg.part x').2 ⟨p, by rw [← hgx]; exact hgg⟩
  obtain ⟨d0, _, hd0⟩ := on_seat hw hg (by rw [← hgx]; exact hgg)
  have : ∀ y : Nat, ∃ d : Seat ι K, net.on y → d.Of w net n id y := by
    intro y
    by_cases hy : net.on y
    · obtain ⟨q, hq⟩ := (hg.part y).1 hy
      obtain ⟨d, _, hd⟩ := on_seat hw hg hq
      exact ⟨d, fun _ => hd⟩
    · exact ⟨d0, fun h => absurd h hy⟩
  choose d hd using this
  have h8 : ∀ y, net.on y → 8 ≤ stageOf ((groupOf d hd).r y).log := by
    intro y hy
    show 8 ≤ stageOf (d y).u.log
    rw [(agree_exec (hd y hy).exec).inv.core.stage, (hd y hy).stage]
  obtain ⟨_, _, _, q, o', _, h4, h5, h6, _⟩ :=
    Verif.Props.Generation.C99_together hn (groupOf d hd) (group_closed hw hg hd hc) (group_timely hw hd hc) h8 x' hon
  have hu' : u = (d x').u := (on_unique hw (hd x' hon) ho hk hu).2.2
  rw [h6 (by decide)] at h5
  exact ⟨q, by rw [hu']; exact h5, h4⟩

end

theorem all_on {w : Crew ι K} {n : Nat} {id : String} {net : Net} (hg : Generating w net n id) (ha : w.Full n) {x : Nat} (hx : x < n) : net.on x :=
  (hg.part x).2 (ha x hx)

/-- With a guest for each member, all qualify. -/
theorem all_qual {w : Crew ι K} {n : Nat} {id : String} {net : Net} (hn : Proper net n) (hg : Generating w net n id) (ha : w.Full n) {q : List Int}
    (hq : Qualify net q) (y : Int) : y ∈ q ↔ ∃ b : Nat, b < n ∧ y = b :=
  (hq.2 y).trans ⟨fun ⟨b, hb, e⟩ => ⟨b, hn.on b hb, e⟩, fun ⟨b, hb, e⟩ => ⟨b, all_on hg ha hb, e⟩⟩

/-- Without a guest for some member, too few qualify. -/
theorem short_length {net : Net} {n x : Nat} (hn : Proper net n) (hx : x < n) (ho : ¬ net.on x) {q : List Int} (hq : Qualify net q) : q.length < n := by
  have h2 : q.Subperm (((List.range n).erase x).map Int.ofNat) := List.subperm_of_subset hq.1 fun y hy => by
    obtain ⟨b, hb, rfl⟩ := (hq.2 y).1 hy
    refine List.mem_map.2 ⟨b, (List.mem_erase_of_ne ?_).2 (List.mem_range.2 (hn.on b hb)), rfl⟩
    rintro rfl
    exact ho hb
  have := h2.length_le
  rw [List.length_map, List.length_erase_of_mem (List.mem_range.2 hx), List.length_range] at this
  omega

theorem all_length {n : Nat} {q : List Int} (h : ∀ y : Int, y ∈ q ↔ ∃ b : Nat, b < n ∧ y = b) : n ≤ q.length := by
  have h1 : ((List.range n).map Int.ofNat).Nodup := List.nodup_range.map fun _ _ e => Int.ofNat.inj e
  have h2 : ((List.range n).map Int.ofNat).Subperm q := List.subperm_of_subset h1 fun y hy => by
    obtain ⟨b, hb, rfl⟩ := List.mem_map.1 hy
    exact (h _).2 ⟨b, List.mem_range.1 hb, rfl⟩
  have := h2.length_le
  rwa [List.length_map, List.length_range] at this

/-- When nothing is left to do at the end of the time of an attempt, it is over. -/
theorem settled_over {c : Cfg K} {s : Sys K} (hc : Fit c) (ha : Apart c) (hR : Reach c s) (hS : Sched c s) (hq : Settled c s) {i : Nat}
    (ht : (allowed c i).start + 525 ≤ s.prog.node.fw.now) : s.file.isSome = true ∨ i < s.main.i := by
  cases hf : s.file with
  | some f => exact .inl rfl
  | none =>
    have e : at_ s (s.prog.node.fw.now + 1 - 1) = s := by
      have : s.prog.node.fw.now + 1 - 1 = s.prog.node.fw.now := by omega
      rw [this]; rfl
    have h1 := sched_wait (t := s.prog.node.fw.now + 1) hc ha hf (by rw [e]; exact hR) hS (by omega) (by rw [e]; exact hq)
    rcases h1.over i (by rw [at_now]; omega) with h | h
    · have h : s.file.isSome = true := h
      rw [hf] at h; cases h
    · exact .inr h

end Verif.KeyProgram
