import Verif.Props.ProgramTogether
import Verif.Proofs.KeyTogether

/-!
C101: processes in which nothing is late sign a document together. Unlike in C91 nothing is assumed about the runs: that they get through the
generation of the nonce, with shares of one nonce and with their members qualified, follows from what is between the processes. Members of which
nothing is heard do not matter as long as there are enough others.
-/
namespace Verif.Props.Program
open Verif.Prot Verif.Dto Verif.Dss Verif.Dkg Verif.Point Verif.Tables Verif.Signode Verif.Program Verif.Props Verif.Spec.Prot Verif.Spec.Program
open Verif.Spec.Generation
open Verif.Registry (lt_of_some)
variable {K : Type}

/-- A request to sign the document of the group has been read, under the identifier of the group. -/
structure Process.Takes (p : Process K) (g : Group) (j : Job) : Prop where
  req : j ∈ requests p.h
  id : jobId j = g.id
  doc : j.doc = g.doc

/-- Processes have been asked to sign the document of the group, and nothing is late in any of them. No member is a guest of two of them.
Each process reads its request before the start, which is the same for all, and has gone on for more than 650 ms after it. -/
structure Gathered (H : List UInt8 → List UInt8) (SH : Share → List UInt8) (g : Group) (t0 : Int) (ps : List (Process K × Job)) : Prop where
  ready : ∀ p ∈ ps, p.1.Ready H SH g
  takes : ∀ p ∈ ps, p.1.Takes g p.2
  prompt : ∀ p ∈ ps, Prompt p.1.c p.1.h
  asked : ∀ p ∈ ps, Asked p.1.c p.1.h p.2
  start : ∀ p ∈ ps, (p.1.c.allow p.2).start = t0
  now : ∀ p ∈ ps, t0 + 650 < p.1.s.node.fw.now
  once : ∀ p ∈ ps, ∀ q ∈ ps, ∀ x, x ∈ p.1.c.guests → x ∈ q.1.c.guests → p = q

/-- What comes in for the generation of the nonce and passes the checks was sent by one of the processes. What is sent for the request comes in less than 70 ms later at
the process of the member it is for, as far as the clocks tell, when there is room in the queue. -/
structure Relayed (g : Group) (ps : List (Process K × Job)) : Prop where
  authentic : ∀ p ∈ ps, ∀ m, .net m ∈ p.1.h → m.pc = 1 → m.runId = g.id → m.op ≤ 7 → Plausible g.keys.length m →
    ∃ q ∈ ps, ∃ u ∈ q.1.s.runs, .sent m ∈ u.log
  arrives : ∀ p ∈ ps, ∀ q ∈ ps, ∀ (m : Message Dto) (t : Int), Sends q.1.c q.1.h m t → m.pc = 1 → m.runId = g.id → m.rcpt ∈ p.1.c.guests →
    ∃ t', Arrives p.1.c p.1.h m t' ∧ t - 30 < t' ∧ t' < t + 70

/-- The guests of the processes take part in the generation of the nonce. The generators of their runs for the request do what is expected of
kyber among honest members, and make shares of the nonce of the group. -/
structure Generating (g : Group) (net : Net) (ps : List (Process K × Job)) : Prop where
  proper : Proper net g.keys.length
  part : ∀ x : Nat, net.on x ↔ ∃ p ∈ ps, (x : Int) ∈ p.1.c.guests
  gen : ∀ p ∈ ps, ∀ (x r : Nat) (o : Registry.Obj), (x : Int) ∈ p.1.c.guests → p.1.s.node.reg.objs[r]? = some o → o.key = ⟨1, x, g.id⟩ →
    ∃ ph, Generates (p.1.c.y x r) net g.keys.length x (p.1.c.gen x r) ph
  shares : ∀ x, net.on x → (net.key x).commits = g.rs.map (timesAdd base) ∧ ((net.key x).share.V - peval g.rs (x + 1)) % secp256k1N = 0

/-- The run of a member for the request. -/
structure Seat (K : Type) where
  p : Process K × Job
  r : Nat
  u : Prot.Run Dto Obj (Data K)
  t0 : Int
  hist : List (Prot.Ev Dto)
  ph : Phases K

/-- It is the one of member `x`. -/
structure Seat.Of (H : List UInt8 → List UInt8) (SH : Share → List UInt8) (g : Group) (net : Net) (ps : List (Process K × Job)) (x : Nat)
    (d : Seat K) : Prop where
  mem : d.p ∈ ps
  guest : (x : Int) ∈ d.p.1.c.guests
  key : ∃ o, d.p.1.s.node.reg.objs[d.r]? = some o ∧ o.key = ⟨1, x, g.id⟩
  run : d.p.1.s.runs[d.r]? = some d.u
  msgs : ∀ m ∈ msgs d.hist, .net m ∈ d.p.1.h ∧ 0 ≤ m.op ∧ m.key = ⟨1, x, g.id⟩
  exec : exec (dssConf (d.p.1.c.y x d.r) H SH (env d.p.1.c d.r x (some g.doc)) g.id x g.keys.length)
    (newRun Dto Obj (newData (d.p.1.c.gen x d.r)) d.t0) d.hist = .ok d.u
  gen : Generates (d.p.1.c.y x d.r) net g.keys.length x (d.p.1.c.gen x d.r) d.ph
  done : d.u.phase = .done

section
variable {H : List UInt8 → List UInt8} {SH : Share → List UInt8} {g : Group} {t0 : Int} {ps : List (Process K × Job)} {net : Net}
  (hps : Gathered H SH g t0 ps)
include hps

theorem seat_guest {p : Process K × Job} (hp : p ∈ ps) {x : Int} (hx : x ∈ p.1.c.guests) : ∃ i : Nat, i < g.keys.length ∧ x = i := by
  obtain ⟨i, e, _, ⟨pub, _, h⟩, _⟩ := (hps.ready p hp).guest x hx
  obtain ⟨h1, _⟩ := List.findIdx?_eq_some_iff_getElem.1 h
  exact ⟨i, h1, e⟩

/-- Every member has its run. -/
theorem seat_of (hg : Generating g net ps) {p : Process K × Job} (hp : p ∈ ps) {x : Nat} (hx : (x : Int) ∈ p.1.c.guests) :
    ∃ d : Seat K, d.p = p ∧ d.Of H SH g net ps x := by
  have hr := hps.ready p hp
  have ht := hps.takes p hp
  obtain ⟨b, hb, hbj, _, hperm⟩ := C91_ends p.1.c p.1.h p.1.s hr.run hr.guests hr.ids (hps.prompt p hp) p.2 (hps.asked p hp)
    (by rw [hps.start p hp]; exact hps.now p hp)
  obtain ⟨l, hl, hlx⟩ := List.mem_map.1 (hperm.mem_iff.2 hx)
  obtain ⟨r, o, u, f1, f2, f3, f4, _⟩ := line_run hr hb hl
  rw [hlx, hbj, ht.id] at f2
  obtain ⟨_, _, hP⟩ := inv_of (W := fun m => .net m ∈ p.1.h) hr.run hr.guests hr.ids (fun _ h => h)
  obtain ⟨t0, hist, k4, k5⟩ := hP.u.trace r o u f1 f3 b hb (by rw [f2, hbj, ht.id])
  obtain ⟨ph, h3⟩ := hg.gen p hp x r o hx f1 f2
  rw [f2] at k4 k5
  rw [hbj, ht.doc, hr.members, hr.hashes.1, hr.hashes.2] at k5
  exact ⟨⟨p, r, u, t0, hist, ph⟩, rfl, ⟨hp, hx, ⟨o, f1, f2⟩, f3, k4, k5, h3, f4⟩⟩

/-- A run for the request is the one of its member. -/
theorem seat_unique {x : Nat} {d : Seat K} (hd : d.Of H SH g net ps x) {p : Process K × Job} (hp : p ∈ ps) {r : Nat} {o : Registry.Obj}
    {u : Prot.Run Dto Obj (Data K)} (ho : p.1.s.node.reg.objs[r]? = some o) (hk : o.key = ⟨1, x, g.id⟩) (hu : p.1.s.runs[r]? = some u) :
    p = d.p ∧ r = d.r ∧ u = d.u := by
  have hr := hps.ready p hp
  obtain ⟨_, _, hP⟩ := inv_of (W := fun _ => True) hr.run hr.guests hr.ids (fun _ _ => trivial)
  obtain ⟨_, _, _, hg, _⟩ := job_of hP.n hP.j ho
  rw [hk] at hg
  obtain rfl := hps.once p hp d.p hd.mem x hg hd.guest
  obtain ⟨o', ho', hk'⟩ := hd.key
  obtain rfl := hP.n.one ho ho' (by rw [hk, hk'])
  exact ⟨rfl, rfl, Option.some.inj (hu.symm.trans hd.run)⟩

omit hps in
/-- The runs for the request, as a group. -/
def seatGroup (d : Nat → Seat K) (hd : ∀ x, net.on x → (d x).Of H SH g net ps x) : Generation.Group K g.keys.length g.id 1 net where
  c x := dssConf ((d x).p.1.c.y x (d x).r) H SH (env (d x).p.1.c (d x).r x (some g.doc)) g.id x g.keys.length
  y x := (d x).p.1.c.y x (d x).r
  k0 x := (d x).p.1.c.gen x (d x).r
  ph x := (d x).ph
  t0 x := (d x).t0
  h x := (d x).hist
  r x := (d x).u
  conf _ _ := ⟨.inr ⟨_, _, _, rfl⟩, rfl⟩
  gen x hx := (hd x hx).gen
  run x hx := (hd x hx).exec

theorem seat_closed (hg : Generating g net ps) {d : Nat → Seat K} (hd : ∀ x, net.on x → (d x).Of H SH g net ps x) (hc : Relayed g ps) :
    Generation.Closed (seatGroup d hd) := by
  intro x hx m hm ho hacc
  have hm : .handled m ∈ (d x).u.log := hm
  have a := agree_exec (hd x hx).exec
  obtain ⟨_, h1⟩ := (KeyProgram.handled_given a.inv).1 hm
  have h2 := KeyProgram.given_received h1
  rw [a.received] at h2
  obtain ⟨h3, h4, h5⟩ := (hd x hx).msgs m h2
  have hpc : m.pc = 1 := congrArg RunKey.pc h5
  have hrc : m.rcpt = x := congrArg RunKey.gidx h5
  have hid : m.runId = g.id := congrArg RunKey.runId h5
  refine ⟨hrc, ?_⟩
  obtain ⟨q, hq, u, hu, hs⟩ := hc.authentic _ (hd x hx).mem m h3 hpc hid ho (Verif.Generation.dss_accepts.1 hacc)
  obtain ⟨r, hr⟩ := List.mem_iff_getElem?.1 hu
  have hR := hps.ready q hq
  obtain ⟨_, _, hP⟩ := inv_of (W := fun _ => True) hR.run hR.guests hR.ids (fun _ _ => trivial)
  have ho' := List.getElem?_eq_getElem (show r < q.1.s.node.reg.objs.length by rw [← hP.u.len]; exact lt_of_some hr)
  generalize q.1.s.node.reg.objs[r]'_ = o' at ho'
  obtain ⟨b, hb, _, hgu, hkey⟩ := job_of hP.n hP.j ho'
  obtain ⟨_, _, _, htr⟩ := hP.u.trace r o' u ho' hr b hb (by rw [hkey])
  obtain ⟨l1, l2, e⟩ := List.append_of_mem (Verif.Props.sent_requested htr hs)
  obtain ⟨_, _, f3⟩ := (agree_exec htr).inv.core.legal l1 _ l2 e
  have f3 : m.runId = o'.key.runId := f3
  obtain ⟨y, hy, hyx⟩ := seat_guest hps hq hgu
  have hk : o'.key = ⟨1, y, g.id⟩ := by
    rw [hkey] at f3
    have f3 : m.runId = jobId b.job := f3
    rw [hkey, hyx, ← f3, hid]
  have hy : net.on y := (hg.part y).2 ⟨q, hq, by rw [← hyx]; exact hgu⟩
  obtain ⟨rfl, rfl, rfl⟩ := seat_unique hps (hd y hy) hq ho' hk hr
  exact ⟨y, hy, hs⟩

omit hps in
theorem seat_stage {x : Nat} {d : Seat K} (hd : d.Of H SH g net ps x) : d.u.state = 11 := by
  have h := ((agree_exec hd.exec).inv.done hd.done).1
  have h6 : d.u.state + 1 = 12 := h
  omega

/-- What one member sends to another is handled by it. -/
theorem seat_timely {d : Nat → Seat K} (hd : ∀ x, net.on x → (d x).Of H SH g net ps x) (hc : Relayed g ps) :
    Generation.Timely (seatGroup d hd) := by
  intro x hx y hy m hm hrc ho
  have hm : .sent m ∈ (d y).u.log := hm
  show .handled m ∈ (d x).u.log
  obtain ⟨l1, l2, e⟩ := List.append_of_mem (Verif.Props.sent_requested (hd y hy).exec hm)
  obtain ⟨_, f2, f3⟩ := (agree_exec (hd y hy).exec).inv.core.legal l1 _ l2 e
  have f2 : m.pc = 1 := f2
  have f3 : m.runId = g.id := f3
  have hq := (hd y hy).mem
  have hp := (hd x hx).mem
  have hQ := hps.ready _ hq
  have hP := hps.ready _ hp
  obtain ⟨t, hs⟩ := sends_of _ hQ.run ⟨_, List.mem_of_getElem? (hd y hy).run, hm⟩
  have hgx := (hd x hx).guest
  obtain ⟨t', ha, h1, h2⟩ := hc.arrives _ hp _ hq m t hs f2 f3 (by rw [hrc]; exact hgx)
  obtain ⟨hop, ht, _⟩ := C91_sends _ _ _ hQ.run hQ.guests hQ.ids (hps.prompt _ hq) _ (hps.asked _ hq) m (f3.trans (hps.takes _ hq).id.symm) t hs
  rw [hps.start _ hq] at ht
  have hnow := hps.now _ hp
  have times : ends m.op = ends (m.op - 1) + 75 ∧ 25 ≤ ends (m.op - 1) ∧ ends m.op ≤ 625 := by
    simp only [List.mem_cons, List.not_mem_nil, or_false] at hop
    rcases hop with e | e | e | e | e | e | e <;> rw [e] <;> decide
  obtain ⟨r, o, u, g1, g2, g3, g4⟩ := C91_given _ _ _ hP.run hP.guests hP.ids (hps.prompt _ hp) _ (hps.asked _ hp) x hgx m
    (by rw [Message.key, f2, hrc, f3, (hps.takes _ hp).id])
    (by simp only [List.mem_cons, List.not_mem_nil, or_false] at hop; omega) (by simp only [List.mem_cons, List.not_mem_nil, or_false] at hop; omega)
    t' ha (by rw [hps.start _ hp]; omega) (by rw [hps.start _ hp]; omega) (by omega)
  obtain ⟨_, _, rfl⟩ := seat_unique hps (hd x hx) hp g1 (by rw [g2, (hps.takes _ hp).id]) g3
  refine (KeyProgram.handled_given (agree_exec (hd x hx).exec).inv).2 ⟨?_, g4⟩
  rw [seat_stage (hd x hx)]
  omega

/-- What is known of the run of a member. -/
theorem seat_key (hg : Generating g net ps) (hc : Relayed g ps) {p : Process K × Job} (hp : p ∈ ps) {r : Nat} {o : Registry.Obj}
    {u : Prot.Run Dto Obj (Data K)} (ho : p.1.s.node.reg.objs[r]? = some o) (hid : o.key.runId = g.id) (hu : p.1.s.runs[r]? = some u) :
    ∃ x : Nat, net.on x ∧ o.key.gidx = x ∧ (∀ l1 l2, u.log = l1 ++ .abandoned :: l2 → 9 ≤ stageOf l1) ∧
      (∃ q, u.user.qual = some q ∧ ∀ z, z ∈ q ↔ ∃ b : Nat, net.on b ∧ z = b) ∧
      (p.1.c.y o.key.gidx r).distKeyShare u.user.kyb = .ok (net.key x) ∧
      ∀ z, z ∈ (p.1.c.y o.key.gidx r).qual u.user.kyb ↔ ∃ b : Nat, net.on b ∧ z = b := by
  have hr := hps.ready p hp
  obtain ⟨_, _, hP⟩ := inv_of (W := fun _ => True) hr.run hr.guests hr.ids (fun _ _ => trivial)
  obtain ⟨b, hb, _, hgu, hkey⟩ := job_of hP.n hP.j ho
  obtain ⟨x, hx, hxe⟩ := seat_guest hps hp hgu
  have hk : o.key = ⟨1, x, g.id⟩ := by rw [hkey] at hid ⊢; rw [hxe, ← hid]
  rw [hxe] at hgu
  have hx : net.on x := (hg.part x).2 ⟨p, hp, hgu⟩
  obtain ⟨d0, _, hd0⟩ := seat_of hps hg hp hgu
  have : ∀ y : Nat, ∃ d : Seat K, net.on y → d.Of H SH g net ps y := by
    intro y
    by_cases hy : net.on y
    · obtain ⟨q, hq, hqy⟩ := (hg.part y).1 hy
      obtain ⟨d, _, hd⟩ := seat_of hps hg hq hqy
      exact ⟨d, fun _ => hd⟩
    · exact ⟨d0, fun h => absurd h hy⟩
  choose d hd using this
  have h8 : ∀ y, net.on y → 8 ≤ stageOf ((seatGroup d hd).r y).log := by
    intro y hy
    show 8 ≤ stageOf (d y).u.log
    rw [(agree_exec (hd y hy).exec).inv.core.stage, seat_stage (hd y hy)]
    decide
  obtain ⟨_, _, h1, q, _, h2, h3, _, _, h5, h6⟩ :=
    Generation.C99_together hg.proper (seatGroup d hd) (seat_closed hps hg hd hc) (seat_timely hps hd hc) h8 x hx
  obtain ⟨rfl, rfl, rfl⟩ := seat_unique hps (hd x hx) hp ho hk hu
  rw [hxe]
  exact ⟨x, hx, rfl, fun l1 l2 e => (h1 l1 l2 e).2, ⟨q, h2, h3.2⟩, h5, h6.2⟩

/-- C101. Let processes be asked to sign a document, none of them late, with `g.T` or more guests in all. Let what comes in for the
generation of the nonce be what the processes send, and all that they send for the request come in less than 70 ms later, with room in the
queue. When kyber's generators do what is expected among honest members of which the guests of the processes take part, there is a signature that verifies and that every process has
printed for every guest. -/
theorem C101_all (hH : ∀ b, (H b).length = 32) (hg : g.Sound) (hgen : Generating g net ps) (hc : Relayed g ps) (S : List Int) (hSn : S.Nodup)
    (hST : g.T ≤ S.length) (hSg : ∀ x ∈ S, ∃ p ∈ ps, x ∈ p.1.c.guests) :
    ∃ sig, Schnorr.verify H (.pt (timesAdd base (g.ls.headD 0))) g.doc sig = .ok () ∧
      ∀ p ∈ ps, ∃ b ∈ p.1.s.jobs, b.job = p.2 ∧ b.pc = .ended ∧ b.lines.Perm (p.1.c.guests.map fun x => (x, some sig)) := by
  have hsigns : ∀ p ∈ ps, p.1.Signs g p.2 := by
    intro p hp
    have ht := hps.takes p hp
    refine ⟨ht.req, ht.id, ht.doc, fun r o u f1 f2 f3 random hk => ?_⟩
    obtain ⟨x, hx, e, _, _, h5, _⟩ := seat_key hps hgen hc hp f1 f2 f3
    have := Outcome.ok.inj (hk.symm.trans h5)
    subst this
    rw [e]
    exact hgen.shares x hx
  have htog : Together H SH g t0 ps := ⟨hps.ready, hsigns, hps.prompt, hps.asked, hps.start, hps.now⟩
  refine C91_all hH hg t0 ps htog S hSn hST hSg ?_ ?_ ?_
  · intro p hp r o u f1 f2 f3 l1 l2 e
    obtain ⟨x, hx, e', h1, _, h5, _⟩ := seat_key hps hgen hc hp f1 f2 f3
    obtain ⟨i, t, hist, e1, e2⟩ := honest_run (hps.ready p hp) (hsigns p hp) f1 f2 f3
    have := honest_late hH hg e2 h1 (by show (p.1.c.y o.key.gidx r).distKeyShare u.user.kyb ≠ .err; rw [h5]; simp) l1 l2 e
    omega
  · intro p hp r o u f1 f2 f3 q hq y hy
    obtain ⟨x, hx, e', h1, ⟨Q, h3, h4⟩, h5, h6⟩ := seat_key hps hgen hc hp f1 f2 f3
    obtain ⟨i, _, rfl⟩ := seat_guest hps hq hy
    have hi : net.on i := (hgen.part i).2 ⟨q, hq, hy⟩
    refine ⟨fun Q' hQ' => ?_, fun _ _ => (h6 _).2 ⟨i, hi, rfl⟩⟩
    rw [h3] at hQ'
    rw [← Option.some.inj hQ']
    exact (h4 _).2 ⟨i, hi, rfl⟩
  · intro p hp q hq m t hs h1 h2 h3 h4
    obtain ⟨t', a1, a2, a3⟩ := hc.arrives p hp q hq m t hs h1 h2 h4
    exact ⟨t', a1, by omega, a3⟩

end

end Verif.Props.Program
