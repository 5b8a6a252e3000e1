import Verif.Props.Program
import Verif.Props.Signing

/-!
C80 and C81: several processes that sign together. They run the same code, so they have the same hash functions. As in
`Verif.Props.Signing` the generators are arbitrary, except that what they return in the runs of one request are shares of one
polynomial.
-/
namespace Verif.Props.Program
open Verif.Prot Verif.Dto Verif.Dss Verif.Dkg Verif.Point Verif.Tables Verif.Signode Verif.Program Verif.Props Verif.Spec.Prot Verif.Spec.Program
variable {K : Type}

/-- A process, what has happened in it and the state it is in. -/
structure Process (K : Type) where
  c : Cfg K
  h : List Ev
  s : Sys K

/-- The process has the keys, the threshold and the hash functions of the group; each guest has the number of its own public key, and its
share of the long-term key. The history is one in which the requests have different run identifiers. -/
structure Process.Ready (p : Process K) (H : List UInt8 → List UInt8) (SH : Share → List UInt8) (g : Group) : Prop where
  run : Program.run p.c (init p.c) p.h = .ok p.s
  guests : p.c.guests.Nodup
  ids : ((requests p.h).map jobId).Nodup
  hashes : p.c.H = H ∧ p.c.SH = SH
  members : p.c.members = g.keys.length
  keys : p.c.participants = g.keys
  threshold : p.c.threshold = g.T
  guest : ∀ x ∈ p.c.guests, ∃ i : Nat, x = (i : Int) ∧ p.c.secret x % secp256k1N ≠ 0 ∧
    (∃ pub, mulBase (p.c.secret x) = .ok pub ∧ (g.keys.findIdx? fun q => equal q pub) = some i) ∧
    ∃ long, p.c.longterms.get? x = some long ∧ long.commits = g.ls.map (timesAdd base) ∧
      (long.share.V - peval g.ls (i + 1)) % secp256k1N = 0

/-- A request to sign the document of the group has been read, under the identifier of the group, and the generators of the runs
for it give shares of the nonce of the group in the states they are in at the end. -/
structure Process.Signs (p : Process K) (g : Group) (j : Job) : Prop where
  req : j ∈ requests p.h
  id : jobId j = g.id
  doc : j.doc = g.doc
  random : ∀ (r : Nat) (o : Registry.Obj) (u : Prot.Run Dto Obj (Data K)), p.s.node.reg.objs[r]? = some o → o.key.runId = g.id →
    p.s.runs[r]? = some u → ∀ random, (p.c.y o.key.gidx r).distKeyShare u.user.kyb = .ok random → random.commits = g.rs.map (timesAdd base) ∧
      (random.share.V - peval g.rs (o.key.gidx + 1)) % secp256k1N = 0

variable {H : List UInt8 → List UInt8} {SH : Share → List UInt8} {g : Group}

/-- A run of such a process is one of an honest member. -/
theorem honest_run {p : Process K} (hp : p.Ready H SH g) {j : Job} (hj : p.Signs g j) {r : Nat} {o : Registry.Obj}
    {u : Prot.Run Dto Obj (Data K)} (ho : p.s.node.reg.objs[r]? = some o) (hid : o.key.runId = g.id) (hu : p.s.runs[r]? = some u) :
    ∃ (i : Nat) (t0 : Int) (hist : List (Prot.Ev Dto)), o.key.gidx = (i : Int) ∧
      Honest H SH g i ⟨p.c.y o.key.gidx r, env p.c r o.key.gidx (some g.doc), p.c.gen o.key.gidx r, t0, hist, u⟩ := by
  obtain ⟨h1, hD, hP⟩ := inv_of (W := fun _ => True) hp.run hp.guests hp.ids (fun _ _ => trivial)
  obtain ⟨b, hb, _, hg, hk⟩ := job_of hP.n hP.j ho
  have hbid : jobId b.job = o.key.runId := by rw [hk]
  have hbj : b.job = j := by
    have : b.job ∈ requests p.h := by rw [← h1]; exact List.mem_map.2 ⟨b, hb, rfl⟩
    exact List.inj_on_of_nodup_map hp.ids this hj.req (hbid.trans (hid.trans hj.id.symm))
  obtain ⟨t0, hist, _, hx⟩ := hP.u.trace r o u ho hu b hb hbid
  obtain ⟨i, e1, e2, e3, e4⟩ := hp.guest _ hg
  refine ⟨i, t0, hist, e1, ?_, ?_, e2, hp.keys, hp.threshold, rfl, e4, ?_⟩
  · rw [hbj, hj.doc, hid, hp.members, hp.hashes.1, hp.hashes.2] at hx
    rw [← e1]
    exact hx
  · obtain ⟨pub, f1, f2⟩ := e3
    exact ⟨pub, f1, by rw [show (env p.c r o.key.gidx (some g.doc)).participants = g.keys from hp.keys]; exact f2⟩
  · intro random hk
    rw [← e1]
    exact hj.random r o u ho hid hu random hk

/-- Where a printed line comes from. -/
theorem line_run {p : Process K} (hp : p.Ready H SH g) {b : JobSt} (hb : b ∈ p.s.jobs) {l : Int × Option Schnorr.Sig}
    (hl : l ∈ b.lines) : ∃ (r : Nat) (o : Registry.Obj) (u : Prot.Run Dto Obj (Data K)), p.s.node.reg.objs[r]? = some o ∧
      o.key = ⟨1, l.1, jobId b.job⟩ ∧ p.s.runs[r]? = some u ∧ u.phase = .done ∧ l.2 = lastSig u.user.out := by
  obtain ⟨_, _, hP⟩ := inv_of (W := fun _ => True) hp.run hp.guests hp.ids (fun _ _ => trivial)
  exact hP.u.line b hb l hl

theorem lastSig_some {l : List Output} {sig : Schnorr.Sig} (h : Output.sig sig ∈ l) : ∃ sig', lastSig l = some sig' := by
  have keep : ∀ (l : List Output) (a : Option Schnorr.Sig), a ≠ none →
      l.foldl (fun a v => match v with | .sig s => some s | .key _ _ => a) a ≠ none := by
    intro l
    induction l with
    | nil => exact fun a h => h
    | cons v l ih =>
      intro a h
      rw [List.foldl_cons]
      cases v with
      | sig s => exact ih _ (by simp)
      | key _ _ => exact ih _ h
  obtain ⟨l1, l2, rfl⟩ := List.append_of_mem h
  rw [lastSig, List.foldl_append, List.foldl_cons]
  exact Option.ne_none_iff_exists'.1 (keep l2 _ (by simp))

/-- C80. Whatever arrives at two processes that sign a document together, all signatures that they print for the request are
equal, and they verify for this document under the long-term public key. -/
theorem C80_same (hH : ∀ b, (H b).length = 32) (hg : g.Sound) (p q : Process K) (hp : p.Ready H SH g) (hq : q.Ready H SH g) (j j' : Job)
    (hj : p.Signs g j) (hj' : q.Signs g j') (b b' : JobSt) (hb : b ∈ p.s.jobs) (hb' : b' ∈ q.s.jobs) (hbj : b.job = j) (hbj' : b'.job = j')
    (x x' : Int) (sig sig' : Schnorr.Sig) (hl : (x, some sig) ∈ b.lines) (hl' : (x', some sig') ∈ b'.lines) :
    sig = sig' ∧ Schnorr.verify H (.pt (timesAdd base (g.ls.headD 0))) g.doc sig = .ok () := by
  obtain ⟨r, o, u, h1, h2, h3, _, h4⟩ := line_run hp hb hl
  obtain ⟨r', o', u', h1', h2', h3', _, h4'⟩ := line_run hq hb' hl'
  obtain ⟨i, t0, hist, e1, e2⟩ := honest_run hp hj h1 (by rw [h2, hbj]; exact hj.id) h3
  obtain ⟨i', t0', hist', e1', e2'⟩ := honest_run hq hj' h1' (by rw [h2', hbj']; exact hj'.id) h3'
  have hm : .sig sig ∈ u.user.out := lastSig_mem h4.symm
  refine ⟨C73_agree H hH SH g hg i i' _ _ e2 e2' sig sig' hm (lastSig_mem h4'.symm), ?_⟩
  exact honest_verifies hH hg e2 hm

/-- C81. Let a request have ended in a process, and its run for guest `x` have not been abandoned before the partial signatures are
exchanged. If at least `T - 1` other members, all in QUAL, are guests of processes that sign the same document with it, and the run
was given their partial signatures in time, then the line for this guest is a signature that verifies, whatever else has arrived. -/
theorem C81_prints (hH : ∀ b, (H b).length = 32) (hg : g.Sound) (p : Process K) (hp : p.Ready H SH g) (j : Job) (hj : p.Signs g j)
    (b : JobSt) (hb : b ∈ p.s.jobs) (hbj : b.job = j) (hend : b.pc = .ended) (x : Int) (hx : x ∈ p.c.guests)
    (r : Nat) (o : Registry.Obj) (u : Prot.Run Dto Obj (Data K)) (ho : p.s.node.reg.objs[r]? = some o) (hk : o.key = ⟨1, x, g.id⟩)
    (hu : p.s.runs[r]? = some u) (hgo : ∀ l1 l2, u.log = l1 ++ .abandoned :: l2 → 9 < stageOf l1)
    (ys : List Int) (hnd : ys.Nodup) (hxy : x ∉ ys) (hT : g.T ≤ ys.length + 1)
    (hq : ∀ y ∈ ys, ∀ random, (p.c.y x r).distKeyShare u.user.kyb = .ok random → y ∈ (p.c.y x r).qual u.user.kyb)
    (hys : ∀ y ∈ ys, ∃ (q : Process K) (j' : Job) (v : Prot.Run Dto Obj (Data K)) (m : Message Dto), q.Ready H SH g ∧ q.Signs g j' ∧
      v ∈ q.s.runs ∧ .sent m ∈ v.log ∧ m.sender = y ∧ m.op = 10 ∧ m.runId = g.id ∧ m ∈ early 10 u.log ++ inTime 10 u.log) :
    ∃ sig, (x, some sig) ∈ b.lines ∧ Schnorr.verify H (.pt (timesAdd base (g.ls.headD 0))) g.doc sig = .ok () := by
  obtain ⟨_, _, hP⟩ := inv_of (W := fun _ => True) hp.run hp.guests hp.ids (fun _ _ => trivial)
  have hmem : x ∈ b.lines.map Prod.fst := ((hP.j.lines b hb).2.1 hend).mem_iff.2 hx
  obtain ⟨⟨x', l⟩, hl, rfl⟩ := List.mem_map.1 hmem
  obtain ⟨r1, o1, u1, h1, h2, h3, h4, h5⟩ := line_run hp hb hl
  have hr : r = r1 := hP.n.one ho h1 (by rw [h2, hk, hbj, hj.id])
  subst hr
  have ho1 := Option.some.inj (ho.symm.trans h1)
  have hu1 := Option.some.inj (hu.symm.trans h3)
  subst ho1; subst hu1
  have hkx : o.key.gidx = x' := by rw [hk]
  obtain ⟨i, t0, hist, e1, e2⟩ := honest_run hp hj ho (by rw [hk]) hu
  rw [hkx] at e1 e2
  have hsig : ∃ sig, .sig sig ∈ u.user.out := by
    have key : ∀ y ∈ ys, ∃ n : Nat, y = (n : Int) ∧ ∃ (q : Party K) (m : Message Dto), Honest H SH g n q ∧ .sent m ∈ q.r.log ∧
        m.op = 10 ∧ m ∈ early 10 u.log ++ inTime 10 u.log := by
      intro y hy
      obtain ⟨q, j', v, m, q1, q2, q3, q4, q5, q6, q7, q8⟩ := hys y hy
      obtain ⟨_, _, hQ⟩ := inv_of (W := fun _ => True) q1.run q1.guests q1.ids (fun _ _ => trivial)
      obtain ⟨r', hv⟩ := List.mem_iff_getElem?.1 q3
      have hlt : r' < q.s.node.reg.objs.length := by rw [← hQ.u.len]; exact Registry.lt_of_some hv
      have ho' := List.getElem?_eq_getElem hlt
      generalize q.s.node.reg.objs[r'] = o' at ho'
      obtain ⟨b', hb', _, _, f1⟩ := job_of hQ.n hQ.j ho'
      obtain ⟨t1, hist', _, hx'⟩ := hQ.u.trace r' o' v ho' hv b' hb' (by rw [f1])
      have hm := sent_requested hx' q4
      obtain ⟨l1, l2, e⟩ := List.append_of_mem hm
      obtain ⟨f2, _, f3⟩ := (agree_exec hx').inv.core.legal l1 _ l2 e
      have f3' : m.runId = o'.key.runId := f3
      obtain ⟨n, t2, hist2, f4, f5⟩ := honest_run q1 q2 ho' (f3'.symm.trans q7) hv
      refine ⟨n, ?_, _, m, f5, q4, q6, q8⟩
      rw [← q5, ← f4]
      exact f2
    have hterm : u.terminated = true := by
      have := (agree_exec e2.run).inv.term
      have h6 : u.terminated = decide (u.phase = .done) := this
      rw [h6, h4]; rfl
    have hcast : ∀ n ∈ ys.map Int.toNat, (n : Int) ∈ ys := by
      intro n hn
      obtain ⟨y, hy, rfl⟩ := List.mem_map.1 hn
      obtain ⟨n, rfl, _⟩ := key y hy
      exact hy
    obtain ⟨⟨sig, hs, _⟩, _⟩ := C72_signs H hH SH g hg i _ e2 hterm hgo (ys.map Int.toNat)
      (List.Nodup.map_on (fun y hy y' hy' e => by
        obtain ⟨n, rfl, _⟩ := key y hy
        obtain ⟨n', rfl, _⟩ := key y' hy'
        have : n = n' := e
        rw [this]) hnd)
      (fun hm => hxy (by have := hcast i hm; rwa [← e1] at this)) (by rw [List.length_map]; exact hT)
      (fun n hn random hd => hq _ (hcast n hn) random hd)
      (fun n hn => by
        obtain ⟨n', e, h⟩ := key _ (hcast n hn)
        have : n = n' := by omega
        subst this
        exact h)
    exact ⟨sig, hs⟩
  obtain ⟨sig, hs⟩ := hsig
  obtain ⟨sig', hs'⟩ := lastSig_some hs
  rw [hs'] at h5
  have h5' : l = some sig' := h5
  subst h5'
  exact ⟨sig', hl, honest_verifies hH hg e2 (lastSig_mem hs')⟩

end Verif.Props.Program
