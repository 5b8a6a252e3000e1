import Verif.Proofs.ProgramSafe

/-!
C75-C77: the program as it signs, in every history: what a request prints, that nothing panics, and what is left over.
-/
namespace Verif.Props.Program
open Verif.Prot Verif.Dto Verif.Dss Verif.Dkg Verif.Point Verif.Tables Verif.Signode Verif.Program Verif.Props Verif.Spec.Prot Verif.Spec.Program
variable {K : Type}

theorem inv_of {c : Cfg K} {h : List Ev} {s : Sys K} {W : Message Dto → Prop} (hr : run c (init c) h = .ok s) (hg : c.guests.Nodup)
    (hd : ((requests h).map jobId).Nodup) (hw : ∀ m, .net m ∈ h → W m) :
    reqs s = requests h ∧ Distinct s.jobs ∧ PInv c W s := by
  have h1 : reqs s = requests h := by rw [reqs_run hr]; rfl
  have h2 : Distinct s.jobs := by rw [← h1, reqs, List.map_map] at hd; exact hd
  exact ⟨h1, h2, pinv_run (pinv_init c W) h2 hg hw hr⟩

/-- C75 (origin of the lines). In every history in which the requests have different run identifiers, the goroutines are those of the
requests, and each one that has ended has printed one line for each guest. Every line comes from one run of the signing protocol for this
guest, run identifier and document: a run that has ended and that has been given only messages that arrived from the network for it.
The line is the last signature that this run put out, or says that there is none. -/
theorem C75_origin (c : Cfg K) (h : List Ev) (s : Sys K) (hr : run c (init c) h = .ok s) (hg : c.guests.Nodup)
    (hd : ((requests h).map jobId).Nodup) :
    s.jobs.map JobSt.job = requests h ∧
    ∀ b ∈ s.jobs, (b.pc = .ended → (b.lines.map Prod.fst).Perm c.guests) ∧
      ∀ p ∈ b.lines, p.1 ∈ c.guests ∧ ∃ (r : Nat) (t0 : Int) (hist : List (Prot.Ev Dto)) (u : Prot.Run Dto Obj (Data K)),
        exec (dssConf (c.y p.1 r) c.H c.SH ⟨c.secret p.1, c.participants, c.threshold, c.longterms.get? p.1, some b.job.doc, c.nonce r⟩
          (jobId b.job) p.1 c.members) (newRun Dto Obj (newData (c.gen p.1 r)) t0) hist = .ok u ∧ s.runs[r]? = some u ∧ u.phase = .done ∧
        (∀ m ∈ msgs hist, .net m ∈ h ∧ m.pc = 1 ∧ m.rcpt = p.1 ∧ m.runId = jobId b.job) ∧ p.2 = lastSig u.user.out := by
  obtain ⟨h1, h2, hP⟩ := inv_of (W := fun m => .net m ∈ h) hr hg hd (fun m hm => hm)
  refine ⟨h1, fun b hb => ⟨(hP.j.lines b hb).2.1, fun p hp => ?_⟩⟩
  obtain ⟨r, o, u, g1, g2, g3, g4, g5⟩ := hP.u.line b hb p hp
  obtain ⟨b', hb', _, k2, k3⟩ := job_of hP.n hP.j g1
  obtain ⟨t0, hist, k4, k5⟩ := hP.u.trace r o u g1 g3 b hb (by rw [g2])
  rw [g2] at k2 k4 k5
  refine ⟨k2, r, t0, hist, u, k5, g3, g4, fun m hm => ?_, g5⟩
  obtain ⟨f1, _, f3⟩ := k4 m hm
  exact ⟨f1, congrArg RunKey.pc f3, congrArg RunKey.gidx f3, congrArg RunKey.runId f3⟩

theorem lastSig_mem {l : List Output} {sig : Schnorr.Sig} (h : lastSig l = some sig) : .sig sig ∈ l := by
  have key : ∀ (l : List Output) (a : Option Schnorr.Sig),
      l.foldl (fun a v => match v with | .sig s => some s | .key _ _ => a) a = some sig → a = some sig ∨ Output.sig sig ∈ l := by
    intro l
    induction l with
    | nil => exact fun a h => .inl h
    | cons v l ih =>
      intro a h
      rw [List.foldl_cons] at h
      rcases ih _ h with h | h
      · cases v with
        | sig s => exact .inr (by rw [Option.some.inj h]; exact List.mem_cons_self ..)
        | key _ _ => exact .inl h
      · exact .inr (List.mem_cons_of_mem _ h)
  exact (key l none h).resolve_left fun h => by cases h

/-- The shares of the guests belong together: their long-term shares are those of one polynomial `ls` with at most `threshold`
coefficients, and what their generators give in the end is the own share of some such polynomial. -/
structure Consistent (c : Cfg K) (s : Sys K) (ls : List Nat) : Prop where
  key : ls.headD 0 % secp256k1N ≠ 0
  len : (ls.length : Int) ≤ c.threshold
  few : c.participants.length ≤ 2 ^ 63
  long : ∀ g ∈ c.guests, ∃ long, c.longterms.get? g = some long ∧ long.commits = ls.map (timesAdd base) ∧
    ∀ i r d, OwnIndex (env c r g d) i → (long.share.V - peval ls (i + 1)) % secp256k1N = 0
  random : ∀ g ∈ c.guests, ∀ r u, s.runs[r]? = some u → ∀ random, (c.y g r).distKeyShare u.user.kyb = .ok random → ∃ rs : List Nat, rs ≠ [] ∧
    random.commits = rs.map (timesAdd base) ∧ (rs.length : Int) ≤ c.threshold ∧
    ∀ i d, OwnIndex (env c r g d) i → (random.share.V - peval rs (i + 1)) % secp256k1N = 0

/-- C75 (with different run identifiers and consistent shares). Every signature printed for a request verifies for the document of this
request under the long-term public key, whatever arrived from the network. What is missing for the full claim: the hypothesis on
the run identifiers, without which it is false (`C75_counterexample`), and those of `C65_verifies_partial`. -/
theorem C75_verifies_partial (c : Cfg K) (hH : ∀ b, (c.H b).length = 32) (ls : List Nat) (h : List Ev) (s : Sys K) (hc : Consistent c s ls)
    (hr : run c (init c) h = .ok s) (hg : c.guests.Nodup) (hd : ((requests h).map jobId).Nodup)
    (b : JobSt) (hb : b ∈ s.jobs) (hdoc : 0 ≤ b.job.doc ∧ b.job.doc < 2 ^ 256) (g : Int) (sig : Schnorr.Sig) (hl : (g, some sig) ∈ b.lines) :
    Schnorr.verify c.H (.pt ((ls.map (timesAdd base)).headD null)) b.job.doc sig = .ok () := by
  obtain ⟨_, h2⟩ := C75_origin c h s hr hg hd
  obtain ⟨h3, r, t0, hist, u, h4, hu, _, _, h5⟩ := (h2 b hb).2 _ hl
  obtain ⟨long, g1, g2, g3⟩ := hc.long g h3
  rw [← g2]
  exact C65_verifies_partial (c.y g r) c.H hH c.SH (env c r g (some b.job.doc)) (jobId b.job) g c.members _ t0 hist u h4 long b.job.doc
    g1 rfl hdoc ls g2 hc.key hc.len hc.few (fun i hi => g3 i r _ hi)
    (fun random hk => by
      obtain ⟨rs, f1, f2, f3, f4⟩ := hc.random g h3 r u hu random hk
      exact ⟨rs, f1, f2, f3, fun i hi => f4 i _ hi⟩)
    sig (lastSig_mem h5.symm)

/-- C76 (with complete messages). If the requests have different run identifiers, the generators do not panic, every guest has a
long-term share with commitments, and every message from the network is complete, then no history makes the program panic. What is
missing for the full claim: these hypotheses; it is false without the first and without the last (`C76_counterexample_ids`,
`C76_counterexample`). -/
theorem C76_partial (c : Cfg K) (hc : Sane c) (hg : c.guests.Nodup) (h : List Ev) (hd : ((requests h).map jobId).Nodup)
    (hm : ∀ m, .net m ∈ h → Complete m.dto) : run c (init c) h ≠ .panic :=
  run_all_safe (W := fun m => Complete m.dto) (sane_runs hc fun _ h => h) hg h (pinv_init c _) (sinv_init c) (by simpa [reqs, init] using hd) hm

/-- C77 (documents). At every moment the documents registered are those of the requests between their registration and their
deregistration: there are no others, and none is missing while the runs of the request go on. -/
theorem C77_docs (c : Cfg K) (h : List Ev) (s : Sys K) (hr : run c (init c) h = .ok s) (hg : c.guests.Nodup)
    (hd : ((requests h).map jobId).Nodup) (g : Int) (id : String) (d : Int) :
    (docFor s.docs g id = some d → g ∈ c.guests ∧ ∃ b ∈ s.jobs, jobId b.job = id ∧ b.job.doc = d ∧ b.pc ≠ .printing ∧ b.pc ≠ .ended) ∧
    (∀ b ∈ s.jobs, g ∈ c.guests → b.pc = .launching ∨ b.pc = .waiting → docFor s.docs g (jobId b.job) = some b.job.doc) := by
  obtain ⟨_, _, hP⟩ := inv_of (W := fun _ => True) hr hg hd (fun _ _ => trivial)
  refine ⟨fun hx => ?_, fun b hb hgg hp => ?_⟩
  · obtain ⟨h1, b, hb, h2, h3, h4⟩ := (hP.j.docs g id d).1 hx
    refine ⟨h1, b, hb, h2, h4, ?_, ?_⟩ <;> intro hp <;> rcases h3 with ⟨h3, _⟩ | h3 | h3 | ⟨h3, _⟩ <;> rw [hp] at h3 <;> cases h3
  · exact (hP.j.docs g _ _).2 ⟨hgg, b, hb, rfl, .inr (hp.imp (fun h => h) .inl), rfl⟩

/-- C77 (signatures). A signature in the table of outputs belongs to a request that has not printed it yet. -/
theorem C77_sigs (c : Cfg K) (h : List Ev) (s : Sys K) (hr : run c (init c) h = .ok s) (hg : c.guests.Nodup)
    (hd : ((requests h).map jobId).Nodup) (g : Int) (id : String) (v : Output) (hv : waiting s.outs 1 g id = some v) :
    g ∈ c.guests ∧ ∃ b ∈ s.jobs, jobId b.job = id ∧ b.pc ≠ .ended ∧ g ∉ b.lines.map Prod.fst := by
  obtain ⟨_, _, hP⟩ := inv_of (W := fun _ => True) hr hg hd (fun _ _ => trivial)
  obtain ⟨⟨r, o, h1, h2⟩, h3⟩ := hP.u.outs g id (by rw [hv]; simp)
  obtain ⟨b, hb, _, h5, h6⟩ := job_of hP.n hP.j h1
  rw [h2] at h5 h6
  have hid : jobId b.job = id := (congrArg RunKey.runId h6).symm
  have h7 := h3 b hb hid
  refine ⟨h5, b, hb, hid, fun hp => h7 (.inr hp), fun hm => ?_⟩
  obtain ⟨l1, _, l3⟩ := hP.j.lines b hb
  by_cases hp : b.pc = .printing
  · rw [l1 hp, List.mem_reverse] at hm
    exact h7 (.inl ⟨hp, hm⟩)
  · rw [l3 hp fun hp => h7 (.inr hp)] at hm
    cases hm

/-- C77 (after the end). Once a request has ended, neither its document nor a signature for it is in the tables. -/
theorem C77_ended (c : Cfg K) (h : List Ev) (s : Sys K) (hr : run c (init c) h = .ok s) (hg : c.guests.Nodup)
    (hd : ((requests h).map jobId).Nodup) (b : JobSt) (hb : b ∈ s.jobs) (he : b.pc = .ended) (g : Int) :
    docFor s.docs g (jobId b.job) = none ∧ waiting s.outs 1 g (jobId b.job) = none := by
  obtain ⟨_, hD, _⟩ := inv_of (W := fun _ => True) hr hg hd (fun _ _ => trivial)
  constructor
  · cases hx : docFor s.docs g (jobId b.job) with
    | none => rfl
    | some d =>
      obtain ⟨_, b', hb', h1, _, _, h2⟩ := (C77_docs c h s hr hg hd g _ d).1 hx
      rw [hD.eq hb' hb h1] at h2
      exact absurd he h2
  · cases hx : waiting s.outs 1 g (jobId b.job) with
    | none => rfl
    | some v =>
      obtain ⟨_, b', hb', h1, h2, _⟩ := C77_sigs c h s hr hg hd g _ v hx
      rw [hD.eq hb' hb h1] at h2
      exact absurd he h2

end Verif.Props.Program
