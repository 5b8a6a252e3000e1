import Verif.Props.RabinRun
import Verif.Props.ProgramLive
import Verif.Props.KeyProgram

/-!
Property C119: the tool with kyber's generators, as it makes long-term keys and as it signs. Of what the model of the generator leaves out (justifications,
complaints about commitments and about own deals, reconstructions; see `Model/Rabin`) nothing is shown.
-/
namespace Verif.Props.RabinProgram
open Verif.Rabin Verif.Prot Verif.Spec.Prot Verif.Point Verif.Props Verif.Dkg Verif.Dto Verif.Dss Verif.Spec.Rabin Verif.Tables Verif.Signode
open Verif.Props.RabinRun
variable {S : Suite} {R : Int → Nat → Choice} {T : Nat}

/-- The guests have generators of kyber for their runs, with random numbers `R`, and can do their own part. -/
def Members (c : Program.Cfg Gen) (S : Suite) (R : Int → Nat → Choice) (T : Nat) : Prop :=
  ∀ g ∈ c.guests, ∀ r, ∃ i : Nat, g = i ∧ Able S (R g r) i ∧ (R g r).T = T ∧ c.members = (R g r).keys.length ∧
    c.y g r = kyb S ((R g r).member i) ∧ newGen S ((R g r).member i) = .ok (c.gen g r)

/-- A message in which nothing is missing, and that does not bring the one it is for its own commitments. -/
def Fine (m : Message Dto) : Prop := Complete m.dto ∧ ∀ i : Nat, m.rcpt = i → Foreign i m

theorem runsSafe_key {c : Program.Cfg Gen} (h : Members c S R T) {W : Message Dto → Prop} (hW : ∀ m, W m → Fine m) :
    KeyProgram.RunsSafe c W := by
  intro g hg r id t0 hist hm
  obtain ⟨i, rfl, h1, _, h3, h4, h5⟩ := h g hg r
  rw [h4, h3]
  exact C118_calm_dkg h1 h5 id i t0 hist fun m hx => by
    obtain ⟨f1, f2, f3⟩ := hm m hx
    exact ⟨f2, (hW m f1).2 i (congrArg RunKey.gidx f3), (hW m f1).1⟩

theorem runsSafe {c : Program.Cfg Gen} (h : Members c S R T) (hl : ∀ g ∈ c.guests, ∃ long, c.longterms.get? g = some long ∧
      Commits long.commits ∧ long.commits.headD null ≠ null) (hn : c.participants.length ≤ 2 ^ 63) {W : Message Dto → Prop} (hW : ∀ m, W m → Fine m) :
    Program.RunsSafe c W := by
  intro g hg r id doc t0 hist hm
  have hl := hl g hg
  obtain ⟨i, rfl, h1, _, h3, h4, h5⟩ := h g hg r
  rw [h4, h3]
  exact C118_calm_dss h1 h5 c.H c.SH (Program.env c r i (some doc)) hl (fun h => by cases h) hn id i t0 hist fun m hx => by
    obtain ⟨f1, f2, f3⟩ := hm m hx
    exact ⟨f2, (hW m f1).2 i (congrArg RunKey.gidx f3), (hW m f1).1⟩

/-- What a run of the key generation gave is a share of its guest. -/
theorem proper_of_run {c : KeyProgram.Cfg Gen} (hc : Members c.base S R T) {h : List KeyProgram.Ev} {s : KeyProgram.Sys Gen}
    (hm : ∀ m, .prog (.net m) ∈ h → Fine m) {j : Nat} {g : Int} (hg : g ∈ c.base.guests) {share : KeyShare}
    (hf : Spec.KeyProgram.FromRun c h s j g share) : Proper g.toNat T share ∧ 2 ≤ T := by
  obtain ⟨r, u, q, ⟨_, _, _, t0, hist, hm', he⟩, _, _, ho, _⟩ := hf
  obtain ⟨i, rfl, h1, h2, h3, h4, h5⟩ := hc g hg r
  rw [h4, h3] at he
  have := C118_share h1 h5 he (fun m hx => by
    obtain ⟨f1, _, f3⟩ := hm' m hx
    rcases f3 with f3 | rfl
    · exact (hm m f3).2 i (congrArg RunKey.gidx f1)
    · exact fun x hx => by cases hx) (by rw [ho]; exact List.mem_singleton_self _)
  rw [h2] at this
  exact ⟨this, h2 ▸ h1.low⟩

theorem null_off : ¬ OnCurve null.X null.Y := by unfold OnCurve; decide +kernel

theorem zero_of_off {x : Nat} (h : ¬ OnCurve (timesAdd base x).X (timesAdd base x).Y) : timesAdd base x = null := by
  have : IsElt (timesAdd base x) := (exists_log_iff _).2 ⟨_, log_base_nat x⟩
  rcases this with ⟨_, ⟨h1, h2⟩ | h2⟩
  · cases hx : timesAdd base x
    rw [hx] at h1 h2
    dsimp only at h1 h2
    rw [h1, h2]
    rfl
  · exact absurd h2 h

/-- C119 (making keys). As it makes long-term keys with kyber's generators, whatever members there are and whatever others send, the tool panics only
where it takes the output of a run that has left no key, or a QUAL short of members, and where some coefficient of the polynomial of a key is zero. -/
theorem C119_gives_up (c : KeyProgram.Cfg Gen) (hc : Members c.base S R T) (h : List KeyProgram.Ev) (s : KeyProgram.Sys Gen)
    (hrun : Verif.KeyProgram.run c (KeyProgram.init c) h = .ok s) (hgn : c.base.guests.Nodup) (hs : 0 ≤ c.start) (hi : 0 ≤ c.interval)
    (hm : ∀ m, .prog (.net m) ∈ h → Fine m) (e : KeyProgram.Ev) (hp : Verif.KeyProgram.step c s e = .panic) :
    (∃ g ∈ c.base.guests, ∃ r u, e = .main g ∧ Spec.KeyProgram.RanTo c h s s.main.i g r u ∧ Spec.KeyProgram.NoKey c.base.members u) ∨
    ∃ g ∈ c.base.guests, ∃ order share, e = .check order ∧ Spec.KeyProgram.FromRun c h s s.main.i g share ∧ null ∈ share.commits.tail := by
  have hW : ∀ m, KeyProgram.Seen h m → Fine m := by
    rintro m (hx | ⟨g, id, rfl⟩)
    · exact hm m hx
    · exact ⟨trivial, fun _ _ x hx => by cases hx⟩
  rcases KeyProgram.panics c h s hrun hgn hs hi (runsSafe_key hc hW) e hp with h1 | ⟨order, lts, he, hk, hl, h2⟩
  · exact .inl h1
  · right
    have mem : ∀ g share, lts.get? g = some share → g ∈ c.base.guests := fun g share hx =>
      hk.subset ((GoMap.get?_isSome_iff _ _).1 (by rw [hx]; rfl))
    rcases h2 with ⟨g, share, hx, h3⟩ | ⟨h2, g, share, p, hx, h3, h4⟩
    · obtain ⟨⟨_, ls, e1, e2, _⟩, e3⟩ := proper_of_run hc hm (mem g share hx) (hl g share hx)
      rw [h3] at e1
      rw [List.map_eq_nil_iff.1 e1.symm] at e2
      exact absurd e2 (by simp only [List.length_nil]; omega)
    · obtain ⟨⟨_, ls, e1, _⟩, _⟩ := proper_of_run hc hm (mem g share hx) (hl g share hx)
      refine ⟨g, mem g share hx, order, share, he, hl g share hx, ?_⟩
      obtain ⟨a, as, e4, e5⟩ := h2 g share hx
      rw [e4] at h3 ⊢
      rcases List.mem_cons.1 h3 with rfl | h3
      · exact absurd e5 h4
      · have : p ∈ ls.map (timesAdd base) := by rw [← e1, e4]; exact List.mem_cons_of_mem _ h3
        obtain ⟨x, _, rfl⟩ := List.mem_map.1 this
        rw [zero_of_off h4] at h3
        exact h3

/-- C119 (keys). Every share in the file of long-term keys is a share of its guest, of a polynomial with exactly `T` coefficients, and the public key and
the other commitments stored with it belong to this polynomial: whatever others sent, it can be used to sign. -/
theorem C119_saved (c : KeyProgram.Cfg Gen) (hc : Members c.base S R T) (h : List KeyProgram.Ev) (s : KeyProgram.Sys Gen)
    (hrun : Verif.KeyProgram.run c (KeyProgram.init c) h = .ok s) (hgn : c.base.guests.Nodup) (hs : 0 ≤ c.start) (hi : 0 ≤ c.interval)
    (hm : ∀ m, .prog (.net m) ∈ h → Fine m) (f : GoMap Int DksDTO) (hf : s.file = some f) :
    ∃ lts : GoMap Int KeyShare, saveLongterms lts = .ok f ∧ lts.keys.Perm c.base.guests ∧
      ∀ g share, lts.get? g = some share → Proper g.toNat T share ∧ share.commits.headD null ≠ null := by
  obtain ⟨i, lts, h1, h2, h3, _⟩ := KeyProgram.C86_saved c h s hrun hgn hs hi f hf
  refine ⟨lts, h1, h2, fun g share hx => ?_⟩
  obtain ⟨⟨a, as, e1, e2⟩, h4⟩ := h3 g share hx
  refine ⟨(proper_of_run hc hm (h2.subset ((GoMap.get?_isSome_iff _ _).1 (by rw [hx]; rfl))) h4).1, fun e => ?_⟩
  rw [e1] at e
  change a = null at e
  rw [e] at e2
  exact null_off e2

/-- The guests have long-term shares of their own, with a public key that is not zero, and know their places. -/
structure Own (c : Program.Cfg Gen) (T : Nat) : Prop where
  few : c.participants.length ≤ 2 ^ 63
  threshold : c.threshold = T
  long : ∀ g ∈ c.guests, ∃ long, c.longterms.get? g = some long ∧ Proper g.toNat T long ∧ long.commits.headD null ≠ null
  index : ∀ g ∈ c.guests, ∀ r d, OwnIndex (Program.env c r g d) g.toNat

theorem own_safe {c : Program.Cfg Gen} (hc : Members c S R T) (hl : Own c T) {W : Message Dto → Prop} (hW : ∀ m, W m → Fine m) : Program.RunsSafe c W := by
  refine runsSafe hc (fun g hg => ?_) hl.few hW
  obtain ⟨long, h1, ⟨_, ls, h2, h3, _⟩, h4⟩ := hl.long g hg
  obtain ⟨i, _, h5, h6, _⟩ := hc g hg 0
  have := h5.low
  refine ⟨long, h1, ⟨fun e => ?_, fun p hp => ?_⟩, h4⟩
  · rw [h2] at e
    rw [List.map_eq_nil_iff.1 e] at h3
    exact absurd h3 (by simp only [List.length_nil]; omega)
  · rw [h2] at hp
    obtain ⟨x, _, rfl⟩ := List.mem_map.1 hp
    exact (exists_log_iff _).2 ⟨_, log_base_nat x⟩

/-- C119 (signing does not crash). As it signs with kyber's generators and long-term shares, the tool never panics, whatever others send. -/
theorem C119_calm (c : Program.Cfg Gen) (hc : Members c S R T) (hl : Own c T) (hg : c.guests.Nodup) (h : List Program.Ev)
    (hd : ((Spec.Program.requests h).map jobId).Nodup) (hm : ∀ m, .net m ∈ h → Fine m) : Verif.Program.run c (Program.init c) h ≠ .panic :=
  Program.run_all_safe (W := Fine) (own_safe hc hl fun _ h => h) hg h (Program.pinv_init c _) (Program.sinv_init c)
    (by simpa [Program.reqs, Program.init] using hd) hm

/-- C119 (requests end). From every moment it gets by itself, as time passes, to a state in which nothing more can happen: by C82, one in which every request has ended. -/
theorem C119_reaches (c : Program.Cfg Gen) (hc : Members c S R T) (hl : Own c T) (hg : c.guests.Nodup) (h : List Program.Ev) (s : Program.Sys Gen)
    (hr : Verif.Program.run c (Program.init c) h = .ok s) (hd : ((Spec.Program.requests h).map jobId).Nodup) (hm : ∀ m, .net m ∈ h → Fine m) :
    ∃ (h' : List Program.Ev) (s' : Program.Sys Gen), (∀ e ∈ h', Spec.Program.own e = true ∨ ∃ t, e = .tick t) ∧ Verif.Program.run c s h' = .ok s' ∧
      Spec.Program.Settled c s' :=
  Program.reaches c Fine (own_safe hc hl fun _ h => h) h s hr hg hd hm

/-- C119 (signatures). Every signature that it prints for a guest verifies, for the document of the request, under the public key that belongs to the share
of this guest, whatever others sent. -/
theorem C119_prints (c : Program.Cfg Gen) (hc : Members c S R T) (hl : Own c T) (hH : ∀ b, (c.H b).length = 32) (hg : c.guests.Nodup)
    (h : List Program.Ev) (s : Program.Sys Gen) (hr : Verif.Program.run c (Program.init c) h = .ok s) (hd : ((Spec.Program.requests h).map jobId).Nodup)
    (hm : ∀ m, .net m ∈ h → Fine m) (b : Program.JobSt) (hb : b ∈ s.jobs) (hdoc : 0 ≤ b.job.doc ∧ b.job.doc < 2 ^ 256) (g : Int) (sig : Schnorr.Sig)
    (hx : (g, some sig) ∈ b.lines) : ∃ long, c.longterms.get? g = some long ∧
      Schnorr.verify c.H (.pt (long.commits.headD null)) b.job.doc sig = .ok () := by
  obtain ⟨_, h2⟩ := Program.C75_origin c h s hr hg hd
  obtain ⟨h3, r, t0, hist, u, h4, _, _, h5, h6⟩ := (h2 b hb).2 _ hx
  obtain ⟨long, g1, g2, g3⟩ := hl.long g h3
  have hown := hl.index g h3 r (some b.job.doc)
  dsimp only at h3 h4 h5
  obtain ⟨i, rfl, k1, k2, k3, k4, k5⟩ := hc g h3 r
  rw [k4, k3] at h4
  exact ⟨long, g1, C118_signs k1 k5 c.H hH c.SH h4 (fun m hx => (hm m (h5 m hx).1).2 i (h5 m hx).2.2.1) (k2.symm ▸ g2) g1 rfl hdoc hown
    (hl.threshold.trans (by rw [k2])) hl.few g3 (Program.lastSig_mem h6.symm)⟩

end Verif.Props.RabinProgram
