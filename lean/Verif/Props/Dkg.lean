import Verif.Proofs.DkgSafe
import Verif.Proofs.Pin
import Verif.Props.Prot
import Verif.Props.DssExample

/-!
Properties C45 (the validators), C56 (the two protocols), C60, C65 and C70: runs of the key generation and of the signing
protocol. The key generator of the kyber library (`Kyb`) is arbitrary unless said otherwise.
-/
namespace Verif.Props
open Verif.Prot Verif.Spec.Prot Verif.Dkg Verif.Dto Verif.Dss Verif.Point
variable {K : Type}

/-- What is transmitted was asked for. -/
theorem sent_requested {D A U : Type} {c : Conf D A U} {u : U} {t0 : Int} {h : List (Ev D)} {r : Run D A U}
    (hr : exec c (newRun D A u t0) h = .ok r) {m : Message D} (hm : .sent m ∈ r.log) : .request m ∈ r.log := by
  have h1 := (agree_exec hr).inv.core.sent m.op
  have h2 : m ∈ sentOf m.op r.log := by
    rw [sentOf, List.mem_filterMap]
    exact ⟨_, hm, by simp⟩
  rw [h1] at h2
  by_cases hs : m.op ≤ r.state
  · rw [if_pos hs, requestsOf, List.mem_filterMap] at h2
    obtain ⟨x, h3, h4⟩ := h2
    cases x with
    | request m' =>
      dsimp only at h4
      by_cases he : m'.op = m.op
      · rw [if_pos he] at h4; rw [← Option.some.inj h4]; exact h3
      · rw [if_neg he] at h4; cases h4
    | _ => cases h4
  · rw [if_neg hs] at h2; cases h2

/-- The op code of a message is the index of a stage that has a processor and registers the type of the DTO; and no other
stage that has a processor registers that type. -/
def InTable (stages : List (Stage Dto Obj (Data K))) (m : Message Dto) : Prop :=
  0 ≤ m.op ∧ ∀ n : Nat, (∃ s, stages[n]? = some s ∧ s.proc.isSome = true ∧ s.typeOk m.dto = true) ↔ (n : Int) = m.op

theorem inTable_dkg (y : Kyb K) (m : Message Dto) (h : DkgTable m.op m.dto) : InTable (dkgStages y) m := by
  obtain ⟨h, hp⟩ := h
  have key : ∀ k : Nat, m.op = k → (∀ n < 9, (∃ s, (dkgStages y)[n]? = some s ∧ s.proc.isSome = true ∧ s.typeOk m.dto = true) ↔ n = k) →
      k < 9 → InTable (dkgStages y) m := by
    intro k hk h1 hk9
    refine ⟨by omega, fun n => ?_⟩
    by_cases hn : n < 9
    · rw [h1 n hn]; omega
    · have : (dkgStages y)[n]? = none := List.getElem?_eq_none (by show 9 ≤ n; omega)
      rw [this]; constructor
      · rintro ⟨s, hs, _⟩; cases hs
      · intro; omega
  obtain ⟨a, b, c, d, op, dto⟩ := m
  cases dto with
  | other => exact absurd h (by simp [Table])
  | partsig s => exact absurd rfl (hp s)
  | _ =>
    refine key _ h (fun n hn => ?_) (by decide)
    have : n = 0 ∨ n = 1 ∨ n = 2 ∨ n = 3 ∨ n = 4 ∨ n = 5 ∨ n = 6 ∨ n = 7 ∨ n = 8 := by omega
    rcases this with rfl | rfl | rfl | rfl | rfl | rfl | rfl | rfl | rfl <;> simp [dkgStages, psStep, psProc, hasKind]

theorem inTable_dss (y : Kyb K) (H : List UInt8 → List UInt8) (SH : Share → List UInt8) (env : Env) (m : Message Dto)
    (h : Table m.op m.dto) : InTable (dssStages y H SH env) m := by
  have key : ∀ k : Nat, m.op = k → (∀ n < 12, (∃ s, (dssStages y H SH env)[n]? = some s ∧ s.proc.isSome = true ∧ s.typeOk m.dto = true) ↔ n = k) →
      k < 12 → InTable (dssStages y H SH env) m := by
    intro k hk h1 hk9
    refine ⟨by omega, fun n => ?_⟩
    by_cases hn : n < 12
    · rw [h1 n hn]; omega
    · have : (dssStages y H SH env)[n]? = none := List.getElem?_eq_none (by show 12 ≤ n; omega)
      rw [this]; constructor
      · rintro ⟨s, hs, _⟩; cases hs
      · intro; omega
  obtain ⟨a, b, c, d, op, dto⟩ := m
  cases dto with
  | other => exact absurd h (by simp [Table])
  | _ =>
    refine key _ h (fun n hn => ?_) (by decide)
    have : n = 0 ∨ n = 1 ∨ n = 2 ∨ n = 3 ∨ n = 4 ∨ n = 5 ∨ n = 6 ∨ n = 7 ∨ n = 8 ∨ n = 9 ∨ n = 10 ∨ n = 11 := by omega
    rcases this with rfl | rfl | rfl | rfl | rfl | rfl | rfl | rfl | rfl | rfl | rfl | rfl <;>
      simp [dssStages, dkgStages, psStep, psProc, hasKind]

/-- C70 (key generation). In every history of a run, every message the run asks to send or transmits has as op code the index
of the one stage that has a processor and registers the type of its DTO. -/
theorem C70_dkg (y : Kyb K) (id : String) (self : Int) (members : Nat) (k : K) (t0 : Int) (h : List (Ev Dto))
    (r : Run Dto Obj (Data K)) (hr : exec (dkgConf y id self members) (newRun Dto Obj (newData k) t0) h = .ok r)
    (m : Message Dto) (hm : .request m ∈ r.log ∨ .sent m ∈ r.log) : InTable (dkgStages y) m := by
  have hq : .request m ∈ r.log := hm.elim (fun h => h) (sent_requested hr)
  exact inTable_dkg y m ((track_exec (dkg_keeps id self members (P := fun _ => True)
    ⟨fun _ _ _ => trivial, fun _ _ _ => trivial, fun _ _ _ _ => trivial⟩) trivial hr).req m hq)

/-- C70 (signing). The same for the signing protocol. -/
theorem C70_dss (y : Kyb K) (H : List UInt8 → List UInt8) (SH : Share → List UInt8) (env : Env) (id : String) (self : Int)
    (members : Nat) (k : K) (t0 : Int) (h : List (Ev Dto)) (r : Run Dto Obj (Data K))
    (hr : exec (dssConf y H SH env id self members) (newRun Dto Obj (newData k) t0) h = .ok r)
    (m : Message Dto) (hm : .request m ∈ r.log ∨ .sent m ∈ r.log) : InTable (dssStages y H SH env) m := by
  have hq : .request m ∈ r.log := hm.elim (fun h => h) (sent_requested hr)
  exact inTable_dss y H SH env m ((track_exec (dss_keeps id self members) (newData_signing k) hr).req m hq)

/-- Where the sender states its index in an object. -/
def statedIndices : Obj → List Int
  | .deal d => [d.index]
  | .response r => r.response.toList.map fun v => (v.index : Int)
  | .justification j => [j.index, j.jIndex]
  | .commits c => [c.index]
  | .complCommits c => [c.index]
  | .reconsCommits c => [c.index]
  | .partsig s => [s.part.I]

theorem uint32_eq {i : Int} {n : Nat} (h0 : 0 ≤ i) (h1 : i < 2 ^ 32) (h : n = uint32 i) : (n : Int) = i := by
  rw [h, uint32, Int.emod_eq_of_lt h0 h1, Int.toNat_of_nonneg h0]

/-- What the validators check. -/
theorem validators {s : Stage Dto Obj (Data K)} {y : Kyb K} {H : List UInt8 → List UInt8} {SH : Share → List UInt8} {env : Env}
    (hs : s ∈ dssStages y H SH env) {a : Obj} {i : Int} (h0 : 0 ≤ i) (h1 : i < 2 ^ 32) (hv : s.senderValid a i = .ok true) :
    statedIndices a ≠ [] ∧ ∀ j ∈ statedIndices a, j = i := by
  have e := fun n => @uint32_eq i n h0 h1
  rw [dssStages, List.mem_append] at hs
  simp only [dkgStages, List.mem_cons, List.not_mem_nil, or_false] at hs
  rcases hs with (rfl | rfl | rfl | rfl | rfl | rfl | rfl | rfl | rfl) | (rfl | rfl | rfl)
  · cases hv
  · change dealV a i = _ at hv
    cases a with
    | deal d => rw [dealV, Outcome.ok.injEq, decide_eq_true_eq] at hv; simp [statedIndices, e _ hv]
    | _ => cases hv
  · change responseV a i = _ at hv
    cases a with
    | response r =>
      rw [responseV] at hv
      cases hr : r.response with
      | none => rw [hr] at hv; cases hv
      | some v => rw [hr, Outcome.ok.injEq, decide_eq_true_eq] at hv; simp [statedIndices, hr, e _ hv]
    | _ => cases hv
  · change justificationV a i = _ at hv
    cases a with
    | justification j =>
      rw [justificationV, Outcome.ok.injEq, Bool.and_eq_true, decide_eq_true_eq, decide_eq_true_eq] at hv
      simp [statedIndices, e _ hv.1, e _ hv.2]
    | _ => cases hv
  · cases hv
  · change commitsV a i = _ at hv
    cases a with
    | commits c => rw [commitsV, Outcome.ok.injEq, decide_eq_true_eq] at hv; simp [statedIndices, e _ hv]
    | _ => cases hv
  · change complCommitsV a i = _ at hv
    cases a with
    | complCommits c => rw [complCommitsV, Outcome.ok.injEq, decide_eq_true_eq] at hv; simp [statedIndices, e _ hv]
    | _ => cases hv
  · change reconsCommitsV a i = _ at hv
    cases a with
    | reconsCommits c => rw [reconsCommitsV, Outcome.ok.injEq, decide_eq_true_eq] at hv; simp [statedIndices, e _ hv]
    | _ => cases hv
  · cases hv
  · cases hv
  · change partsigV a i = _ at hv
    cases a with
    | partsig s => rw [partsigV, Outcome.ok.injEq, decide_eq_true_eq] at hv; simp [statedIndices, hv]
    | _ => cases hv
  · cases hv

/-- C45 (signing). A processor is called only with an object whose stated indices all equal the index of the sender, which is
a member. (More than 2^32 members would make the conversion to 32 bits lossy.) -/
theorem C45_dss_sender (y : Kyb K) (H : List UInt8 → List UInt8) (SH : Share → List UInt8) (env : Env) (id : String) (self : Int)
    (members : Nat) (hmem : members ≤ 2 ^ 32) (k : K) (t0 : Int) (h : List (Ev Dto)) (r : Run Dto Obj (Data K))
    (hr : exec (dssConf y H SH env id self members) (newRun Dto Obj (newData k) t0) h = .ok r)
    (m : Message Dto) (a : Obj) (hm : .invoked m a ∈ r.log) :
    0 ≤ m.sender ∧ m.sender < members ∧ statedIndices a ≠ [] ∧ ∀ j ∈ statedIndices a, j = m.sender := by
  obtain ⟨s, _, h2, _, _, h5, h6, h7⟩ := C45_checked _ _ t0 h r hr m a hm
  have h6' : m.sender < members := h6
  exact ⟨h5, h6, validators (List.mem_of_getElem? h2) h5 (by omega) h7⟩

/-- C45 (key generation). The same for the key generation. -/
theorem C45_dkg_sender (y : Kyb K) (id : String) (self : Int) (members : Nat) (hmem : members ≤ 2 ^ 32) (k : K) (t0 : Int)
    (h : List (Ev Dto)) (r : Run Dto Obj (Data K))
    (hr : exec (dkgConf y id self members) (newRun Dto Obj (newData k) t0) h = .ok r)
    (m : Message Dto) (a : Obj) (hm : .invoked m a ∈ r.log) :
    0 ≤ m.sender ∧ m.sender < members ∧ statedIndices a ≠ [] ∧ ∀ j ∈ statedIndices a, j = m.sender := by
  obtain ⟨s, _, h2, _, _, h5, h6, h7⟩ := C45_checked _ _ t0 h r hr m a hm
  have h6' : m.sender < members := h6
  exact ⟨h5, h6, validators (y := y) (H := fun b => b) (SH := fun _ => []) (env := ⟨0, [], 0, none, none, 0⟩)
    (List.mem_append_left _ (List.mem_of_getElem? h2)) h5 (by omega) h7⟩

/-- C56 (the two protocols). A key generation takes 525 ms and a signing run 650 ms from the start of its thread, and the
firewall's allowance is one second longer. -/
theorem C56_durations (y : Kyb K) (H : List UInt8 → List UInt8) (SH : Share → List UInt8) (env : Env) (id : String) (self : Int)
    (members : Nat) (start : Int) :
    protocolTimeout (dkgConf y id self members) = 525 ∧ protocolTimeout (dssConf y H SH env id self members) = 650 ∧
    (runnerAllowance (dkgConf y id self members) start).stop = start + 1525 ∧
    (runnerAllowance (dssConf y H SH env id self members) start).stop = start + 1650 ∧
    ∀ s ∈ dssStages y H SH env, 0 ≤ s.timeout := by
  refine ⟨rfl, rfl, rfl, rfl, ?_⟩
  intro s hs
  rw [dssStages, List.mem_append] at hs
  simp only [dkgStages, List.mem_cons, List.not_mem_nil, or_false] at hs
  rcases hs with (rfl | rfl | rfl | rfl | rfl | rfl | rfl | rfl | rfl) | (rfl | rfl | rfl) <;> simp [psStep, psProc]

/-- C60 (key generation). If the generator does not panic, then no history panics in which every received response has its
inner part. (Op codes are not negative, as `_receive_msg` checks.) What is missing for the full claim: a response without
inner part, for which it is false (`C60_counterexample_response`), and the generator itself. -/
theorem C60_dkg_partial (y : Kyb K) (hy : Calm y) (id : String) (self : Int) (members : Nat) (k : K) (t0 : Int)
    (h : List (Ev Dto)) (hm : ∀ m ∈ msgs h, 0 ≤ m.op ∧ Complete m.dto) :
    exec (dkgConf y id self members) (newRun Dto Obj (newData k) t0) h ≠ .panic :=
  (safe_exec (safe_of_stages fun n s hs => dkg_stage_safe hy members n s hs)
    (⟨fun h => absurd h (by decide), fun h => absurd h (by decide)⟩ : Stagewise (-1) (newData k)) h hm).1

/-- C60 (signing). The same for the signing protocol, when moreover every received partial signature carries a complete
signature, the document and the long-term share are there, and commitments are group elements. -/
theorem C60_dss_partial (y : Kyb K) (hy : Calm y) (H : List UInt8 → List UInt8) (SH : Share → List UInt8) (env : Env)
    (he : GoodEnv y env) (id : String) (self : Int) (members : Nat) (k : K) (t0 : Int)
    (h : List (Ev Dto)) (hm : ∀ m ∈ msgs h, 0 ≤ m.op ∧ Complete m.dto) :
    exec (dssConf y H SH env id self members) (newRun Dto Obj (newData k) t0) h ≠ .panic :=
  (safe_exec (safe_of_stages fun n s hs => dss_stage_safe hy he members n s hs)
    (⟨fun h => absurd h (by decide), fun h => absurd h (by decide)⟩ : Stagewise (-1) (newData k)) h hm).1

/-- The index at which `NewDSS` finds the own public key. -/
def OwnIndex (env : Env) (i : Nat) : Prop :=
  ∃ pub, mulBase env.secret = .ok pub ∧ (env.participants.findIdx? fun p => equal p pub) = some i

/-- C65 (with consistent shares). Let the long-term share and the result of the generator in the end be consistent: each commits
to a polynomial with at most `threshold` coefficients, and the own share is its value at the own index. Then every signature that
the run puts out, whatever it received, verifies under the long-term public key for the document. What is missing for the
full claim: the hypotheses, without which it is false (`C65_counterexample`). -/
theorem C65_verifies_partial (y : Kyb K) (H : List UInt8 → List UInt8) (hH : ∀ b, (H b).length = 32) (SH : Share → List UInt8)
    (env : Env) (id : String) (self : Int) (members : Nat) (k : K) (t0 : Int) (h : List (Ev Dto)) (r : Run Dto Obj (Data K))
    (hr : exec (dssConf y H SH env id self members) (newRun Dto Obj (newData k) t0) h = .ok r)
    (long : KeyShare) (doc : Int) (hl : env.long = some long) (hdoc : env.doc = some doc) (hrange : 0 ≤ doc ∧ doc < 2 ^ 256)
    (ls : List Nat) (hc : long.commits = ls.map (timesAdd base)) (hkey : ls.headD 0 % secp256k1N ≠ 0)
    (hlen : (ls.length : Int) ≤ env.threshold) (hn : env.participants.length ≤ 2 ^ 63)
    (hown : ∀ i, OwnIndex env i → (long.share.V - peval ls (i + 1)) % secp256k1N = 0)
    (hrand : ∀ random, y.distKeyShare r.user.kyb = .ok random → ∃ rs : List Nat, rs ≠ [] ∧ random.commits = rs.map (timesAdd base) ∧
      (rs.length : Int) ≤ env.threshold ∧ ∀ i, OwnIndex env i → (random.share.V - peval rs (i + 1)) % secp256k1N = 0)
    (sig : Schnorr.Sig) (hs : .sig sig ∈ r.user.out) :
    Schnorr.verify H (.pt (long.commits.headD null)) doc sig = .ok () := by
  obtain ⟨d, ⟨k', random, long', doc', q, d0, cs, h1, h2, h3, h4, rfl⟩, h5⟩ :=
    (track_exec (dss_keeps id self members) (newData_signing k) (pin_exec hr)).user.out sig hs
  have hk' := pin_only (by rw [h1]; simp)
  subst hk'
  rw [pin_at] at h1
  rw [hl] at h2
  rw [hdoc] at h3
  have e1 := Option.some.inj h2
  have e2 := Option.some.inj h3
  subst e1; subst e2
  obtain ⟨rs, g1, g2, g3, g4⟩ := hrand random h1
  obtain ⟨_, _, _, _, _, f1, f2, _, f3, _, _, pub, f4, f5⟩ := newDSS_fresh h4
  have ho : OwnIndex env d0.index := ⟨pub, f4, f5⟩
  have hk : Keys d0 ls rs := ⟨by rw [f1]; exact hc, by rw [f2]; exact g2, g1, hkey, by rw [f3]; exact hrange⟩
  have hcons : Consistent d0 ls rs := ⟨by rw [f1]; exact hown _ ho, by rw [f2]; exact g4 _ ho⟩
  have := C23_verifies H SH hH _ d0 h4 ls rs hk hcons ⟨hlen, g3⟩ hn cs sig h5
  rw [sessKey, f1] at this
  exact this

end Verif.Props
