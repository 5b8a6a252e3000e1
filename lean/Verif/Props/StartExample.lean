import Verif.Props.Start
import Verif.Props.ProgramAgreeExample
import Verif.Props.ProgramTimeExample

/-!
C83-C85 are not vacuous: members 0 and 1 of the three of `exHosts` are started with threshold 2, and sign together.
-/
namespace Verif.Props.Start
open Verif.Point Verif.Layout Verif.Dto Verif.Dss Verif.Dkg Verif.Signode Verif.Start Verif.Props Verif.Spec.Program Verif.Props.Program

/-- The time `t` is 45 ms after 1970. -/
def sxWorld : World Unit :=
  ⟨exSort, fun s => if s = "t" then some 45000000 else none, 0, fun _ _ _ => .ok (), fun _ => true⟩

/-- The share of member `i` of the long-term key. -/
def sxShare (i : Nat) : KeyShare := ⟨⟨i, peval [5, 7] (i + 1)⟩, [5, 7].map (timesAdd base)⟩

/-- The command line of member `i`, whose directory of secrets also has a file of another name. -/
def sxCmd (i : Nat) : Cmd :=
  { conf := expandConfig exHosts, pubdir := exDir,
    secdir := fun n => if n = "secret_1" then (match Scalar.marshalBinary ((i : Int) + 1) with | .ok b => some b | _ => none) else none,
    secnames := ["longterms_t2", "secret_1"], threshold := "+2", dropUntil := "t",
    longterms := match saveLongterms [((i : Int), sxShare i)] with | .ok f => some f | _ => none }

def sxMember (nm : String) (i : Nat) : Member :=
  ⟨nm, i, timesAdd base (i + 1), match pubhex (timesAdd base (i + 1)) with | .ok h => h | _ => []⟩

/-- The address of member `i` of the first two. -/
def sxAddr (i : Nat) : String := if i = 0 then "10.0.0.1:1" else "10.0.0.2:1"

/-- What member `i` is started with. -/
def sxStarted (i : Nat) : Started :=
  let qs := [some "10.0.0.1:1", some "10.0.0.2:1", some "10.0.0.1:1"]
  { layout := ⟨["10.0.0.1:1", "10.0.0.2:1"], [[2, 0], [1]], [sxMember "a" 0, sxMember "b" 1, sxMember "c" 2], [(1, 1), (0, 0), (2, 0)]⟩,
    guests := [(i, ⟨i, (i : Int) + 1, timesAdd base (i + 1), i, sxAddr i⟩)], threshold := 2, dropUntil := 45000000, startAt := 100000000,
    longterms := [((i : Int), sxShare i)], callers := [((0, (i : Int)), qs), ((1, (i : Int)), qs)], listen := [sxAddr i] }

theorem filterPrefix_eq (names : List String) (pre : String) : filterPrefix names pre = names.filter fun n => pre.toList.isPrefixOf n.toList := by
  rw [filterPrefix]
  congr 1
  funext n
  rw [Bool.eq_iff_iff, startsWith_iff, List.isPrefixOf_iff_prefix]
  exact ⟨fun ⟨r, h⟩ => ⟨r, h.symm⟩, fun ⟨r, h⟩ => ⟨r, h.symm⟩⟩

theorem sx_secrets0 : loadSecrets (sxCmd 0).secdir (sxCmd 0).secnames = .ok [1] := by
  rw [loadSecrets, slurpAll, filterPrefix_eq]; decide +kernel
theorem sx_secrets1 : loadSecrets (sxCmd 1).secdir (sxCmd 1).secnames = .ok [2] := by
  rw [loadSecrets, slurpAll, filterPrefix_eq]; decide +kernel

theorem sx_start0 : start sxWorld (sxCmd 0) = .ok (sxStarted 0) := by
  simp only [start, sx_secrets0]; decide +kernel
theorem sx_start1 : start sxWorld (sxCmd 1) = .ok (sxStarted 1) := by
  simp only [start, sx_secrets1]; decide +kernel

theorem sx_start {i : Nat} (hi : i < 2) : start sxWorld (sxCmd i) = .ok (sxStarted i) := by
  rcases (show i = 0 ∨ i = 1 by omega) with rfl | rfl
  exacts [sx_start0, sx_start1]

theorem sx_compiled (i : Nat) : Compiled (sxCmd i) exHosts := ⟨rfl, by decide⟩

theorem sx_keys (i : Nat) : HoldKeys (sxCmd i) exHosts [timesAdd base 3, timesAdd base 1, timesAdd base 2] := by
  have key : ∀ (nm : String) (k : Nat), (match exDir nm with | some b => unmarshalBinary b | none => .err) = .ok (timesAdd base k) →
      HoldsKey exDir nm (timesAdd base k) := by
    intro nm k h
    cases hd : exDir nm with
    | none => rw [hd] at h; cases h
    | some b => rw [hd] at h; exact ⟨b, hd, h⟩
  exact .cons (key "c" 3 (by decide +kernel)) (.cons (key "a" 1 (by decide +kernel)) (.cons (key "b" 2 (by decide +kernel)) .nil))

theorem sx_shares {i : Nat} (hi : i < 2) : SavedShares (sxCmd i) [5, 7] := by
  have hgood : GoodKeyShare (sxShare i) := by
    refine ⟨?_, ?_⟩
    · rcases (show i = 0 ∨ i = 1 by omega) with rfl | rfl <;> (unfold CanonicalShare; decide +kernel)
    · intro p hp
      rcases (show p = timesAdd base 5 ∨ p = timesAdd base 7 by simpa [sxShare] using hp) with rfl | rfl <;>
        (unfold Sendable Reduced OnCurve; decide +kernel)
  obtain ⟨file, h1, _⟩ := C30_save_load (Q := Unit) [((i : Int), sxShare i)] (fun k s hk => by
    rw [GoMap.get?_cons] at hk
    by_cases e : (i : Int) = k
    · rw [if_pos e] at hk; rw [← Option.some.inj hk]; exact hgood
    · rw [if_neg e] at hk; cases hk) (List.nodup_singleton _) []
  refine ⟨[((i : Int), sxShare i)], file, ?_, h1, List.nodup_singleton _, fun k s hk => ?_⟩
  · show (match saveLongterms [((i : Int), sxShare i)] with | .ok f => some f | _ => none) = _
    rw [h1]
  · rw [GoMap.get?_cons] at hk
    by_cases e : (i : Int) = k
    · rw [if_pos e] at hk
      rw [← Option.some.inj hk, ← e]
      refine ⟨hgood, rfl, ?_⟩
      show (peval [5, 7] (i + 1) - peval [5, 7] ((i : Int).toNat + 1)) % _ = 0
      rw [Int.toNat_natCast, sub_self]; rfl
    · rw [if_neg e] at hk; cases hk

/-- The hypotheses of C83 hold of both processes, and so they start. -/
example {i : Nat} (hi : i < 2) : ∃ st, start sxWorld (sxCmd i) = .ok st := by
  have hk := sx_keys i
  refine C83_starts sxWorld exSort_contract (sxCmd i) exHosts (sx_compiled i) (fun f hf => ?_) ?_ 2 (by show atoi "+2" = _; decide +kernel)
    (.inr ⟨45000000, rfl⟩) (fun _ _ _ _ => ⟨(), rfl⟩) (fun _ _ => rfl) (fun file hf => ?_)
  · obtain ⟨p, _, hp⟩ := forall2_mem_left hk f hf
    exact ⟨p, hp⟩
  · rcases (show i = 0 ∨ i = 1 by omega) with rfl | rfl
    exacts [(loadSecrets_ok sx_secrets0).1, (loadSecrets_ok sx_secrets1).1]
  · obtain ⟨lts, file', e1, e2, e3, e4⟩ := sx_shares hi
    have := Option.some.inj (hf.symm.trans e1)
    subst this
    obtain ⟨_, _, _, g1, _⟩ := start_parts (sx_start hi)
    refine ⟨lts, e2, e3, fun k s hk => (e4 k s hk).1, fun ms hms k s hs hkey => ?_⟩
    -- the only secret is that of member i
    have hm : ms = (sxStarted i).layout.members := by
      obtain ⟨conf, _, _, _, _, _, g5, g6, _⟩ := start_compiled (sx_compiled i) (sx_start hi)
      have h1 := (layout_parts g6).1
      rw [g5] at h1
      exact Outcome.ok.inj (hms.symm.trans h1)
    have hg := ((guest_facts exSort_contract (sx_compiled i) (sx_start hi)).2.1 k).2 ⟨s, hs, by rw [← hm]; exact hkey⟩
    obtain ⟨e, he⟩ := hg
    obtain ⟨long, hlong⟩ := ((C83_refuses sxWorld exSort_contract (sxCmd i) exHosts (sx_compiled i) (sxStarted i) (sx_start hi)).2.2.2.2 k e he).2.2
      (by rw [e1]; exact Option.some_ne_none _)
    obtain ⟨_, _, _, _, _, _, _, _, _, h7, _⟩ := start_parts (sx_start hi)
    rw [e1, loadShares] at h7
    obtain ⟨file', f5, f6, f7⟩ := C30_save_load lts (fun i s hi => (e4 i s hi).1) e3 ((sxStarted i).guests.map fun p => ((p.1 : Int), p.2))
    have := Outcome.ok.inj (e2.symm.trans f5)
    subst this
    by_contra hno
    rw [f7 ⟨k, e, (castGuests_get? _ _ _).2 ⟨k, rfl, he⟩, by
      cases hx : lts.get? (k : Int) with
      | none => rfl
      | some v => exact absurd ⟨v, hx⟩ hno⟩] at h7
    cases h7

/-- C84: what member 0 sends to member 1 in a signing run goes to the address on which the process of member 1 listens. -/
example : ∃ qs addr, (sxStarted 0).callers.get? (1, 0) = some qs ∧ queueOf qs 1 = .ok (some addr) ∧ addr ∈ (sxStarted 1).listen :=
  C84_reaches sxWorld sxWorld exSort_contract exSort_contract (sxCmd 0) (sxCmd 1) exHosts (sx_compiled 0) (sx_compiled 1) _ (sx_keys 0) (sx_keys 1)
    (by decide +kernel) (sxStarted 0) (sxStarted 1) sx_start0 sx_start1 1 (.inr rfl) 0 1 _ _ rfl rfl

/-- A configuration that was not compiled: its second host does not list the file "b", though it is among the key files. -/
def sxBad : Cmd :=
  { sxCmd 0 with conf := .arr [.arr [.str "h1", .str "h2"], .arr [.str "x", .str "y"], .arr [.arr [.str "c"], .arr [.str "a"]],
      .arr [.str "c", .str "a", .str "b"]] }

/-- Another one, which does not list "c". -/
def sxBad2 : Cmd :=
  { sxCmd 0 with conf := .arr [.arr [.str "h1", .str "h2"], .arr [.str "x", .str "y"], .arr [.arr [.str "b"], .arr [.str "a"]],
      .arr [.str "c", .str "a", .str "b"]] }

/-- C84 is false of the code for other configurations: if a key file is listed by no host, the queues are too few. Then the start
panics, or it goes well and the first message to the last member panics. -/
theorem C84_counterexample_unlisted : start sxWorld sxBad = .panic ∧
    ∃ st qs, start sxWorld sxBad2 = .ok st ∧ st.layout.members.length = 3 ∧ st.callers.get? (1, 0) = some qs ∧ queueOf qs 2 = .panic := by
  constructor
  · have : loadSecrets sxBad.secdir sxBad.secnames = .ok [1] := sx_secrets0
    simp only [start, this]; decide +kernel
  · have hs : loadSecrets sxBad2.secdir sxBad2.secnames = .ok [1] := sx_secrets0
    have key : (start sxWorld sxBad2 >>= fun st => .ok (st.layout.members.length, (st.callers.get? (1, 0)).map fun qs => queueOf qs 2)) =
        .ok (3, some .panic) := by
      simp only [start, hs]; decide +kernel
    rw [Outcome.bind_eq_ok] at key
    obtain ⟨st, h1, h2⟩ := key
    have h3 := Outcome.ok.inj h2
    rw [Prod.mk.injEq, Option.map_eq_some_iff] at h3
    obtain ⟨h4, qs, h5, h6⟩ := h3
    exact ⟨st, qs, h1, h4, h5, h6⟩

/-- What is left open by the files for member `i`. -/
def sxRest (i : Nat) : Rest Unit := ⟨fun _ _ => exKybOf i, fun _ _ => (), sumHash, exSH, fun _ => 17, 0⟩

/-- The request `0 _ 9`, which starts at 100 ms. -/
def sxJob : Job := ⟨"0", 100000000, 9⟩

/-- The partial signature of member `i`, as it reaches member `j`. -/
def sxMsg (i j : Nat) : Message Dto := { agMsg i j with runId := jobId sxJob }

/-- What happens in the process of member `i`. -/
def sxHistory (i j : Nat) : List Program.Ev :=
  [.request sxJob, .job 0 i, .job 0 i, .job 0 i, .runner 0, .runner 0, .fwStep 0, .task 0, .tick 45, .latch, .tick 95, .fwStep 0, .runner 0,
   .net (sxMsg j i), .tick 100, .fwStep 0, .runner 0, .runner 0, .task 0, .cons (1, i), .cons (1, i), .cons (1, i), .thread 0, .thread 0] ++
  pgStages [0] ++ [.task 0, .task 0, .runner 0, .job 0 i, .job 0 i, .job 0 i, .job 0 i, .job 0 i, .runner 0]

def sxCfg (i : Nat) : Program.Cfg Unit := programCfg (sxStarted i) (sxRest i)

def sxCheck (i j : Nat) : Bool :=
  match Program.run (sxCfg i) (Program.init (sxCfg i)) (sxHistory i j) with
  | .ok s =>
    (match s.jobs with
     | [b] => decide (b.job = sxJob) && (match b.lines with | [(x, some _)] => decide (x = (i : Int)) | _ => false)
     | _ => false) &&
    (match s.node.reg.objs with
     | [o] => decide (o.key = ⟨1, (i : Int), jobId sxJob⟩)
     | _ => false)
  | _ => false

theorem sxCheck_ok : sxCheck 0 1 = true ∧ sxCheck 1 0 = true := by
  constructor <;> decide +kernel

theorem sx_run {i j : Nat} (h : sxCheck i j = true) : ∃ (s : Program.Sys Unit) (b : Program.JobSt) (o : Registry.Obj) (sig : Schnorr.Sig),
    Program.run (sxCfg i) (Program.init (sxCfg i)) (sxHistory i j) = .ok s ∧ b ∈ s.jobs ∧ b.job = sxJob ∧ ((i : Int), some sig) ∈ b.lines ∧
    s.node.reg.objs = [o] ∧ o.key = ⟨1, (i : Int), jobId sxJob⟩ := by
  rw [sxCheck] at h
  cases hs : Program.run (sxCfg i) (Program.init (sxCfg i)) (sxHistory i j) with
  | panic => rw [hs] at h; cases h
  | err => rw [hs] at h; cases h
  | ok s =>
    rw [hs] at h
    dsimp only at h
    rw [Bool.and_eq_true] at h
    obtain ⟨h1, h2⟩ := h
    split at h1
    · rename_i b hb
      split at h2
      · rename_i o ho
        rw [Bool.and_eq_true, decide_eq_true_eq] at h1
        rw [decide_eq_true_eq] at h2
        obtain ⟨h3, h4⟩ := h1
        split at h4
        · rename_i x sig hl
          rw [decide_eq_true_eq] at h4
          subst h4
          exact ⟨s, b, o, sig, rfl, by rw [hb]; exact List.mem_singleton.2 rfl, h3, by rw [hl]; exact List.mem_singleton.2 rfl, ho, h2⟩
        · cases h4
      · cases h2
    · cases h1

theorem sx_signs {i j i0 : Nat} {s : Program.Sys Unit} {o : Registry.Obj} (ho : s.node.reg.objs = [o]) (hk : o.key.gidx = (i : Int)) :
    Program.Process.Signs ⟨sxCfg i, sxHistory i j, s⟩ (groupOf (sxStarted i0) [5, 7] [11, 13] sxJob) sxJob := by
  refine ⟨by show sxJob ∈ requests (_ :: _); exact List.mem_cons_self .., rfl, rfl, ?_⟩
  intro r o' _ ho' _ _ random h
  have ho1 : o' ∈ s.node.reg.objs := List.mem_of_getElem? ho'
  rw [ho, List.mem_singleton] at ho1
  subst ho1
  have h' : random = ⟨⟨i, peval [11, 13] (i + 1)⟩, [11, 13].map (timesAdd base)⟩ := (Outcome.ok.inj h).symm
  subst h'
  refine ⟨rfl, ?_⟩
  rw [hk]
  show (peval [11, 13] (i + 1) - peval [11, 13] (i + 1)) % _ = 0
  rw [sub_self]; rfl

/-- C85: both processes print a signature for the request `0 _ 9`, and it is the same. -/
example : ∃ (s s' : Program.Sys Unit) (b b' : Program.JobSt) (sig : Schnorr.Sig),
    runSig1 sxWorld.parse (sxStarted 0).startAt ⟨"0", "_", "9"⟩ = some sxJob ∧
    Program.run (sxCfg 0) (Program.init (sxCfg 0)) (sxHistory 0 1) = .ok s ∧ Program.run (sxCfg 1) (Program.init (sxCfg 1)) (sxHistory 1 0) = .ok s' ∧
    b ∈ s.jobs ∧ b' ∈ s'.jobs ∧ (0, some sig) ∈ b.lines ∧ (1, some sig) ∈ b'.lines ∧
    Schnorr.verify sumHash (.pt (timesAdd base 5)) 9 sig = .ok () := by
  obtain ⟨s, b, o, sig, h1, h2, h3, h4, h5, h6⟩ := sx_run sxCheck_ok.1
  obtain ⟨s', b', o', sig', h1', h2', h3', h4', h5', h6'⟩ := sx_run sxCheck_ok.2
  obtain ⟨e, hv⟩ := C85_same sxWorld sxWorld exSort_contract exSort_contract (sxCmd 0) (sxCmd 1) exHosts exHosts (sx_compiled 0) (sx_compiled 1) _ _
    (sx_keys 0) (sx_keys 1) (List.Perm.refl _) rfl [5, 7] (sx_shares (by omega)) (sx_shares (by omega)) (sxStarted 0) (sxStarted 1)
    sx_start0 sx_start1 (sxRest 0) (sxRest 1) rfl rfl (fun b => by simp [sxRest, sumHash]) (sxHistory 0 1) (sxHistory 1 0) s s' h1 h1'
    (List.nodup_singleton _) (List.nodup_singleton _) sxJob [11, 13] (sx_signs h5 (by rw [h6])) (sx_signs h5' (by rw [h6']))
    (by decide) (by decide) ⟨by decide, by decide⟩ (by decide) (by decide) b b' h2 h2' h3 h3' 0 1 sig sig' h4 h4'
  subst e
  exact ⟨s, s', b, b', sig, by decide +kernel, h1, h1', h2, h2', h4, h4', hv⟩

/-- A request up to the state in which the firewall waits for the time to buffer; the guest is `g`. -/
def sxBegin (g : Int) : List Program.Ev :=
  [.request sxJob, .job 0 g, .job 0 g, .job 0 g, .runner 0, .task 0, .runner 0, .fwStep 0, .tick 45, .latch, .tick 95, .fwStep 0]

/-- Member 0 up to its deals, at 130 ms. -/
def sxHistory1 : List Program.Ev :=
  sxBegin 0 ++ [.runner 0, .tick 100, .fwStep 0, .runner 0, .runner 0, .task 0, .thread 0, .thread 0, .tick 125, .thread 0, .tick 130, .thread 0]

/-- Member 1 up to 125 ms. -/
def sxHistory2 : List Program.Ev := sxBegin 1 ++ [.tick 125]

def sxDeal : Message Dto := ⟨0, 1, 1, jobId sxJob, 1, dtoOf .deal dealToDto (exDeal 0)⟩

def sxCheck1 : Bool :=
  match Program.run (sxCfg 0) (Program.init (sxCfg 0)) sxHistory1 with
  | .ok s => decide (sxDeal ∈ sentBy s) && decide (s.node.fw.now = 130)
  | _ => false

def sxCheck2 : Bool :=
  match Program.run (sxCfg 1) (Program.init (sxCfg 1)) sxHistory2 with
  | .ok s => decide (s.node.runners = [⟨⟨1, 1, jobId sxJob⟩, ⟨95, 100, 1750⟩, 2, 0, 0⟩]) && decide (s.node.fw.now = 125) &&
    decide (s.node.fw.dropAll = false) && decide (s.node.fw.calls.map Firewall.Call.sections = [2]) &&
    decide (s.node.fw.buffer = []) && decide (s.node.queues (1, 1) = [])
  | _ => false

theorem sxCheck12_ok : sxCheck1 = true ∧ sxCheck2 = true := by decide +kernel

theorem sx_run1 : ∃ s, Program.run (sxCfg 0) (Program.init (sxCfg 0)) sxHistory1 = .ok s ∧ s.node.fw.now = 130 ∧ ∃ u ∈ s.runs, .sent sxDeal ∈ u.log := by
  have h := sxCheck12_ok.1
  rw [sxCheck1] at h
  cases hs : Program.run (sxCfg 0) (Program.init (sxCfg 0)) sxHistory1 with
  | panic => rw [hs] at h; cases h
  | err => rw [hs] at h; cases h
  | ok s =>
    rw [hs] at h
    simp only [Bool.and_eq_true, decide_eq_true_eq] at h
    obtain ⟨h1, h2⟩ := h
    rw [sentBy, List.mem_flatMap] at h1
    obtain ⟨u, hu, h1⟩ := h1
    rw [List.mem_filterMap] at h1
    obtain ⟨x, hx, h1⟩ := h1
    refine ⟨s, rfl, h2, u, hu, ?_⟩
    cases x with
    | sent m => rw [← Option.some.inj h1]; exact hx
    | _ => cases h1

theorem sx_run2 : ∃ s, Program.run (sxCfg 1) (Program.init (sxCfg 1)) sxHistory2 = .ok s ∧ s.node.fw.now = 125 ∧
    (∃ v ∈ s.node.runners, v.key = ⟨1, 1, jobId sxJob⟩ ∧ 2 ≤ v.pos) ∧ Program.Awake s.node.fw ∧ s.node.fw.buffer = [] ∧ s.node.queues (1, 1) = [] := by
  have h := sxCheck12_ok.2
  rw [sxCheck2] at h
  cases hs : Program.run (sxCfg 1) (Program.init (sxCfg 1)) sxHistory2 with
  | panic => rw [hs] at h; cases h
  | err => rw [hs] at h; cases h
  | ok s =>
    rw [hs] at h
    simp only [Bool.and_eq_true, decide_eq_true_eq] at h
    obtain ⟨⟨⟨⟨⟨h1, h2⟩, h3⟩, h4⟩, h5⟩, h6⟩ := h
    refine ⟨s, rfl, h2, ⟨_, by rw [h1]; exact List.mem_singleton.2 rfl, rfl, by decide⟩, ⟨?_, ?_⟩, h5, h6⟩
    · rw [Firewall.step, if_neg]; rw [h3]; simp
    · intro i c hc hlt
      have : c.sections ∈ s.node.fw.calls.map Firewall.Call.sections := List.mem_map_of_mem (List.mem_of_getElem? hc)
      rw [h4, List.mem_singleton] at this
      omega

/-- The hypotheses of C85 on messages hold of these histories, and so member 1 takes the deal. -/
example : ∃ s2 s3, Program.run (sxCfg 1) (Program.init (sxCfg 1)) sxHistory2 = .ok s2 ∧ Program.step (sxCfg 1) s2 (.net sxDeal) = .ok s3 ∧
    (s3.node.fw.buffer.get? sxDeal.key = some [sxDeal] ∨ s3.node.queues (1, 1) = [sxDeal]) := by
  obtain ⟨s1, a1, a2, u, hu, hm⟩ := sx_run1
  obtain ⟨s2, b1, b2, ⟨v, hv, hk, hp⟩, b3, b4, b5⟩ := sx_run2
  have hr : requests sxHistory1 = [sxJob] ∧ requests sxHistory2 = [sxJob] := by decide +kernel
  have hq : runSig1 sxWorld.parse 100000000 ⟨"0", "_", "9"⟩ = some sxJob := by decide +kernel
  obtain ⟨s3, c1, c2⟩ := C85_taken sxWorld sxWorld exSort_contract exSort_contract rfl (sxCmd 0) (sxCmd 1) exHosts exHosts (sx_compiled 0)
    (sx_compiled 1) rfl (by show "t" ≠ "_"; decide) (sxStarted 0) (sxStarted 1) sx_start0 sx_start1 (sxRest 0) (sxRest 1) sxHistory1 sxHistory2 s1 s2
    a1 b1 (by rw [hr.1]; simp) (by rw [hr.2]; simp) ⟨"0", "_", "9"⟩ rfl sxJob sxJob hq hq (by rw [hr.1]; simp) (by rw [hr.2]; simp)
    u hu sxDeal hm rfl (by rw [a2, b2]; decide) (by rw [b2]; decide +kernel) v hv hk hp b3 (by rw [b4]; decide)
    (by rw [show sxDeal.rcpt = 1 from rfl, b5]; decide)
  refine ⟨s2, s3, b1, c1, ?_⟩
  rw [b4, show sxDeal.rcpt = 1 from rfl, b5] at c2
  exact c2

end Verif.Props.Start
