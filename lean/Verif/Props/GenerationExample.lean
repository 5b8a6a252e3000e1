import Verif.Props.Generation
import Verif.Props.Dto
import Verif.Props.DkgExample

/-!
A generator that does what Spec/Generation.lean expects, for any members of which any take part, and three members that make a key with it:
the hypotheses of C99 can be met.
-/
namespace Verif.Props.Generation
open Verif.Prot Verif.Spec.Prot Verif.Spec.Generation Verif.Dkg Verif.Dto Verif.Dss Verif.Generation Verif.Point

/-- What the toy generators make. The members in `P` take part. The shares lie on the polynomial `ls`. -/
def toyNet (P ls : List Nat) : Net where
  on a := a ∈ P
  deal a b := ⟨a, ⟨base, [2], [3], [UInt8.ofNat b]⟩⟩
  resp d v := ⟨d, some ⟨[1], v, true, [5]⟩⟩
  commits a := ⟨a, [base], [1], [7]⟩
  key i := ⟨⟨i, peval ls (i + 1)⟩, ls.map (timesAdd base)⟩

/-- What a toy generator was given: dealers, `(dealer, verifier)` of responses, and senders of commitments. -/
structure Toy where
  dealt : List Nat
  resps : List (Nat × Nat)
  coms : List Nat

/-- The others of these. -/
def others (P : List Nat) (i : Nat) : List Nat := P.filter (· ≠ i)

/-- The responses of the others. -/
def otherResps (P : List Nat) (i : Nat) : List (Nat × Nat) := (others P i).flatMap fun v => (others P v).map fun d => (d, v)

/-- A generator of member `i` of `n` that keeps what it was given. It certifies when all deals and responses of those in `P` are
there, and has its share when all their commitments are. -/
def toyKyb (P ls : List Nat) (n i : Nat) : Kyb Toy where
  deals k := (k, .ok ((others (List.range n) i).map fun (b : Nat) => ((b : Int), (toyNet P ls).deal i b)))
  processDeal k d := ({ k with dealt := k.dealt ++ [d.index] }, if d.index ∈ k.dealt then .err else .ok (some ((toyNet P ls).resp d.index i)))
  processResponse k r :=
    match r.response with
    | none => (k, .err)
    | some w => ({ k with resps := k.resps ++ [(r.index, w.index)] }, if (r.index, w.index) ∈ k.resps then .err else .ok none)
  processJustification k _ := (k, .err)
  setTimeout k := k
  certified k := (others P i).all (· ∈ k.dealt) && (otherResps P i).all (· ∈ k.resps)
  qual _ := P.map Int.ofNat
  secretCommits k := (k, .ok ((toyNet P ls).commits i))
  processSecretCommits k c := ({ k with coms := k.coms ++ [c.index] }, .ok none)
  processComplaintCommits k _ := (k, .err)
  processReconstructCommits k _ := (k, .err)
  finished k := (others P i).all (· ∈ k.coms)
  distKeyShare k := if (others P i).all (· ∈ k.coms) then .ok ((toyNet P ls).key i) else .err

/-- Its first state. -/
def toy0 : Toy := ⟨[], [], []⟩

/-- Its states. -/
def toyPhases (P : List Nat) (i : Nat) : Phases Toy where
  dealing js k := k.dealt = js ∧ k.resps = [] ∧ k.coms = []
  responding ps k := (∀ j ∈ P, j ≠ i → j ∈ k.dealt) ∧ k.resps = ps ∧ k.coms = []
  settled k := (∀ j ∈ P, j ≠ i → j ∈ k.dealt) ∧ (∀ d v, d ∈ P → v ∈ P → v ≠ i → d ≠ v → (d, v) ∈ k.resps) ∧ k.coms = []
  committing js k := k.coms = js

theorem mem_others {P : List Nat} {i j : Nat} : j ∈ others P i ↔ j ∈ P ∧ j ≠ i := by
  rw [others, List.mem_filter]; simp

theorem mem_otherResps {P : List Nat} {i : Nat} {p : Nat × Nat} : p ∈ otherResps P i ↔ p.1 ∈ P ∧ p.2 ∈ P ∧ p.2 ≠ i ∧ p.1 ≠ p.2 := by
  rw [otherResps, List.mem_flatMap]
  constructor
  · rintro ⟨v, hv, hp⟩
    rw [List.mem_map] at hp
    obtain ⟨d, hd, rfl⟩ := hp
    rw [mem_others] at hv hd
    exact ⟨hd.1, hv.1, hv.2, hd.2⟩
  · rintro ⟨h1, h2, h3, h4⟩
    exact ⟨p.2, mem_others.2 ⟨h2, h3⟩, List.mem_map.2 ⟨p.1, mem_others.2 ⟨h1, h4⟩, rfl⟩⟩

theorem toy_qual {P ls : List Nat} (hP : P.Nodup) {n i : Nat} (k : Toy) : Qualify (toyNet P ls) ((toyKyb P ls n i).qual k) := by
  refine ⟨hP.map fun _ _ e => Int.ofNat.inj e, fun x => ?_⟩
  show x ∈ P.map Int.ofNat ↔ _
  rw [List.mem_map]
  constructor
  · rintro ⟨b, hb, rfl⟩; exact ⟨b, hb, rfl⟩
  · rintro ⟨b, hb, rfl⟩; exact ⟨b, hb, rfl⟩

/-- The toy generator does what is expected, with any members. -/
theorem toy_generates {P : List Nat} (hP : P.Nodup) (ls : List Nat) (n i : Nat) : Generates (toyKyb P ls n i) (toyNet P ls) n i toy0 (toyPhases P i) where
  deals := by
    refine ⟨_, rfl, fun j d => ?_, ⟨rfl, rfl, rfl⟩⟩
    rw [List.mem_map]
    constructor
    · rintro ⟨b, hb, e⟩
      injection e with e1 e2
      rw [mem_others, List.mem_range] at hb
      exact ⟨b, hb.1, hb.2, e1.symm, e2.symm⟩
    · rintro ⟨b, h1, h2, rfl, rfl⟩
      exact ⟨b, mem_others.2 ⟨List.mem_range.2 h1, h2⟩, rfl⟩
  deal := by
    rintro js k j ⟨rfl, h2, h3⟩ _ _
    exact ⟨⟨rfl, h2, h3⟩, rfl⟩
  dealt := by
    rintro js k ⟨rfl, h2, h3⟩ h
    exact ⟨h, h2, h3⟩
  resp := by
    rintro ps k d v ⟨h1, rfl, h3⟩ _ _ _ _
    exact ⟨⟨h1, rfl, h3⟩, rfl⟩
  responded := by
    rintro ps k ⟨h1, rfl, h3⟩ h
    exact ⟨h1, h, h3⟩
  settled := by
    rintro k ⟨h1, h2, h3⟩
    refine ⟨?_, toy_qual hP k, rfl, h3⟩
    show ((others P i).all (· ∈ k.dealt) && (otherResps P i).all (· ∈ k.resps)) = true
    rw [Bool.and_eq_true, List.all_eq_true, List.all_eq_true]
    refine ⟨fun j hj => ?_, fun p hp => ?_⟩
    · rw [mem_others] at hj; exact decide_eq_true (h1 j hj.1 hj.2)
    · rw [mem_otherResps] at hp; exact decide_eq_true (h2 p.1 p.2 hp.1 hp.2.1 hp.2.2.1 hp.2.2.2)
  commits := by
    rintro js k j rfl _ _
    exact ⟨rfl, rfl⟩
  done := by
    rintro js k rfl h
    have : (others P i).all (· ∈ k.coms) = true := by
      rw [List.all_eq_true]
      intro j hj
      rw [mem_others] at hj
      exact decide_eq_true (h j hj.1 hj.2)
    refine ⟨this, ?_, toy_qual hP k⟩
    show (if (others P i).all (· ∈ k.coms) then Outcome.ok ((toyNet P ls).key i) else .err) = _
    rw [if_pos this]

theorem toy_proper {P ls : List Nat} {n : Nat} (hn : n ≤ 2 ^ 32) (hP : ∀ a ∈ P, a < n) : Proper (toyNet P ls) n where
  few := hn
  on := hP
  deal a b _ _ _ := ⟨rfl, (C29_deal ((toyNet P ls).deal a b)).1 sendable_base⟩
  resp d v _ _ _ := ⟨rfl, _, rfl, rfl⟩
  commits a _ := ⟨rfl, (C29_commits ((toyNet P ls).commits a)).1 fun p hp => by rw [List.mem_singleton.1 hp]; exact sendable_base⟩

/-- What is said to member `i` of three, by op code. -/
def toyMsgs (P : List Nat) (i : Nat) : List (Message Dto) :=
  ((others P i).map fun (a : Nat) => (⟨a, 0, i, "run", 1, dtoOf .deal dealToDto ((toyNet P [11, 13]).deal a i)⟩ : Message Dto)) ++
  ((otherResps P i).map fun p => ⟨p.2, 0, i, "run", 2, .response ((toyNet P [11, 13]).resp p.1 p.2)⟩) ++
  ((others P i).map fun (a : Nat) => ⟨a, 0, i, "run", 5, dtoOf .commits commitsToDto ((toyNet P [11, 13]).commits a)⟩)

/-- Start, and go through the stages up to `s`. In each, the messages of its op code come. -/
def toyTo (P : List Nat) (i : Nat) : Nat → List (Ev Dto)
  | 0 => [.tick 0, .thread, .thread]
  | s + 1 => toyTo P i s ++ [.tick (1000 * (s + 1)), .thread, .tick (1000 * (s + 1) + 500), .thread] ++
    ((toyMsgs P i).filter (·.op = ((s + 1 : Nat) : Int))).map .msg

/-- The protocol of member `i` of three. -/
def toyConf (P : List Nat) (i : Nat) : Conf Dto Obj (Data Toy) := dkgConf (toyKyb P [11, 13] 3 i) "run" i 3

/-- All of its stages. -/
def toyHist (P : List Nat) (i : Nat) : List (Ev Dto) := toyTo P i 8 ++ [.tick 20000, .thread]

/-- The run of member `i` of three. -/
def toyRun (P : List Nat) (i : Nat) : Outcome (Run Dto Obj (Data Toy)) := exec (toyConf P i) (newRun Dto Obj (newData toy0) 0) (toyHist P i)

theorem toyRun_eq (P : List Nat) (i : Nat) : toyRun P i = exec (toyConf P i) (newRun Dto Obj (newData toy0) 0) (toyHist P i) := rfl

/-- The messages of its log that were sent. -/
def sentIn (P : List Nat) (i : Nat) : List (Message Dto) :=
  match toyRun P i with
  | .ok r => r.log.filterMap fun e => match e with | .sent m => some m | _ => none
  | _ => []

/-- The messages of its log that were handled. -/
def handledIn (P : List Nat) (i : Nat) : List (Message Dto) :=
  match toyRun P i with
  | .ok r => r.log.filterMap fun e => match e with | .handled m => some m | _ => none
  | _ => []

/-- How many messages one of them is to get: deals, responses and commitments. -/
def toyCount (P : List Nat) : Nat := (P.length - 1) + (P.length - 1) ^ 2 + (P.length - 1)

/-- All of these, who are different, get to the end with their shares, handle only what was sent to them, and all of it. -/
def toyCheck (P : List Nat) : Bool := decide P.Nodup && P.all fun i =>
  (match toyRun P i with
    | .ok r => decide (8 ≤ stageOf r.log) && !(gaveUp r.log) && decide (r.user.out = [.key ((toyNet P [11, 13]).key i) (P.map Int.ofNat)])
    | _ => false) &&
  decide ((handledIn P i).length = toyCount P) &&
  ((handledIn P i).all fun m => decide (m.rcpt = (i : Int)) && P.any fun j => decide (m ∈ sentIn P j)) &&
  P.all fun j => (sentIn P j).all fun m => decide (m.rcpt ≠ (i : Int)) || decide (m ∈ handledIn P i)

/-- So it is when all three take part, and when member 1 is silent. -/
theorem toyCheck_true : toyCheck [0, 1, 2] = true ∧ toyCheck [2, 0] = true := by decide +kernel

/-- What came out of it. -/
def toyOut (P : List Nat) (i : Nat) : Run Dto Obj (Data Toy) :=
  match toyRun P i with
  | .ok r => r
  | _ => newRun Dto Obj (newData toy0) 0

theorem toy_facts {P : List Nat} (hP : toyCheck P = true) (i : Nat) (hi : i ∈ P) : toyRun P i = .ok (toyOut P i) ∧ 8 ≤ stageOf (toyOut P i).log ∧ gaveUp (toyOut P i).log = false ∧
    (toyOut P i).user.out = [.key ((toyNet P [11, 13]).key i) (P.map Int.ofNat)] ∧ (handledIn P i).length = toyCount P ∧
    (∀ m ∈ handledIn P i, m.rcpt = (i : Int) ∧ ∃ j ∈ P, m ∈ sentIn P j) ∧ ∀ j ∈ P, ∀ m ∈ sentIn P j, m.rcpt = (i : Int) → m ∈ handledIn P i := by
  rw [toyCheck, Bool.and_eq_true] at hP
  have h := List.all_eq_true.1 hP.2 i hi
  rw [Bool.and_eq_true, Bool.and_eq_true, Bool.and_eq_true] at h
  obtain ⟨⟨⟨h1, h2⟩, h3⟩, h4⟩ := h
  rw [toyOut]
  cases hr : toyRun P i with
  | panic => rw [hr] at h1; cases h1
  | err => rw [hr] at h1; cases h1
  | ok r =>
    rw [hr] at h1
    dsimp only at h1 ⊢
    rw [Bool.and_eq_true, Bool.and_eq_true, Bool.not_eq_true'] at h1
    refine ⟨rfl, of_decide_eq_true h1.1.1, h1.1.2, of_decide_eq_true h1.2, of_decide_eq_true h2, fun m hm => ?_, fun j hj m hm hrc => ?_⟩
    · have h := List.all_eq_true.1 h3 m hm
      rw [Bool.and_eq_true, List.any_eq_true] at h
      obtain ⟨h5, j, h6, h7⟩ := h
      exact ⟨of_decide_eq_true h5, j, h6, of_decide_eq_true h7⟩
    · have h := List.all_eq_true.1 (List.all_eq_true.1 h4 j hj) m hm
      rw [Bool.or_eq_true] at h
      rcases h with h | h
      · exact absurd hrc (of_decide_eq_true h)
      · exact of_decide_eq_true h

theorem mem_sentIn {P : List Nat} {i : Nat} (h : toyRun P i = .ok (toyOut P i)) {m : Message Dto} : m ∈ sentIn P i ↔ .sent m ∈ (toyOut P i).log := by
  rw [sentIn, h]
  dsimp only
  rw [List.mem_filterMap]
  constructor
  · rintro ⟨e, he, h⟩
    cases e <;> cases h
    exact he
  · intro h; exact ⟨_, h, rfl⟩

theorem mem_handledIn {P : List Nat} {i : Nat} (h : toyRun P i = .ok (toyOut P i)) {m : Message Dto} : m ∈ handledIn P i ↔ .handled m ∈ (toyOut P i).log := by
  rw [handledIn, h]
  dsimp only
  rw [List.mem_filterMap]
  constructor
  · rintro ⟨e, he, h⟩
    cases e <;> cases h
    exact he
  · intro h; exact ⟨_, h, rfl⟩

theorem toy_exec {P : List Nat} (hP : toyCheck P = true) (i : Nat) (hi : i ∈ P) : exec (toyConf P i) (newRun Dto Obj (newData toy0) 0) (toyHist P i) = .ok (toyOut P i) :=
  (toyRun_eq P i).symm.trans (toy_facts hP i hi).1

attribute [local irreducible] toyOut toyRun toyHist sentIn handledIn

theorem toyCheck_nodup {P : List Nat} (hP : toyCheck P = true) : P.Nodup := by
  rw [toyCheck, Bool.and_eq_true] at hP
  exact of_decide_eq_true hP.1

/-- The runs together. -/
def toyGroup {P : List Nat} (hP : toyCheck P = true) : Group Toy 3 "run" 0 (toyNet P [11, 13]) where
  c := toyConf P
  y := toyKyb P [11, 13] 3
  k0 _ := toy0
  ph := toyPhases P
  t0 _ := 0
  h := toyHist P
  r := toyOut P
  conf _ _ := ⟨.inl rfl, rfl⟩
  gen i _ := toy_generates (toyCheck_nodup hP) _ 3 i
  run := toy_exec hP

theorem toy_closed {P : List Nat} (hP : toyCheck P = true) : Closed (toyGroup hP) := by
  intro i hi m hm _ _
  obtain ⟨e, _, _, _, _, h, _⟩ := toy_facts hP i hi
  obtain ⟨h1, j, hj, h2⟩ := h m ((mem_handledIn e).2 hm)
  exact ⟨h1, j, hj, (mem_sentIn (toy_facts hP j hj).1).1 h2⟩

theorem toy_timely {P : List Nat} (hP : toyCheck P = true) : Timely (toyGroup hP) := by
  intro i hi j hj m hm hrc _
  obtain ⟨e, _, _, _, _, _, h⟩ := toy_facts hP i hi
  exact (mem_handledIn e).1 (h j hj m ((mem_sentIn (toy_facts hP j hj).1).2 hm) hrc)

/-- The three runs meet the hypotheses of `C99_together`. -/
example : Proper (toyNet [0, 1, 2] [11, 13]) 3 ∧ Closed (toyGroup toyCheck_true.1) ∧ Timely (toyGroup toyCheck_true.1) ∧
    ∀ i ∈ [0, 1, 2], 8 ≤ stageOf ((toyGroup toyCheck_true.1).r i).log ∧ gaveUp ((toyGroup toyCheck_true.1).r i).log = false ∧
      (handledIn [0, 1, 2] i).length = 8 :=
  ⟨toy_proper (by decide) (by decide), toy_closed _, toy_timely _, fun i hi => by
    obtain ⟨_, h1, h2, _, h3, _⟩ := toy_facts toyCheck_true.1 i hi
    exact ⟨h1, h2, h3⟩⟩

/-- So do those of two members when the third is silent. -/
example : Proper (toyNet [2, 0] [11, 13]) 3 ∧ Closed (toyGroup toyCheck_true.2) ∧ Timely (toyGroup toyCheck_true.2) ∧
    ∀ i ∈ [2, 0], 8 ≤ stageOf ((toyGroup toyCheck_true.2).r i).log ∧ gaveUp ((toyGroup toyCheck_true.2).r i).log = false ∧
      (handledIn [2, 0] i).length = 3 :=
  ⟨toy_proper (by decide) (by decide), toy_closed _, toy_timely _, fun i hi => by
    obtain ⟨_, h1, h2, _, h3, _⟩ := toy_facts toyCheck_true.2 i hi
    exact ⟨h1, h2, h3⟩⟩

end Verif.Props.Generation
