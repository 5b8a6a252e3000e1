import Verif.Props.Rabin
import Verif.Props.GenerationExample

/-! Three members with generators of C116: its hypotheses can be met. -/
namespace Verif.Props.Rabin
open Verif.Prot Verif.Spec.Prot Verif.Props.Generation Verif.Rabin Verif.Point Verif.Props Verif.Dkg Verif.Dto Verif.Dss Verif.Spec.Rabin Verif.Spec.Generation

/-- Their secret keys. -/
def exLong : List Nat := [5, 7, 11]

/-- Their choices: signatures repeat what is signed, and the encryption names dealer and verifier. -/
def exR : Choice where
  keys := exLong.map (timesAdd base)
  T := 2
  long a := exLong.getD a 0
  f a := [[3, 1], [4, 1], [5, 9]].getD a []
  g a := [[2, 6], [5, 3], [5, 8]].getD a []
  sign _ b := b
  encrypt a b _ := ⟨base, [UInt8.ofNat a], [UInt8.ofNat b], []⟩
  iter _ l := l.reverse

/-- The suite without decryption. -/
def exS0 (timeout : Bool) : Suite where
  decrypt _ _ _ _ := none
  verify _ b s := b == s
  respHash sid v _ := sid ++ [UInt8.ofNat v]
  commitsHash a sid _ := sid ++ [UInt8.ofNat a]
  complHash a b _ := [UInt8.ofNat a, UInt8.ofNat b]
  sid p _ cs _ := [UInt8.ofNat p.X.toNat, UInt8.ofNat cs.length]
  deriveH _ := timesAdd base 13
  dealerTimeout := timeout

/-- The suite: a deal can be read as the one that was made. -/
def exS (timeout : Bool) : Suite :=
  { exS0 timeout with
    decrypt := fun _ _ _ e => match e.signature, e.nonce with
      | [a], [b] => some (dealOf (exS0 timeout) exR a.toNat b.toNat)
      | _, _ => none }

theorem ex_honest {P : List Nat} {timeout : Bool} (h1 : P.Nodup) (h2 : ∀ a ∈ P, a < 3) (h3 : 2 ≤ P.length)
    (h4 : timeout = true ∨ ∀ a < 3, a ∈ P) : Honest (exS timeout) exR P where
  once := h1
  mem := h2
  low := Nat.le_refl 2
  high := h3
  few := by show 3 ≤ 2 ^ 32; decide
  key a ha := by
    have : a < 3 := h2 a ha
    show mul ((exLong.getD a 0 : Nat) : Int) base = .ok ((exLong.map (timesAdd base)).getD a null)
    rw [(C10_mul _ base isElt_base).1]
    interval_cases a <;> rfl
  polys a ha := by
    have : a < 3 := h2 a ha
    interval_cases a <;> exact ⟨rfl, rfl⟩
  second := (exists_log_iff _).2 ⟨_, log_base_nat 13⟩
  sign _ _ b := beq_self_eq_true b
  encrypt a ha b hb := by
    have : a < 3 := h2 a ha
    have : b < 3 := h2 b hb
    interval_cases a <;> interval_cases b <;> rfl
  iter _ _ l := List.reverse_perm l
  timeout := h4

theorem ex_sent {P : List Nat} (h2 : ∀ a ∈ P, a < 3) : Sent exR P where
  deal _ _ _ _ := sendable_base
  commits a ha := by
    have : a < 3 := h2 a ha
    interval_cases a <;> exact by decide

/-- All three, and two of them when the time of the dealer is up; and only two without that are not enough. -/
example : Honest (exS false) exR [0, 1, 2] ∧ Sent exR [0, 1, 2] ∧ Honest (exS true) exR [2, 0] ∧ ¬ Honest (exS false) exR [2, 0] := by
  refine ⟨ex_honest (by decide) (by decide) (by decide) (.inr (by decide)), ex_sent (by decide),
    ex_honest (by decide) (by decide) (by decide) (.inl rfl), fun h => ?_⟩
  rcases h.timeout with e | e
  · cases e
  · exact absurd (e 1 (by show 1 < 3; decide)) (by decide)

/-- The polynomial of the key: `12 + 11 x`. -/
example : total exR [0, 1, 2] = [12, 11] ∧ peval (total exR [0, 1, 2]) (2 + 1) = 45 := by decide

/-- Member 1 tells member 0 other commitments. -/
example : ∃ k sh, after (exS false) exR [0, 1, 2] 0 (shifted exR 1 0 1) = .ok k ∧ finished (exR.member 0) k = true ∧
    distKeyShare (exR.member 0) k = .ok sh ∧ sh.share = ((net (exS false) exR [0, 1, 2]).key 0).share ∧
    sh.commits.headD null ≠ ((net (exS false) exR [0, 1, 2]).key 0).commits.headD null :=
  C116_split (ex_honest (by decide) (by decide) (by decide) (.inr (by decide))) (by decide) (by decide) (by decide) (by decide)

/-- A generator without responses of others. -/
example : (secretCommits (exS false) (exR.member 0) (setTimeout (exS false) (exR.member 0) (first (exS false) exR 0))).2 = .err :=
  C116_silent rfl _ _ 1 (by decide) rfl

/-- What a generator is given in `after` is calls. -/
theorem after_calls {S : Suite} {R : Choice} {P : List Nat} (h : Honest S R P) (hs : Sent R P) {i : Nat} (hi : i ∈ P) :
    ∃ cs : List Spec.Rabin.Call, after S R P i R.f = .ok (cs.foldl (Spec.Rabin.Call.run S (R.member i)) (deals S (R.member i) (first S R i)).1) := by
  have hc : ∀ l : List Nat, (∀ j ∈ l, j ∈ P) → ∃ cs : List Spec.Rabin.Call, ∀ k, cs.foldl (Spec.Rabin.Call.run S (R.member i)) k =
      l.foldl (fun k j => (processSecretCommits S (R.member i) k (commitsOf S R R.f j)).1) k := by
    intro l
    induction l with
    | nil => intro _; exact ⟨[], fun _ => rfl⟩
    | cons j l ih =>
      intro hl
      obtain ⟨cs, e⟩ := ih fun x hx => hl x (List.mem_cons_of_mem _ hx)
      obtain ⟨_, x, _, hx⟩ := (C116_proper h hs).commits j (hl j List.mem_cons_self)
      exact ⟨.commits x _ hx :: cs, fun k => e _⟩
  obtain ⟨cs, e⟩ := hc (P.filter (· ≠ i)) fun j hj => (List.mem_filter.1 hj).1
  refine ⟨((P.filter (· ≠ i)).map fun j => .deal ((net S R P).deal j i)) ++
    (((P.filter (· ≠ i)).flatMap fun v => (P.filter (· ≠ v)).map fun d => (d, v)).map fun p => .resp ((net S R P).resp p.1 p.2)) ++
    [.timeout, .own] ++ cs, ?_⟩
  rw [after, newGen_eq h hi, Outcome.bind_ok, List.foldl_append, List.foldl_append, List.foldl_append, List.foldl_map, List.foldl_map, e]
  rfl

/-- Calls after which there is a share, as `C116_fits` expects. -/
example : ∃ k0 ds, ∃ cs : List Spec.Rabin.Call, ∃ sh, newGen (exS false) (exR.member 0) = .ok k0 ∧ (deals (exS false) (exR.member 0) k0).2 = .ok ds ∧
    (∀ pub d, exR.keys[0]? = some pub → k0.deals[0]? = some d → (exS false).decrypt 5 pub exR.keys (exR.encrypt 0 0 d) = some d) ∧
    distKeyShare (exR.member 0) (cs.foldl (Spec.Rabin.Call.run (exS false) (exR.member 0)) (deals (exS false) (exR.member 0) k0).1) = .ok sh := by
  have h : Honest (exS false) exR [0, 1, 2] := ex_honest (by decide) (by decide) (by decide) (.inr (by decide))
  obtain ⟨cs, e⟩ := after_calls h (ex_sent (by decide)) (i := 0) (by decide)
  obtain ⟨k, h1, _, h3⟩ := C116_run h (i := 0) (by decide)
  rw [e] at h1
  have h1 := Outcome.ok.inj h1
  obtain ⟨ds, h4, _⟩ := (generates h (by decide) (newGen_eq h (i := 0) (by decide))).deals
  refine ⟨_, ds, cs, _, newGen_eq h (by decide), h4, fun pub d _ hd => ?_, by rw [h1]; exact h3⟩
  cases hd
  rfl

/-- What is said to member `i` of three, by op code. -/
def exMsgs (P : List Nat) (i : Nat) : List (Message Dto) :=
  ((others P i).map fun (a : Nat) => (⟨a, 0, i, "run", 1, dtoOf .deal dealToDto ((net (exS true) exR P).deal a i)⟩ : Message Dto)) ++
  ((otherResps P i).map fun p => ⟨p.2, 0, i, "run", 2, .response ((net (exS true) exR P).resp p.1 p.2)⟩) ++
  ((others P i).map fun (a : Nat) => ⟨a, 0, i, "run", 5, dtoOf .commits commitsToDto ((net (exS true) exR P).commits a)⟩)

/-- Start, and go through the stages up to `s`. In each, the messages of its op code come. -/
def exTo (P : List Nat) (i : Nat) : Nat → List (Ev Dto)
  | 0 => [.tick 0, .thread, .thread]
  | s + 1 => exTo P i s ++ [.tick (1000 * (s + 1)), .thread, .tick (1000 * (s + 1) + 500), .thread] ++
    ((exMsgs P i).filter (·.op = ((s + 1 : Nat) : Int))).map .msg

/-- The protocol of member `i` of three. -/
def exConf (i : Nat) : Conf Dto Obj (Data Gen) := dkgConf (kyb (exS true) (exR.member i)) "run" i 3

/-- All of its stages. -/
def exHist (P : List Nat) (i : Nat) : List (Ev Dto) := exTo P i 8 ++ [.tick 20000, .thread]

/-- The run of member `i` of three. -/
def exRun (P : List Nat) (i : Nat) : Outcome (Run Dto Obj (Data Gen)) := exec (exConf i) (newRun Dto Obj (newData (first (exS true) exR i)) 0) (exHist P i)

theorem exRun_eq (P : List Nat) (i : Nat) : exRun P i = exec (exConf i) (newRun Dto Obj (newData (first (exS true) exR i)) 0) (exHist P i) := rfl

/-- The messages of its log that were sent. -/
def sentIn (P : List Nat) (i : Nat) : List (Message Dto) :=
  match exRun P i with
  | .ok r => r.log.filterMap fun e => match e with | .sent m => some m | _ => none
  | _ => []

/-- The messages of its log that were handled. -/
def handledIn (P : List Nat) (i : Nat) : List (Message Dto) :=
  match exRun P i with
  | .ok r => r.log.filterMap fun e => match e with | .handled m => some m | _ => none
  | _ => []

/-- How many messages one of them is to get: deals, responses and commitments. -/
def exCount (P : List Nat) : Nat := (P.length - 1) + (P.length - 1) ^ 2 + (P.length - 1)

/-- All of these get to the end, handle only what was sent to them, and all of it. -/
def exCheck (P : List Nat) : Bool := P.all fun i =>
  (match exRun P i with
    | .ok r => decide (8 ≤ stageOf r.log) && !(gaveUp r.log)
    | _ => false) &&
  decide ((handledIn P i).length = exCount P) &&
  ((handledIn P i).all fun m => decide (m.rcpt = (i : Int)) && P.any fun j => decide (m ∈ sentIn P j)) &&
  P.all fun j => (sentIn P j).all fun m => decide (m.rcpt ≠ (i : Int)) || decide (m ∈ handledIn P i)

/-- So it is when member 1 is silent. -/
theorem exCheck_true : exCheck [2, 0] = true := by decide +kernel

/-- What came out of it. -/
def exOut (P : List Nat) (i : Nat) : Run Dto Obj (Data Gen) :=
  match exRun P i with
  | .ok r => r
  | _ => newRun Dto Obj (newData (first (exS true) exR i)) 0

theorem ex_facts {P : List Nat} (hP : exCheck P = true) (i : Nat) (hi : i ∈ P) : exRun P i = .ok (exOut P i) ∧ 8 ≤ stageOf (exOut P i).log ∧
    gaveUp (exOut P i).log = false ∧ (handledIn P i).length = exCount P ∧
    (∀ m ∈ handledIn P i, m.rcpt = (i : Int) ∧ ∃ j ∈ P, m ∈ sentIn P j) ∧ ∀ j ∈ P, ∀ m ∈ sentIn P j, m.rcpt = (i : Int) → m ∈ handledIn P i := by
  unfold exCheck at hP
  have h := List.all_eq_true.1 hP i hi
  rw [Bool.and_eq_true, Bool.and_eq_true, Bool.and_eq_true] at h
  obtain ⟨⟨⟨h1, h2⟩, h3⟩, h4⟩ := h
  rw [exOut]
  cases hr : exRun P i with
  | panic => rw [hr] at h1; cases h1
  | err => rw [hr] at h1; cases h1
  | ok r =>
    rw [hr] at h1
    dsimp only at h1 ⊢
    rw [Bool.and_eq_true, Bool.not_eq_true'] at h1
    refine ⟨rfl, of_decide_eq_true h1.1, h1.2, of_decide_eq_true h2, fun m hm => ?_, fun j hj m hm hrc => ?_⟩
    · have h := List.all_eq_true.1 h3 m hm
      rw [Bool.and_eq_true, List.any_eq_true] at h
      obtain ⟨h5, j, h6, h7⟩ := h
      exact ⟨of_decide_eq_true h5, j, h6, of_decide_eq_true h7⟩
    · have h := List.all_eq_true.1 (List.all_eq_true.1 h4 j hj) m hm
      rw [Bool.or_eq_true] at h
      rcases h with h | h
      · exact absurd hrc (of_decide_eq_true h)
      · exact of_decide_eq_true h

theorem mem_sentIn {P : List Nat} {i : Nat} (h : exRun P i = .ok (exOut P i)) {m : Message Dto} : m ∈ sentIn P i ↔ .sent m ∈ (exOut P i).log := by
  rw [sentIn, h]
  dsimp only
  rw [List.mem_filterMap]
  constructor
  · rintro ⟨e, he, h⟩
    cases e <;> cases h
    exact he
  · intro h; exact ⟨_, h, rfl⟩

theorem mem_handledIn {P : List Nat} {i : Nat} (h : exRun P i = .ok (exOut P i)) {m : Message Dto} : m ∈ handledIn P i ↔ .handled m ∈ (exOut P i).log := by
  rw [handledIn, h]
  dsimp only
  rw [List.mem_filterMap]
  constructor
  · rintro ⟨e, he, h⟩
    cases e <;> cases h
    exact he
  · intro h; exact ⟨_, h, rfl⟩

theorem ex_exec {P : List Nat} (hP : exCheck P = true) (i : Nat) (hi : i ∈ P) : exec (exConf i) (newRun Dto Obj (newData (first (exS true) exR i)) 0) (exHist P i) = .ok (exOut P i) :=
  (exRun_eq P i).symm.trans (ex_facts hP i hi).1

attribute [local irreducible] exOut exRun exHist sentIn handledIn

/-- The runs of members 2 and 0. -/
def exRuns : Runs (exS true) exR [2, 0] "run" 0 where
  c := exConf
  t0 _ := 0
  h := exHist [2, 0]
  r := exOut [2, 0]
  conf _ _ := ⟨.inl rfl, rfl⟩
  run := ex_exec exCheck_true

/-- Members 2 and 0 meet the hypotheses of `C116_together`, without member 1. -/
example : ∃ h : Honest (exS true) exR [2, 0], Sent exR [2, 0] ∧ Generation.Closed (exRuns.group h) ∧ Generation.Timely (exRuns.group h) ∧
    ∀ i ∈ [2, 0], 8 ≤ stageOf (exRuns.r i).log ∧ gaveUp (exRuns.r i).log = false ∧ (handledIn [2, 0] i).length = 3 := by
  refine ⟨ex_honest (by decide) (by decide) (by decide) (.inl rfl), ex_sent (by decide), ?_, ?_, ?_⟩
  · intro i hi m hm _ _
    obtain ⟨e, _, _, _, h, _⟩ := ex_facts exCheck_true i hi
    obtain ⟨h1, j, hj, h2⟩ := h m ((mem_handledIn e).2 hm)
    exact ⟨h1, j, hj, (mem_sentIn (ex_facts exCheck_true j hj).1).1 h2⟩
  · intro i hi j hj m hm hrc _
    obtain ⟨e, _, _, _, _, h⟩ := ex_facts exCheck_true i hi
    exact (mem_handledIn e).1 (h j hj m ((mem_sentIn (ex_facts exCheck_true j hj).1).2 hm) hrc)
  · intro i hi
    obtain ⟨_, h1, h2, h3, _⟩ := ex_facts exCheck_true i hi
    exact ⟨h1, h2, h3⟩

end Verif.Props.Rabin
