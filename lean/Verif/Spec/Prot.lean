import Verif.Model.Prot

/-!
What the trace of a protocol run says by itself: the stage it is in, whether it is pausing, which messages arrived early or
in time, and which entry may follow which trace. And what a history of events says: its messages, the number of sections
of the thread, and the clock.
-/
namespace Verif.Spec.Prot
open Verif.Prot
variable {D A : Type}

/-- The stage most recently entered; -1 before the first. -/
def stageOf (l : List (Entry D A)) : Int :=
  l.foldl (fun s x => match x with | .entered n => n | _ => s) (-1)

/-- In the pause after a stage. -/
def inPause (l : List (Entry D A)) : Bool :=
  l.foldl (fun s x => match x with | .entered _ => false | .paused => true | _ => s) false

/-- Abandoned. -/
def gaveUp (l : List (Entry D A)) : Bool := l.any fun x => match x with | .abandoned => true | _ => false

/-- The stages entered, in order. -/
def stagesOf (l : List (Entry D A)) : List Int := l.filterMap fun x => match x with | .entered n => some n | _ => none

/-- How often the run was cleaned up. -/
def cleanups (l : List (Entry D A)) : Nat := l.countP fun x => match x with | .cleanup => true | _ => false

/-- The messages with op code `n` handed to processing, in order. -/
def handledOf (n : Int) (l : List (Entry D A)) : List (Message D) :=
  l.filterMap fun x => match x with | .handled m => if m.op = n then some m else none | _ => none

/-- The messages with op code `n` given to the processor, in order. -/
def invokedOf (n : Int) (l : List (Entry D A)) : List (Message D) :=
  l.filterMap fun x => match x with | .invoked m _ => if m.op = n then some m else none | _ => none

/-- The messages with op code `n` that the protocol asked to send, in order. -/
def requestsOf (n : Int) (l : List (Entry D A)) : List (Message D) :=
  l.filterMap fun x => match x with | .request m => if m.op = n then some m else none | _ => none

/-- The messages with op code `n` transmitted, in order. -/
def sentOf (n : Int) (l : List (Entry D A)) : List (Message D) :=
  l.filterMap fun x => match x with | .sent m => if m.op = n then some m else none | _ => none

/-- The messages received, in order. -/
def receivedOf (l : List (Entry D A)) : List (Message D) :=
  l.filterMap fun x => match x with | .received m => some m | _ => none

/-- The messages received at moments when the trace so far and the message satisfy `P`. -/
def recvFrom (P : List (Entry D A) → Message D → Bool) (pre : List (Entry D A)) : List (Entry D A) → List (Message D)
  | [] => []
  | x :: l => (match x with | .received m => if P pre m then [m] else [] | _ => []) ++ recvFrom P (pre ++ [x]) l

/-- The messages with op code `n` received before stage `n`. -/
def early (n : Int) (l : List (Entry D A)) : List (Message D) :=
  recvFrom (fun pre m => decide (m.op = n) && decide (stageOf pre < n)) [] l

/-- The messages with op code `n` received in stage `n`, not in the pause after it. -/
def inTime (n : Int) (l : List (Entry D A)) : List (Message D) :=
  recvFrom (fun pre m => decide (m.op = n) && decide (stageOf pre = n) && !inPause pre) [] l

/-- The messages of a history, in order. -/
def msgs : List (Ev D) → List (Message D)
  | [] => []
  | .msg m :: h => m :: msgs h
  | _ :: h => msgs h

/-- The number of sections of the thread. -/
def threads : List (Ev D) → Nat
  | [] => 0
  | .thread :: h => 1 + threads h
  | _ :: h => threads h

/-- The clock after a history that began at `t0`. -/
def clock (t0 : Int) : List (Ev D) → Int
  | [] => t0
  | .tick t :: h => clock t h
  | _ :: h => clock t0 h

/-- The time at which the thread started. -/
def startTime (t0 : Int) : List (Ev D) → Int
  | [] => t0
  | .tick t :: h => startTime t h
  | .thread :: _ => t0
  | _ :: h => startTime t0 h

/-- What `_process_msg` must check before it calls the processor with `a`: the DTO has the registered type and `a` is what
it unmarshals to, the sender is a member, and the validator accepts it. -/
def Accepts {U : Type} (c : Conf D A U) (m : Message D) (a : A) : Prop :=
  ∃ s : Stage D A U, c.stages[m.op.toNat]? = some s ∧ 0 ≤ m.op ∧ s.proc.isSome = true ∧ s.typeOk m.dto = true ∧
    s.unmarshal m.dto = .ok a ∧ 0 ≤ m.sender ∧ m.sender < c.members ∧ s.senderValid a m.sender = .ok true

/-- Which entry may follow a trace. -/
def Good {U : Type} (c : Conf D A U) (pre : List (Entry D A)) : Entry D A → Prop
  | .entered n => n = stageOf pre + 1 ∧ n < c.stages.length ∧ cleanups pre = 0 ∧ (0 ≤ stageOf pre → inPause pre = true)
  | .paused => 0 ≤ stageOf pre ∧ stageOf pre + 1 < c.stages.length ∧ inPause pre = false
  | .stepped n => stageOf pre = n ∧ inPause pre = false ∧ gaveUp pre = false ∧ handledOf n pre = [] ∧ cleanups pre = 0
  | .received _ => True
  | .handled m => stageOf pre = m.op ∧ inPause pre = false
  | .invoked m a => stageOf pre = m.op ∧ inPause pre = false ∧ gaveUp pre = false ∧ Accepts c m a
  | .request m => m.sender = c.self ∧ m.pc = c.pc ∧ m.runId = c.id
  | .sent m => m.op ≤ stageOf pre
  | .abandoned => True
  | .cleanup => stageOf pre + 1 = c.stages.length ∧ cleanups pre = 0

/-- Every entry may follow the trace before it. -/
def Legal {U : Type} (c : Conf D A U) (l : List (Entry D A)) : Prop := ∀ l1 x l2, l = l1 ++ x :: l2 → Good c l1 x

/-- No function of the protocol panics. -/
def Total {U : Type} (c : Conf D A U) : Prop := ∀ s ∈ c.stages,
  (∀ f, s.step = some f → ∀ u, ∃ y, f u = .ok y) ∧ (∀ f, s.proc = some f → ∀ u a, ∃ y, f u a = .ok y) ∧
  (∀ d, s.unmarshal d ≠ .panic) ∧ ∀ a i, ∃ b, s.senderValid a i = .ok b

/-- Only time and the thread. -/
def Alone (h : List (Ev D)) : Prop := ∀ e ∈ h, ∀ m, e ≠ .msg m

/-- Where a run with `len` stages is after `k` sections of its thread: started, then in each stage and the pause after it in
turn, and finished after the last stage. -/
def place (len k : Nat) : Phase × Int :=
  if k = 0 then (.fresh, -1)
  else if k = 1 then (.started, -1)
  else if len = 0 then (.done, -1)
  else if k % 2 = 0 then (.staged, ((k - 2) / 2 : Nat))
  else if (k - 3) / 2 + 1 < len then (.pausing, ((k - 3) / 2 : Nat))
  else (.done, ((k - 3) / 2 : Nat))

end Verif.Spec.Prot
