import Verif.Model.Program

/-! What the histories of the program as it signs are about. -/
namespace Verif.Spec.Program
open Verif.Program Verif.Signode

/-- The requests that were read, in order. -/
def requests : List Ev → List Job
  | [] => []
  | .request j :: h => j :: requests h
  | _ :: h => requests h

/-- The last signature among the outputs of a run, if there is one. -/
def lastSig (l : List Dkg.Output) : Option Schnorr.Sig :=
  l.foldl (fun a v => match v with | .sig s => some s | .key _ _ => a) none

/-- The events that happen by themselves when their time has come, once the messages and requests of the outside are there. -/
def own : Ev → Bool
  | .tick _ => false
  | .net _ => false
  | .request _ => false
  | _ => true

/-- Nothing more will happen by itself, however late it gets. -/
def Settled {K : Type} (c : Cfg K) (s : Sys K) : Prop :=
  ∀ t s1, step c s (.tick t) = .ok s1 → ∀ e, own e = true → step c s1 e = .err

/-- Nothing is late: the clock shows a time only when nothing is left that could have been done a millisecond before. -/
def Prompt {K : Type} (c : Cfg K) (h : List Ev) : Prop :=
  ∀ h1 t h2, h = h1 ++ .tick t :: h2 → ∀ s, run c (init c) h1 = .ok s → s.node.fw.now < t →
    ∀ s', step c s (.tick (t - 1)) = .ok s' → ∀ e, own e = true → step c s' e = .err

/-- The stages of the signing protocol (dkg.go:38-48, dss.go:66-73): how long each one lasts, in milliseconds. -/
def dssTimes : List Int := [25, 75, 75, 75, 25, 75, 75, 75, 25, 25, 75, 25]

/-- When stage `n` ends, counted from the start of the run. -/
def ends (n : Int) : Int := (dssTimes.take (n + 1).toNat).sum

/-- The request is read before its start, which is not before the program takes messages, and the allowances leave enough time. -/
structure Asked {K : Type} (c : Cfg K) (h : List Ev) (j : Job) : Prop where
  buf : (c.allow j).buf ≤ (c.allow j).start
  drop : c.dropUntil ≤ (c.allow j).start
  stop : (c.allow j).start + 650 ≤ (c.allow j).stop
  read : ∃ h1 h2 s, h = h1 ++ .request j :: h2 ∧ run c (init c) h1 = .ok s ∧ s.node.fw.now ≤ (c.allow j).start

/-- A run of the process sends the message at this time. -/
def Sends {K : Type} (c : Cfg K) (h : List Ev) (m : Message Dkg.Dto) (t : Int) : Prop :=
  ∃ h1 e h2 s s', h = h1 ++ e :: h2 ∧ run c (init c) h1 = .ok s ∧ step c s e = .ok s' ∧ s.node.fw.now = t ∧
    (∀ u ∈ s.runs, .sent m ∉ u.log) ∧ ∃ u ∈ s'.runs, .sent m ∈ u.log

/-- The message arrives at this time, when there is room in the queue of its guest. -/
def Arrives {K : Type} (c : Cfg K) (h : List Ev) (m : Message Dkg.Dto) (t : Int) : Prop :=
  ∃ h1 h2 s, h = h1 ++ .net m :: h2 ∧ run c (init c) h1 = .ok s ∧ s.node.fw.now = t ∧ (s.node.queues (m.pc, m.rcpt)).length < Node.rcvBufMax

end Verif.Spec.Program
