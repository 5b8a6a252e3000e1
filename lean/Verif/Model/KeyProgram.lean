import Verif.Model.Program

/-!
Model of the tool as it makes long-term keys (/repo/siggy/src/signode/signode.go without a file of long-term keys): the program of
`Verif.Model.Program`, whose goroutines for requests do not exist here, and the main goroutine in `run_longterm`
(/repo/siggy/src/signode/run_longterm.go). Events come in any order. The times of the attempts are in nanoseconds.
-/
namespace Verif.KeyProgram
open Verif.Dto Verif.Dss Verif.Dkg Verif.Tables Verif.Signode

/-- What is fixed when `run_longterm` is called: the program, the start of the first attempt, the time between attempts
(run_longterm.go:11), and the allowance that `_runner_run_guest` asks for (runner.go:42-44) for an attempt at some time. -/
structure Cfg (K : Type) where
  base : Program.Cfg K
  start : Int
  interval : Int
  allow : Int → Firewall.Allowance

/-- Where the main goroutine is (run_longterm.go:14-17, 21-33). -/
inductive Pc where
  /-- about to start the runners of the guests, in `run_dkg` -/
  | launching
  /-- waiting for them -/
  | waiting
  /-- in the loop of `_longterm` that takes the outputs -/
  | collecting
  /-- before the loop over the shares in `_longterm_loop` -/
  | checking
  deriving DecidableEq, Repr

/-- The main goroutine: the number and the time of the attempt, the guests that the loop has dealt with, the runners of the attempt,
and its shares. -/
structure Main where
  i : Nat
  time : Int
  pc : Pc
  done : List Int
  runners : List Nat
  lts : GoMap Int KeyShare

/-- The state; `file` is what `save_longterms` has written. -/
structure Sys (K : Type) where
  prog : Program.Sys K
  main : Main
  file : Option (GoMap Int DksDTO)

/-- What can happen next. -/
inductive Ev where
  /-- something else than the main goroutine does -/
  | prog (e : Program.Ev)
  /-- the main goroutine goes on; in its loop over the guests it deals with guest `g` next -/
  | main (g : Int)
  /-- the main goroutine looks at the shares, in this order of guests -/
  | check (order : List Int)

variable {K : Type}

/-- The program at the call of `run_longterm`; without `dss_init`, no guest has a table of documents (signode.go:23-25). -/
def init (c : Cfg K) : Sys K :=
  { prog := { Program.init c.base with docs := [] }, main := ⟨0, c.start, .launching, [], [], []⟩, file := none }

/-- The run identifier of an attempt (run_longterm.go:10, 15; runner.go:9-10, 22-23). -/
def runId (c : Cfg K) (m : Main) : String := runnerRunId ("longterm" ++ toString (unixMilli c.start) ++ toString m.i) m.time

/-- The start of a goroutine `_runner_run_guest` for each guest (runner.go:29-30). -/
def launchAll (c : Cfg K) (id : String) (t : Int) : List Int → Program.Sys K → Outcome (Program.Sys K)
  | [], p => .ok p
  | g :: gs, p => Program.nodeEvent c.base p (.launch ⟨0, g, id⟩ (c.allow t)) >>= launchAll c id t gs

/-- The next section of the main goroutine (run_longterm.go:15, 21-33; runner.go:26-32), up to the check of the shares. -/
def mainStep (c : Cfg K) (s : Sys K) (g : Int) : Outcome (Sys K) :=
  let m := s.main
  let over := c.base.guests.all fun g => decide (g ∈ m.done)
  let mine := decide (g ∈ c.base.guests) && decide (g ∉ m.done)
  match m.pc with
  | .launching => launchAll c (runId c m) m.time c.base.guests s.prog >>= fun p =>
      .ok { s with
        prog := p
        main := { m with pc := .waiting, runners := (List.range c.base.guests.length).map (s.prog.node.runners.length + ·) } }
  | .waiting =>
    if m.runners.all (Program.released s.prog) then .ok { s with main := { m with pc := .collecting, done := [], lts := [] } } else .err
  | .collecting =>
    if over then .ok { s with main := { m with pc := .checking } }
    else if mine then popOutput s.prog.outs 0 g (runId c m) >>= fun x => takeKey c.base.members x.2 >>= fun share =>
      .ok { s with prog := { s.prog with outs := x.1 }, main := { m with done := g :: m.done, lts := m.lts.set g share } }
    else .err
  | .checking => .err

/-- The end of an attempt (run_longterm.go:4, 16-17): the shares are saved, or another attempt follows. -/
def checkStep (c : Cfg K) (s : Sys K) (order : List Int) : Outcome (Sys K) :=
  let m := s.main
  if m.pc = .checking ∧ order.Perm m.lts.keys then
    allValid (order.filterMap fun g => m.lts.get? g) true >>= fun cv =>
      if cv then saveLongterms m.lts >>= fun file => .ok { s with file := some file }
      else .ok { s with main := { m with i := m.i + 1, time := m.time + c.interval, pc := .launching, done := [] } }
  else .err

/-- The events of the program that are possible here: no request is read. -/
def progStep (c : Cfg K) (p : Program.Sys K) : Program.Ev → Outcome (Program.Sys K)
  | .request _ => .err
  | e => Program.step c.base p e

/-- One event; `err` when it cannot happen now. When the file is written, the process ends. -/
def step (c : Cfg K) (s : Sys K) (e : Ev) : Outcome (Sys K) :=
  if s.file.isSome then .err
  else match e with
    | .prog e => progStep c s.prog e >>= fun p => .ok { s with prog := p }
    | .main g => mainStep c s g
    | .check order => checkStep c s order

/-- A history of events. -/
def run (c : Cfg K) (s : Sys K) : List Ev → Outcome (Sys K)
  | [] => .ok s
  | e :: es => step c s e >>= fun s' => run c s' es

end Verif.KeyProgram
