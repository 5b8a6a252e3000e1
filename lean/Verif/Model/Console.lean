import Verif.Model.Scan
import Verif.Model.Print

/-!
Model of the signing tool between standard input and standard output: `run_sigs` and the goroutines that it starts
(/repo/siggy/src/signode/run_sig.go), on top of `Program`, and the end of `main` (signode.go:28).
-/
namespace Verif.Console
open Verif.Signode Verif.Scan

/-- Where a goroutine `_run_sig1` is (run_sig.go:23-30). -/
inductive GoPc where
  /-- started -/
  | fresh
  /-- returned with a warning -/
  | refused
  /-- in `_run_sig`, the goroutine with this number in `Program` -/
  | running (k : Nat)
  deriving DecidableEq

/-- A goroutine `_run_sig1`: its arguments, and where it is. -/
structure Go where
  req : Request
  pc : GoPc
  deriving DecidableEq

/-- The state: what has come from standard input and whether it has ended, the goroutines started by `run_sigs`, what has been
printed, and whether `run_sigs` has returned, which ends the process. -/
structure Sys (K : Type) where
  prog : Program.Sys K
  text : List Char
  eof : Bool
  gos : List Go
  out : List (List Char)
  left : Bool

inductive Ev where
  /-- more text comes from standard input -/
  | input (cs : List Char)
  /-- standard input ends -/
  | close
  /-- `run_sigs` gets three words and starts a goroutine (run_sig.go:13-19) -/
  | read
  /-- the i-th goroutine looks at its arguments (run_sig.go:27-30) -/
  | parse (i : Nat)
  /-- anything else that happens in the process -/
  | prog (e : Program.Ev)
  /-- `run_sigs` returns (run_sig.go:20-21), and so does `main` (signode.go:28) -/
  | leave

/-- The text up to the last white space: `bufio.ScanWords` (external) gives a word when it sees what follows it. -/
def complete : List Char → List Char
  | [] => []
  | c :: cs => if (c :: cs).any isSpace then c :: complete cs else []

variable {K : Type}

/-- The triples of words that the scanner has delivered or can deliver now (run_sig.go:13-18). -/
def delivered (s : Sys K) : List Request := runSigs (scan (if s.eof then s.text else complete s.text)).1

/-- `Scan` returns false when there are no more words (run_sig.go:13-17): input has ended, or a word is too long. -/
def exhausted (s : Sys K) : Bool := s.eof || (scan s.text).2

/-- A goroutine has called `wg.Done` (run_sig.go:26). -/
def over (s : Sys K) (g : Go) : Bool :=
  match g.pc with
  | .fresh => false
  | .refused => true
  | .running k => decide ((s.prog.jobs[k]?.map Program.JobSt.pc) = some .ended)

/-- The program when it has started. -/
def init (c : Program.Cfg K) : Sys K := ⟨Program.init c, [], false, [], [], false⟩

/-- Requests come only through standard input. -/
def isRequest : Program.Ev → Bool
  | .request _ => true
  | _ => false

/-- One event, with `time.Parse` and the default start as given to `run_sigs`; `err` when it cannot happen now. -/
def step (parse : String → Option Int) (dflt : Int) (c : Program.Cfg K) (s : Sys K) (e : Ev) : Outcome (Sys K) :=
  if s.left then .err
  else match e with
  | .input cs => if s.eof then .err else .ok { s with text := s.text ++ cs }
  | .close => .ok { s with eof := true }
  | .read =>
    match (delivered s)[s.gos.length]? with
    | none => .err
    | some r => .ok { s with gos := s.gos ++ [⟨r, .fresh⟩] }
  | .parse i =>
    match s.gos[i]? with
    | some ⟨r, .fresh⟩ =>
      match runSig1 parse dflt r with
      | none => .ok { s with gos := s.gos.set i ⟨r, .refused⟩ }
      | some j => Program.step c s.prog (.request j) >>= fun p =>
          .ok { s with prog := p, gos := s.gos.set i ⟨r, .running s.prog.jobs.length⟩ }
    | _ => .err
  | .prog e =>
    if isRequest e then .err
    else Program.step c s.prog e >>= fun p => .ok { s with prog := p, out := s.out ++ Print.printedBy c s.prog e }
  | .leave =>
    if exhausted s && decide (s.gos.length = (delivered s).length) && s.gos.all (over s) then .ok { s with left := true } else .err

/-- A history. -/
def run (parse : String → Option Int) (dflt : Int) (c : Program.Cfg K) (s : Sys K) : List Ev → Outcome (Sys K)
  | [] => .ok s
  | e :: es => step parse dflt c s e >>= fun s' => run parse dflt c s' es

end Verif.Console
