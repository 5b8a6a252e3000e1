import Verif.Model.Program

/-!
Model of what the tool prints on standard output as it signs (/repo/siggy/src/signode/run_sig.go:36-40). Texts are lists of characters,
without the end of line that `fmt.Println` (external) adds. Lines of goroutines do not mix: each call of `Println` writes once.
-/
namespace Verif.Print
open Verif.Signode Verif.Program

/-- A number, as `fmt` prints it. -/
def num (n : Int) : List Char := (toString n).toList

/-- Texts with a space between each two. -/
def spaced : List (List Char) → List Char
  | [] => []
  | [a] => a
  | a :: b :: l => a ++ ' ' :: spaced (b :: l)

/-- `fmt.Println(s)` for a signature, a pointer to a struct of an array of 20 bytes and a `*big.Int` (run_sig.go:40, ethschnorr.go:31-38). -/
def sigText (s : Schnorr.Sig) : List Char :=
  "&{[".toList ++ spaced (s.addr.map fun b => num b.toNat) ++ "] ".toList ++ num s.s ++ "}".toList

/-- `fmt.Println("no signature produced", id, gidx)` (run_sig.go:39). -/
def noSigText (id : String) (g : Int) : List Char := "no signature produced ".toList ++ id.toList ++ ' ' :: num g

/-- `fmt.Println("DSS completed run ID", id)` (run_sig.go:36). -/
def doneText (id : String) : List Char := "DSS completed run ID ".toList ++ id.toList

/-- The line for a guest (run_sig.go:38-40). -/
def lineText (id : String) : Int × Option Schnorr.Sig → List Char
  | (g, none) => noSigText id g
  | (_, some s) => sigText s

variable {K : Type}

/-- What an event prints: the i-th `_run_sig` prints that the runs have ended, on its way from `run_dss` to its loop (run_sig.go:35-36),
and in the loop the line for guest `g` (run_sig.go:37-40). -/
def printedBy (c : Cfg K) (s : Sys K) : Ev → List (List Char)
  | .job i g =>
    match s.jobs[i]? with
    | none => []
    | some b =>
      let over := c.guests.all fun g => decide (g ∈ b.done)
      match b.pc with
      | .deregistering => if over then [doneText (jobId b.job)] else []
      | .printing =>
        if over then []
        else match Tables.popOutput s.outs 1 g (jobId b.job) >>= fun x => Signode.printed x.2 with
          | .ok l => [lineText (jobId b.job) (g, l)]
          | _ => []
      | _ => []
  | _ => []

/-- A history and what is printed in it. -/
def run (c : Cfg K) (s : Sys K) : List Ev → Outcome (Sys K × List (List Char))
  | [] => .ok (s, [])
  | e :: es => step c s e >>= fun s' => run c s' es >>= fun x => .ok (x.1, printedBy c s e ++ x.2)

end Verif.Print
