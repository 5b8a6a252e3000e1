import Verif.Model.Console

/-! What happens inside the process in a history of the console. -/
namespace Verif.Spec.Console
open Verif Verif.Signode Verif.Console
variable {K : Type}

/-- The event of the program that an event is, if it is one: a request when a goroutine finds that its arguments are good. -/
def inner (parse : String → Option Int) (dflt : Int) (s : Console.Sys K) : Console.Ev → List Program.Ev
  | .prog e => [e]
  | .parse i => ((s.gos[i]?.bind fun g => runSig1 parse dflt g.req).map Program.Ev.request).toList
  | _ => []

/-- The history of the program in a history of the console. -/
def trace (parse : String → Option Int) (dflt : Int) (c : Program.Cfg K) (s : Console.Sys K) : List Console.Ev → List Program.Ev
  | [] => []
  | e :: es =>
    match step parse dflt c s e with
    | .ok s' => inner parse dflt s e ++ trace parse dflt c s' es
    | _ => []

end Verif.Spec.Console
