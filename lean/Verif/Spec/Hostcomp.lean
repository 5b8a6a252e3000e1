import Verif.Model.Hostcomp

/-! What is written in config.in, without the tools that read it. -/
namespace Verif.Spec.Hostcomp
open Verif.Hostcomp

/-- A label as written in config.in: plain or in quotes. -/
inductive Label where
  | plain (name : String)
  | quoted (s : String)

/-- A host as written in config.in. -/
structure Entry where
  label : Label
  addr : String
  members : List String

/-- A label is read as this. -/
def Label.sexp : Label → Sexp
  | .plain n => .sym n
  | .quoted s => .str s

/-- And stands for this text. -/
def Label.text (symText : String → String) : Label → String
  | .plain n => symText n
  | .quoted s => s

/-- `(label "address" ("file" …))`. -/
def Entry.sexp (e : Entry) : Sexp := .list [e.label.sexp, .str e.addr, .list (e.members.map .str)]

/-- `(hosts …)`. -/
def hostsForm (es : List Entry) : Sexp := .list (.sym "HOSTS" :: es.map Entry.sexp)

/-- A list that is not a description of hosts. -/
def Other : Sexp → Prop
  | .list [] => True
  | .list (.sym n :: _) => n ≠ "HOSTS"
  | .list (_ :: _) => True
  | _ => False

end Verif.Spec.Hostcomp
