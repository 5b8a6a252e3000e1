import Verif.Model.Layout

/-!
Model of /repo/hostcomp (hostcomp.lisp, wispym.lisp) and of /repo/s2j (sexp-to-json.lisp, wispym.lisp, wispym2.lisp): how config.out is made
from config.in. A file of Lisp expressions is the list of what `read` delivers, and a JSON file the list of the values in it: the Lisp
reader and printers, cl-json and `encoding/json` are external. A Lisp error is `err`.
-/
namespace Verif.Hostcomp
open Verif.Layout

/-- What the Lisp reader makes of symbols, strings, numbers and proper lists. The symbol NIL is the empty list; names are in upper case. -/
inductive Sexp where
  | sym (name : String)
  | str (s : String)
  | num (n : Int)
  | list (xs : List Sexp)

/-- `car`. -/
def car : Sexp → Outcome Sexp
  | .list [] => .ok (.list [])
  | .list (x :: _) => .ok x
  | _ => .err

/-- `cdr`. -/
def cdr : Sexp → Outcome Sexp
  | .list [] => .ok (.list [])
  | .list (_ :: xs) => .ok (.list xs)
  | _ => .err

/-- `cadr`. -/
def cadr (x : Sexp) : Outcome Sexp := cdr x >>= car

/-- `caddr`. -/
def caddr (x : Sexp) : Outcome Sexp := cdr x >>= cdr >>= car

/-- A list as an argument of `mapcar` or `copy-list`. -/
def asList : Sexp → Outcome (List Sexp)
  | .list xs => .ok xs
  | _ => .err

/-- Is it this symbol? -/
def isSym (name : String) : Sexp → Bool
  | .sym s => s == name
  | _ => false

/-- `assoc` with a symbol: elements that are nil are skipped, other atoms are errors; nil if nothing is found. -/
def assoc (name : String) : List Sexp → Outcome Sexp
  | [] => .ok (.list [])
  | .list [] :: xs => assoc name xs
  | .list (k :: ks) :: xs => if isSym name k then .ok (.list (k :: ks)) else assoc name xs
  | _ => .err

/-- The list that `expand-config` writes (hostcomp/hostcomp.lisp:12-17), from the expressions in its input. -/
def expansion (infile : List Sexp) : Outcome Sexp := do
  let entries ← assoc "HOSTS" infile >>= cdr >>= asList
  let labels ← mapO car entries
  let addrs ← mapO cadr entries
  let members ← mapO caddr entries
  let copies ← mapO asList members
  return .list [.list labels, .list addrs, .list members, .list copies.flatten]

/-- `expand-config` (hostcomp/hostcomp.lisp:11-18) with `append-expr` (hostcomp/wispym.lisp:12-17): what is in the output file afterwards,
when `out` was in it before. -/
def expandConfig (infile out : List Sexp) : Outcome (List Sexp) := do
  let e ← expansion infile
  return out ++ [e]

mutual
/-- `encode-json-to-string` (external) with nil printed as a list (s2j/wispym2.lisp:14-15); `symText` is how it prints the names of
symbols. T becomes true. -/
def encode (symText : String → String) : Sexp → Json
  | .sym s => if s = "T" then .bool true else .str (symText s)
  | .str s => .str s
  | .num n => .num n
  | .list xs => .arr (encodeAll symText xs)
/-- See `encode`. -/
def encodeAll (symText : String → String) : List Sexp → List Json
  | [] => []
  | x :: xs => encode symText x :: encodeAll symText xs
end

/-- `translate-file` (s2j/sexp-to-json.lisp:5-10): what is in the output file afterwards, a value for every expression. -/
def translateFile (symText : String → String) (infile : List Sexp) : List Json := encodeAll symText infile

/-- `load_config` (siggy/src/layout/config.go:11-20) from the file: `json.Unmarshal` fails unless there is exactly one value in it. -/
def loadConfigFile : List Json → Outcome Config
  | [j] => loadConfig j
  | _ => .panic

/-- Both tools one after the other (siggy/doc/usage.txt, "Hints for converting config.in to config.out"), and the start of signode; `tmp`
is what was in the file between them before. -/
def compileAndLoad (symText : String → String) (infile tmp : List Sexp) : Outcome Config := do
  let tmp' ← expandConfig infile tmp
  loadConfigFile (translateFile symText tmp')

end Verif.Hostcomp
