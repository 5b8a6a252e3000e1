import Verif.Model.Signode

/-!
Model of how `run_sigs` (/repo/siggy/src/signode/run_sig.go:10-21) reads standard input: a `bufio.Scanner` with `bufio.ScanWords`. The
input is text, that is, valid UTF-8; in which pieces it is read makes no difference.
-/
namespace Verif.Scan
open Verif.Signode

/-- `isSpace` of package bufio, which is `unicode.IsSpace` (external). -/
def isSpace (c : Char) : Bool :=
  let n := c.toNat
  decide (9 ≤ n ∧ n ≤ 13) || decide (n = 32) || decide (n = 0x85) || decide (n = 0xa0) || decide (n = 0x1680) ||
    decide (0x2000 ≤ n ∧ n ≤ 0x200a) || decide (n = 0x2028) || decide (n = 0x2029) || decide (n = 0x202f) || decide (n = 0x205f) ||
    decide (n = 0x3000)

/-- The bytes of a character in UTF-8. -/
def utf8Len (c : Char) : Nat :=
  let n := c.toNat
  if n < 0x80 then 1 else if n < 0x800 then 2 else if n < 0x10000 then 3 else 4

/-- The bytes of a text. -/
def size (cs : List Char) : Nat := (cs.map utf8Len).sum

/-- `MaxScanTokenSize` of package bufio. A word that fills the buffer without a space after it is an error. -/
def maxSize : Nat := 64 * 1024

/-- The words that the calls of `Scan` deliver (run_sig.go:11, 13-16), when the word so far is `cur`, and whether they end in an error
(run_sig.go:20). -/
def scanFrom : List Char → List Char → List String × Bool
  | [], cur => if cur = [] then ([], false) else if size cur < maxSize then ([String.ofList cur], false) else ([], true)
  | c :: cs, cur =>
    if isSpace c then
      if cur = [] then scanFrom cs []
      else if size cur < maxSize then let r := scanFrom cs []; (String.ofList cur :: r.1, r.2)
      else ([], true)
    else scanFrom cs (cur ++ [c])

/-- The same for the whole input. -/
def scan (text : List Char) : List String × Bool := scanFrom text []

/-- The goroutines that `run_sigs` starts on this input (run_sig.go:10-19). -/
def readRequests (text : List Char) : List Request := runSigs (scan text).1

end Verif.Scan
