import Mathlib.Data.List.Basic

/-! What is said about standard input without the code: words and the white space between them. -/
namespace Verif.Spec.Scan

/-- The characters with the property White_Space of Unicode. -/
def whiteSpace : List Char :=
  ['\t', '\n', '\x0b', '\x0c', '\r', ' ', '\u0085', '\u00a0', '\u1680',
   '\u2000', '\u2001', '\u2002', '\u2003', '\u2004', '\u2005', '\u2006', '\u2007', '\u2008',
   '\u2009', '\u200a', '\u2028', '\u2029', '\u202f', '\u205f', '\u3000']

/-- Nothing but white space. -/
def Blank (cs : List Char) : Prop := ∀ c ∈ cs, c ∈ whiteSpace

/-- Text without white space. -/
def Word (w : String) : Prop := w ≠ "" ∧ ∀ c ∈ w.toList, c ∉ whiteSpace

/-- The text consists of these words with white space between them, and perhaps around them. -/
inductive Separated : List Char → List String → Prop where
  | blank {sp : List Char} : Blank sp → Separated sp []
  | last {sp : List Char} {w : String} : Blank sp → Word w → Separated (sp ++ w.toList) [w]
  | next {sp : List Char} {w : String} {c : Char} {rest : List Char} {ws : List String} :
      Blank sp → Word w → c ∈ whiteSpace → Separated rest ws → Separated (sp ++ (w.toList ++ c :: rest)) (w :: ws)

/-- A word of at most 65535 bytes. -/
def Short (w : String) : Prop := w.utf8ByteSize < 65536

end Verif.Spec.Scan
