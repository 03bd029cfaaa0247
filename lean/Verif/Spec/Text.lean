/-!
Text: characters, white space, lines.
-/

namespace Slugs.Spec

/-- A text literal as a list of characters. -/
syntax:max "txt!" str : term
open Lean in
macro_rules
  | `(txt! $s) => do
    let cs := s.getString.toList.map (fun c => Syntax.mkCharLit c)
    `([$(cs.toArray),*])

/-- White space in the classic C++ locale. -/
def isSpace (c : Char) : Bool :=
  c == ' ' || c == '\t' || c == '\n' || c == '\x0b' || c == '\x0c' || c == '\r'

/-- Remove white space at both ends. -/
def trim (s : List Char) : List Char := ((s.dropWhile isSpace).reverse.dropWhile isSpace).reverse

def splitLinesAux : List Char → List Char → List (List Char)
  | cur, [] => if cur.isEmpty then [] else [cur.reverse]
  | cur, c :: cs => if c == '\n' then cur.reverse :: splitLinesAux [] cs else splitLinesAux (c :: cur) cs

/-- The lines of a text: they end with a newline or at the end; there is no line after a final newline. -/
def splitLines (s : List Char) : List (List Char) := splitLinesAux [] s

def isDigit (c : Char) : Bool := '0' ≤ c && c ≤ '9'

/-- Value of a list of decimal digits. -/
def digitsVal (ds : List Char) : Nat := ds.foldl (fun n c => 10 * n + (c.toNat - '0'.toNat)) 0

end Slugs.Spec
