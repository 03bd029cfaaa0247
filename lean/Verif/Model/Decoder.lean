import Verif.Model.Structured
import Verif.Model.Printing

/-!
Model of `tools/explicitImplementationIntegerDecoder.py`: it reads the text that slugs prints for an explicit strategy, and replaces the bits of the integer variables by
their values.
-/

namespace Slugs.Model.Decoder

open Slugs.Model.Structured

/-- `sys.stdin.readlines()` (line 8), with universal newlines; the lines contain their line ends. -/
def readlinesAux : List Char → List Char → List (List Char)
  | cur, [] => if cur.isEmpty then [] else [cur.reverse]
  | cur, '\r' :: '\n' :: cs => (cur.reverse ++ ['\n']) :: readlinesAux [] cs
  | cur, c :: cs => if c = '\n' ∨ c = '\r' then (cur.reverse ++ ['\n']) :: readlinesAux [] cs else readlinesAux (c :: cur) cs

def readlines (s : List Char) : List (List Char) := readlinesAux [] s

/-- `sub in s`. -/
def contains (sub s : List Char) : Bool := s.tails.any fun t => sub.isPrefixOf t

/-- Lines 16-20: the name and the value of a component; `none` if the assertion fails. -/
def component (a : List Char) : Option (List Char × List Char) :=
  match split [':'] a with
  | [x, v] => some (x, v)
  | _ => none

/-- Lines 33-36 and 45-48: `1` or `0`. -/
def readBit (v : List Char) : Option Int := if v = ['1'] then some 1 else if v = ['0'] then some 0 else none

/-- Lines 40-48, for one component. -/
def addBit (head : List Char) (value : Int) (b : List Char × List Char) : Option Int :=
  match split ['@'] b.1 with
  | [x, k] =>
    if x = head ∧ '.' ∉ k then
      match toInt k, readBit b.2 with
      | some m, some v => if m > 0 then some (value + v * 2 ^ m.toNat) else none
      | _, _ => none
    else some value
  | _ => some value

/-- Lines 25-50: the value of an integer variable, given its first bit. -/
def parsedValue (components : List (List Char × List Char)) (a : List Char × List Char) : Option (List Char) :=
  match split ['@'] a.1 with
  | head :: t :: _ =>
    match split ['.'] t with
    | [p, lo, hi] =>
      if p = ['0'] then
        match toInt lo, toInt hi, readBit a.2 with
        | some lo, some _, some v => (components.foldlM (addBit head) (lo + v)).map fun value => head ++ ['='] ++ strInt value
        | _, _, _ => none
      else none
    | _ => none
  | _ => none

/-- Lines 21-50: the dictionary, as the list of the assignments. -/
def parsedValues (components : List (List Char × List Char)) : Option (List (List Char × List Char)) :=
  (components.filter fun a => contains txt!"@0." a.1).mapM fun a => (parsedValue components a).map fun t => (a.1, t)

/-- Lines 55-60, for one component. -/
def filtered (values : List (List Char × List Char)) (a : List Char × List Char) : List (List Char) :=
  match values.reverse.lookup a.1 with
  | some t => [t]
  | none => if '@' ∈ a.1 then [] else [a.1 ++ [':'] ++ a.2]

/-- Lines 16-65. -/
def decodeState (part2 : List Char) : Option (List Char) :=
  match (split txt!", " part2).mapM component with
  | none => none
  | some components =>
    match parsedValues components with
    | none => none
    | some values => some (withCommas (components.flatMap (filtered values)))

/-- Lines 9-69.  `none`: an exception is raised. -/
def decodeLine (line : List Char) : Option (List Char) :=
  if '<' ∈ line ∧ '>' ∈ line then
    let rest := (line.dropWhile (· ≠ '<')).drop 1
    if '>' ∈ rest then
      (decodeState (rest.takeWhile (· ≠ '>'))).map fun t => line.takeWhile (· ≠ '<') ++ ['<'] ++ t ++ ['>'] ++ (rest.dropWhile (· ≠ '>')).drop 1
    else none
  else some line

/-- The text that the program prints (lines 8-69); `none` if an exception is raised, what is printed before is not considered then. -/
def decodeText (text : List Char) : Option (List Char) := ((readlines text).mapM decodeLine).map List.flatten

end Slugs.Model.Decoder
