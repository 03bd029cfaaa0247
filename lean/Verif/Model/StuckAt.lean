import Verif.Model.Structured
import Verif.Model.UnrealizableCore

/-!
Model of `tools/analyzeStuckAtConstant.py`, a Python 2 program: lines end with `\n`, and `str.strip` removes ASCII white space (as `trim` does).  Not modelled: what
is written to `stderr`, what has been printed when an exception is raised, and other programs that write to the same files in `/tmp`.
-/

namespace Slugs.Model.StuckAt

open Slugs.Spec Slugs.Model.Structured
open Slugs.Model.Core (Categories writeLines sectionLines)

/-- The loop of `readSlugsFile`, `analyzeStuckAtConstant.py:28-42`; `none` is a `KeyError`. -/
def readSlugsFile : List Char → Categories → List (List Char) → Option Categories
  | _, c, [] => some c
  | mode, c, l :: ls =>
    let line := trim l
    if line = [] then readSlugsFile mode c ls
    else if line.head? = some '[' then readSlugsFile line c ls
    else if mode = [] ∧ line.head? = some '#' then readSlugsFile mode c ls
    else
      match headerOf mode with
      | none => none
      | some s => readSlugsFile mode (c.add s line) ls

/-- The sections in the order in which they are written, `:52`. -/
def fileOrder : List Section := [.input, .output, .envTrans, .envInit, .sysTrans, .sysInit, .envLiveness, .sysLiveness]

/-- `writeSlugsFile`, `:50-57`. -/
def writeSlugsFile (c : Categories) : List Char := writeLines (sectionLines [[]] fileOrder c)

/-- `checkRealizability`, `:69-102`: the compiler is called with `--thorougly`, and slugs without options.  `none` is an exception. -/
def checkRealizability (B : Type) [DecidableEq B] [BddLib B] (alg : Algorithm) (cap : Nat) (order : List Char → Bool) (fuel : Nat) (text : List Char) : Option Bool :=
  match convert true text with
  | .ok compiled =>
    match runSlugs B alg false cap order fuel compiled with
    | .result b => some b
    | _ => none
  | _ => none

/-- `int` of Python 2: there are no underscores in numbers, and only ASCII white space around them. -/
def int2 (s : List Char) : Option Int := if '_' ∈ s ∨ (∃ c ∈ s, isspace c = true ∧ isSpace c = false) then none else toInt s

/-- `xrange(minValue,maxValue+1)`. -/
def xrange (lo hi : Int) : List Int := (List.range (hi + 1 - lo).toNat).map fun k : Nat => lo + k

/-- `thisSpec`, `:164-166` and `:174-180`: a copy of the lines with one more line in each of two sections. -/
def modified (c : Categories) (b : Section) (lineB : List Char) (a : Section) (lineA : List Char) : Categories := (c.add b lineB).add a lineA

/-- One value that is tried: how it is shown, and the file that is checked. -/
structure Trial where
  value : List Char
  file : List Char

/-- The name in a line of `categoryA`, and the values that are tried for it, `:135-181`; `catB` and `catC` are `categoryB` and `categoryC`. -/
def trials (c : Categories) (catB catC : Section) (line : List Char) : Option (List Char × List Trial) :=
  if ':' ∈ line then
    match (split txt!":" line).map trim with
    | [var, range] =>
      match split txt!"..." range with
      | [from', to'] =>
        match int2 from', int2 to' with
        | some lo, some hi =>
          if lo > hi then none
          else some (var, (xrange lo hi).map fun value =>
            ⟨strInt value, writeSlugsFile (modified c catB (var ++ txt!"'=" ++ strInt value) catC (var ++ txt!"=" ++ strInt value))⟩)
        | _, _ => none
      | _ => none
    | _ => none
  else
    let var := trim line
    some (var, [⟨txt!"False", writeSlugsFile (modified c catB (txt!"! " ++ var ++ txt!"'") catC (txt!"! " ++ var))⟩,
      ⟨txt!"True", writeSlugsFile (modified c catB (var ++ txt!"'") catC var)⟩])

/-- The loops `:163-170` and `:173-184`: the values for which the verdict is the same, `nonDifferenceCausingValues`. -/
def nonDifferenceCausing (check : List Char → Option Bool) (isRealizable : Bool) : List Trial → Option (List (List Char))
  | [] => some []
  | t :: ts =>
    match check t.file with
    | none => none
    | some r => (nonDifferenceCausing check isRealizable ts).map fun vs => if r = isRealizable then t.value :: vs else vs

/-- The loop `:190-198`; `n` is the length of the list, and `i` the number of values that have been printed. -/
def listValues (n : Nat) : Nat → List (List Char) → List Char
  | _, [] => []
  | i, x :: xs =>
    (if i > 0 then if n ≤ 2 then txt!" " else txt!", " else []) ++ (if i = n - 1 ∧ i > 0 then txt!"or " else []) ++ x ++ listValues n (i + 1) xs

/-- `:186-199`: the line that is printed.  (`print` with a comma at the end leaves it to the next `print` to insert a blank, unless something has been written
with `write` in between.) -/
def resultLine (text var : List Char) (vs : List (List Char)) : List Char :=
  if vs.length = 0 then txt!"Fixing the value of the " ++ text ++ txt!" " ++ var ++ txt!" changes that.\n"
  else txt!"Fixing the value of the " ++ text ++ txt!" " ++ var ++ txt!" to " ++ listValues vs.length 0 vs ++ txt!" does not change this fact.\n"

/-- The body of the loop `:130-199`, for a line that is not a comment. -/
def analyzeLine (check : List Char → Option Bool) (isRealizable : Bool) (c : Categories) (catB catC : Section) (text line : List Char) : Option (List Char) :=
  match trials c catB catC line with
  | none => none
  | some (var, ts) => (nonDifferenceCausing check isRealizable ts).map (resultLine text var)

/-- `analyzeStuckAtConstant`, `:108-199`: the text that is printed; `none` is an exception. -/
def analyze (check : List Char → Option Bool) (file : List Char) : Option (List Char) :=
  match readSlugsFile [] (fun _ => []) (splitLines file), check file with
  | some c, some true =>
    (((c .output).filter fun l => l.head? ≠ some '#').mapM (analyzeLine check true c .sysTrans .sysInit txt!"output signal")).map fun ls =>
      txt!"Starting point is a realizable specification\n" ++ ls.flatten
  | some c, some false =>
    (((c .input).filter fun l => l.head? ≠ some '#').mapM (analyzeLine check false c .envTrans .envInit txt!"input signal")).map fun ls =>
      txt!"Starting point is an unrealizable specification\n" ++ ls.flatten
  | _, _ => none

/-- The files that are checked. -/
def checkedFiles (file : List Char) : List (List Char) :=
  file :: match readSlugsFile [] (fun _ => []) (splitLines file) with
    | none => []
    | some c =>
      let of' (a b d : Section) := ((c a).filter fun l => l.head? ≠ some '#').flatMap fun line =>
        match trials c b d line with
        | none => []
        | some (_, ts) => ts.map Trial.file
      of' .output .sysTrans .sysInit ++ of' .input .envTrans .envInit

end Slugs.Model.StuckAt
