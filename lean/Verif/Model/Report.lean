import Verif.Model.StuckAt
import Verif.Model.Analyze
import Verif.Model.Aiger

/-!
Model of `tools/createSpecificationReport.py`, a Python 2 program: lines end with `\n`, and `str.strip` removes ASCII white space (as `trim` does).  Modelled are the
sections 1 (the specification), 2 (realizability), 4 (winning positions), 5 and 5b (positions that are winning by environment falsification), and 8 (stuck signals)
of the report.  The other sections copy the output of other programs in the same way as section 8, and are not modelled; nor are the frame of the HTML file,
`stderr`, what has been printed when an exception is raised, and other programs that write to the same files in `/tmp`.
-/

namespace Slugs.Model.Report

open Slugs.Spec Slugs.Model.Structured
open Slugs.Model.StuckAt (readSlugsFile writeSlugsFile)
open Slugs.Model.Core (Categories)

/-- `s.replace(c, by)` for a single character. -/
def replaceChar (c : Char) (by' : List Char) (s : List Char) : List Char := s.flatMap fun d => if d = c then by' else [d]

/-- `cgi.escape(s)` of Python 2: three replacements, one after the other. -/
def escape (s : List Char) : List Char := replaceChar '>' txt!"&gt;" (replaceChar '<' txt!"&lt;" (replaceChar '&' txt!"&amp;" s))

/-- What `print` with a comma at the end adds before the next text that is printed: a blank, unless the text ends with white space other than a blank. -/
def softspace (l : List Char) : List Char :=
  match l.getLast? with
  | some c => if isSpace c = true ∧ c ≠ ' ' then [] else [' ']
  | none => [' ']

/-- The line that ends the specification for the report, `createSpecificationReport.py:123`. -/
def endMark : List Char := txt!"# --- End of the specification for the report"

/-- The loop that copies the specification, `createSpecificationReport.py:117-128`, over the lines with their line ends; the number is `nofEmptyLines`. -/
def copyLoop : Int → List (List Char) → List Char
  | _, [] => []
  | n, l :: ls =>
    if trim l = [] then copyLoop (n + 1) ls
    else if trim l = endMark then []
    else List.replicate n.toNat '\n' ++ escape l ++ softspace l ++ copyLoop 0 ls

/-- Section 1 between `<pre>` and `</pre>`, `:116-129`. -/
def copySpecification (file : List Char) : List Char := copyLoop (-10000) (Aiger.rawLines file)

/-- The file for the sections 5 and 5b, `:233-235` and `:255-257`.  `readSlugsFile` (`:26-46`) and `writeSlugsFile` (`:52-60`) are the functions of
`analyzeStuckAtConstant.py`.  `none` is a `KeyError`. -/
def falsifyFile (compiled : List Char) : Option (List Char) :=
  (readSlugsFile [] (fun _ => []) (splitLines compiled)).map fun c => writeSlugsFile (c.put .sysLiveness [txt!"0"])

/-- The report. -/
structure Report where
  /-- section 1 -/
  copy : List Char
  /-- section 2: "The specification is realizable." -/
  realizable : Bool
  /-- section 2: "The specification is also realizable in the robotics semantics.", if this is considered -/
  robotics : Option Bool
  /-- section 4 -/
  positions : Analysis
  /-- section 5 -/
  falsifying : Analysis
  /-- section 5b -/
  falsifyingReachable : Analysis
  /-- section 8 -/
  stuck : List Char

/-- The robotics semantics are considered only if the specification is realizable, `:155-180`; `none` is an exception. -/
def roboticsPart (B : Type) [DecidableEq B] [BddLib B] (cap : Nat) (order : List Char → Bool) (fuel : Nat) (compiled : List Char) (realizable : Bool) :
    Option (Option Bool) :=
  if realizable then
    match runSlugs B .standard true cap order fuel compiled with
    | .result b => some (some b)
    | _ => none
  else some none

/-- `createSpecificationReport`, `:70-397`; the compiler is called with `--thorougly`.  `none` is an exception. -/
def createReport (B : Type) [DecidableEq B] [BddLib B] (cap : Nat) (order : List Char → Bool) (fuel : Nat) (file : List Char) : Option Report :=
  match convert true file with
  | .ok compiled =>
    match runSlugs B .standard false cap order fuel compiled with
    | .result realizable =>
      match roboticsPart B cap order fuel compiled realizable, runAnalyze B false cap order fuel compiled, falsifyFile compiled with
      | some robotics, .numbers positions, some modified =>
        match runAnalyze B false cap order fuel modified, runAnalyze B true cap order fuel modified,
          StuckAt.analyze (StuckAt.checkRealizability B .standard cap order fuel) file with
        | .numbers falsifying, .numbers falsifyingReachable, some stuck =>
          some { copy := copySpecification file, realizable := realizable, robotics := robotics, positions := positions, falsifying := falsifying,
                 falsifyingReachable := falsifyingReachable, stuck := escape stuck }
        | _, _, _ => none
      | _, _, _ => none
    | _ => none
  | _ => none

end Slugs.Model.Report
