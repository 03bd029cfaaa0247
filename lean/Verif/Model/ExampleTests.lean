import Verif.Spec.ExampleTests
import Verif.Model.Structured
import Verif.Model.Aiger
import Verif.Model.Search
import Verif.Model.Run

/-!
Model of `tools/testSomeExamples.py`, which compares the results of slugs for some examples with the expected ones.  Not modelled are the search for the folder with the
examples, the names of the files, and errors on opening files.
-/

namespace Slugs.Model.ExampleTests

open Slugs.Spec Slugs.Spec.ExampleTests Slugs.Model.Structured Slugs.Model.Search

/-- `testSomeExamples.py:26-28`: the lines that the compiler prints are copied to a file.  They are printed with their line ends, so an empty line follows each. -/
def copied (out : List Char) : List Char := ((Aiger.rawLines out).map (· ++ ['\n'])).flatten

/-- `checkRealizability`, `testSomeExamples.py:12-77`; `none` is an error message.  `slugs` tells what a call of slugs for a file with the given contents prints.  The lines are
evaluated as in the scripts of C64.  (A compiler that does not end is not distinguished from one that fails; in a failing run, the text of the error message is not
modelled.) -/
def check (slugs : List Char → Call) (e : Example) : Option Bool :=
  if e.structured then
    match convert false e.text with
    | .ok out => Search.checkRealizability (slugs (copied out))
    | _ => none
  else Search.checkRealizability (slugs e.text)

/-- How the script ends: with "Done!", or with an error for a test, for which the given result has been found. -/
inductive Ending where
  | done
  | failed (t : Test) (found : Option Bool)
  deriving DecidableEq

/-- The loop `:94-113` over the tests. -/
def runTests (slugs : List Char → Call) : List Test → Ending
  | [] => .done
  | t :: ts => if check slugs t.file ≠ some t.expected then .failed t (check slugs t.file) else runTests slugs ts

/-- `:94-95`: the unrealizable examples come first. -/
def tests (realizable unrealizable : List Example) : List Test := unrealizable.map (⟨false, ·⟩) ++ realizable.map (⟨true, ·⟩)

/-- What slugs prints to its standard error output when a run has the given outcome, and its exit code (`main.cpp:292`, `:350`, `:357-373`,
`synthesisContextBasics.cpp:109-116`).  The texts of error messages are left open, and everything for runs with undefined behaviour and for those that have not ended. -/
def Prints : Outcome → Call → Prop
  | .result b, c => c.code = 0 ∧ c.lines = [txt!"SLUGS: SmaLl bUt complete Gr(1) Synthesis tool (see the documentation for an author list).\n",
      if b then txt!"RESULT: Specification is realizable.\n" else txt!"RESULT: Specification is unrealizable.\n"]
  | .internalError, c => c.code = 1
  | .inputError _, c => c.code = 1
  | .ub, _ => True
  | .running, _ => True

end Slugs.Model.ExampleTests
