import Verif.Model.Parser
import Verif.Model.Variants

/-!
The program from the text of the input file to the message that is printed.
-/

namespace Slugs.Model

/-- What a run of slugs without strategy extraction ends with. -/
inductive Outcome where
  /-- "RESULT: Specification is realizable." / "RESULT: Specification is unrealizable.",
  `synthesisContextBasics.cpp:111-115` -/
  | result (realizable : Bool)
  /-- "Internal error: Could not establish realizability/unrealizability", `synthesisAlgorithm.cpp:105` -/
  | internalError
  /-- an error while reading the file -/
  | inputError (e : InitErr)
  /-- undefined behaviour while reading the file -/
  | ub
  /-- a loop has not ended within the given number of rounds -/
  | running
  deriving DecidableEq, Repr

/-- The message for a verdict, `GR1Context::execute`, `synthesisContextBasics.cpp:109-116`. -/
def outcomeOf {D : Type} : Option (Verdict × D) → Outcome
  | none => .running
  | some (.realizable, _) => .result true
  | some (.unrealizable, _) => .result false
  | some (.internalError, _) => .internalError

/-- `main.cpp:337-350` for the plugin combinations `GR1Context` (`robotics = false`) and
`XRoboticsSemantics<GR1Context>` (`robotics = true`) on one input file with the given content:
`init`, `computeVariableInformation` and `execute`. -/
def runSlugs (B : Type) [DecidableEq B] [BddLib B] (alg : Algorithm) (robotics : Bool) (cap : Nat) (order : List Char → Bool) (fuel : Nat)
    (text : List Char) : Outcome :=
  match initContext (B := B) cap order text with
  | .ok (tab, ctx) =>
    if robotics then outcomeOf (checkRealizabilityRobotics alg (bddMgr B tab.types) ctx fuel)
    else outcomeOf (checkRealizability alg (bddMgr B tab.types) ctx fuel)
  | .err e => .inputError e
  | .ub => .ub
  | .stuck => .running

end Slugs.Model
