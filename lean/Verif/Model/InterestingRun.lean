import Verif.Model.Explicit
import Verif.Spec.InterestingRun

/-!
Model of `extensionComputeInterestingRunOfTheSystem.hpp`: `--computeInterestingRunOfTheSystem`.
-/

namespace Slugs.Model

open Slugs.Spec (RunRow RunBody)

variable {B : Type} [DecidableEq B]

/-- `BF::operator<`, `BFCudd.h:125-129`: contained, but not the same. -/
def Mgr.below (M : Mgr B) (a b : B) : Bool := decide (a ≠ b) && decide (M.and a (M.not b) = M.ff)

/-- What is used of the variables: `preVars`, `postVars`, and the names and BFs of the input and of the output variables.  Simplification: variables with
a `@` in their name are shown in groups; this is not modelled, see `runInteresting`. -/
structure RunVars (B : Type) where
  preVars : List B
  postVars : List B
  inputs : List (Name × B)
  outputs : List (Name × B)

/-! ### The strategy of the environment -/

/-- The loop `while (nonDeadlockingStates!=oldNonDeadlockingStates)`, `extensionComputeInterestingRunOfTheSystem.hpp:71-78`.  Arguments after the bound for
the number of rounds: `nonDeadlockingStates`, `oldNonDeadlockingStates`, `nonDeadlockingTransitions`.  Result: `nonDeadlockingTransitions`. -/
def deadlockLoop (M : Mgr B) (c : Ctx B) : Nat → B → B → B → Option B
  | 0, _, _, _ => none
  | n + 1, states, old, ndt =>
    if states = old then some ndt
    else
      let ndt' := M.and (M.allPostOutput (M.or (M.swap states) (M.not c.safetySys))) c.safetyEnv
      deadlockLoop M c n (M.exPostInput ndt') states ndt'

/-- The loop `do { ... } while (winning!=oldWinning)`, `extensionComputeInterestingRunOfTheSystem.hpp:87-92`.  Arguments after the bound: `winning` and `moves`.
Result: `winning` and `moves`. -/
def hopeLoop (M : Mgr B) (c : Ctx B) (A ndt : B) : Nat → B → B → Option (B × B)
  | 0, _, _ => none
  | n + 1, old, moves =>
    let newMoves := M.allPostOutput (M.or (M.and (M.or A (M.swap old)) ndt) (M.not c.safetySys))
    let winning := M.exPostInput newMoves
    let moves' := M.or moves (M.and (M.and winning (M.not old)) newMoves)
    if winning = old then some (winning, moves') else hopeLoop M c A ndt n winning moves'

/-- The loop over the assumptions, `extensionComputeInterestingRunOfTheSystem.hpp:82-96`.  Not modelled: the files `/tmp/uga.dot` and `/tmp/moves.dot`. -/
def hopeStrategies (M : Mgr B) (c : Ctx B) (ndt : B) (fuel : Nat) : List B → Option (List B)
  | [] => some []
  | A :: As =>
    match hopeLoop M c A ndt fuel M.ff M.ff, hopeStrategies M c ndt fuel As with
    | some (winning, moves), some es => some (M.or moves (M.not winning) :: es)
    | _, _ => none

/-! ### The run -/

/-- What is appended to the vectors `trace`, `systemGoals`, `systemGoalsSat`, `environmentGoals`, `environmentGoalsSat`, `safetyEnvViolation` and
`safetySysViolation` in one round, `extensionComputeInterestingRunOfTheSystem.hpp:104-110`. -/
structure RunStep (B : Type) where
  pos : B
  sysGoal : Nat
  sysSat : Bool
  envGoal : Nat
  envSat : Bool
  envViolation : Bool
  sysViolation : Bool

/-- The loop `for (unsigned int i=0;(i<100) && !(trace.back().isFalse());i++)`, `extensionComputeInterestingRunOfTheSystem.hpp:115-164`.  Arguments: the
strategies of the system and of the environment, the number of rounds left, `trace.back()`, `systemGoals.back()`, `environmentGoals.back()` and the values of
`rand()%2` (a missing value counts as 0).  `none`: an access outside of a vector. -/
def runLoop (M : Mgr B) (c : Ctx B) (vs : RunVars B) (sys env : List B) : Nat → B → Nat → Nat → List Bool → Option (List (RunStep B))
  | 0, _, _, _, _ => some []
  | n + 1, pos, sg, eg, rnd =>
    if pos = M.ff then some []
    else
      match sys[sg]?, env[eg]?, c.livenessGuarantees[sg]?, c.livenessAssumptions[eg]? with
      | some S, some E, some G, some A =>
        let next := M.and (M.and (M.and pos c.safetyEnv) S) E
        let edge := determinizeRandomized M rnd vs.postVars next
        let sysSat := M.below edge G
        let envSat := M.below edge A
        let sg' := if sysSat then (sg + 1) % c.livenessGuarantees.length else sg
        let eg' := if envSat then (eg + 1) % c.livenessAssumptions.length else eg
        let pos' := determinizeRandomized M (rnd.drop vs.postVars.length) vs.preVars (M.swap (M.exPre next))
        match runLoop M c vs sys env n pos' sg' eg' (rnd.drop (vs.postVars.length + vs.preVars.length)) with
        | some r => some
          ({ pos := pos', sysGoal := sg', sysSat := sysSat, envGoal := eg', envSat := envSat, envViolation := !M.below edge c.safetyEnv,
             sysViolation := !M.below edge c.safetySys } :: r)
        | none => none
      | _, _, _, _ => none

/-! ### The table -/

/-- The values of the variables, `extensionComputeInterestingRunOfTheSystem.hpp:244-256,291-302`. -/
def runValues (M : Mgr B) (pos : B) (vars : List (Name × B)) : List (Name × Bool) :=
  vars.map fun v => (v.1, if M.and pos v.2 = M.ff then false else true)

/-- The third part of a row, `extensionComputeInterestingRunOfTheSystem.hpp:242-346`.  `prev` is `trace[runPart-1]`. -/
def runBody (M : Mgr B) (c : Ctx B) (vs : RunVars B) (prev pos : B) : RunBody :=
  if pos = M.ff then (if M.and prev c.safetyEnv = M.ff then .envLoses else .sysLoses)
  else .position (runValues M pos vs.inputs) (runValues M pos vs.outputs)

/-- The rows, `extensionComputeInterestingRunOfTheSystem.hpp:218-349`.  `junk` is what the two reads of `environmentGoalsSat[runPart]` and
`safetyEnvViolation[runPart]` yield when they are outside of these vectors.  (`safetySysViolation[runPart]` is read, but the text is appended to a stream
that is not used any more.) -/
def runRows (M : Mgr B) (c : Ctx B) (vs : RunVars B) (start : B) (steps : List (RunStep B)) (junk : Bool × Bool) : List RunRow :=
  let trace := start :: steps.map RunStep.pos
  (List.range trace.length).map fun k =>
    { envGoal := (0 :: steps.map RunStep.envGoal).getD k 0
      envMark := (steps.map RunStep.envSat).getD k junk.1
      envViolation := (steps.map RunStep.envViolation).getD k junk.2
      sysGoal := (0 :: steps.map RunStep.sysGoal).getD k 0
      sysMark := (steps.map RunStep.sysSat ++ [false]).getD k false
      body := runBody M c vs (trace.getD (k - 1) start) (trace.getD k start) }

/-- Whether all reads of the vectors are inside of them, `extensionComputeInterestingRunOfTheSystem.hpp:223,226-228,233-235`. -/
def readsInside (steps : List (RunStep B)) : Bool :=
  (List.range (steps.length + 1)).all fun k =>
    decide (k < (0 :: steps.map RunStep.envGoal).length) && decide (k < (steps.map RunStep.envSat).length) &&
    decide (k < (steps.map RunStep.envViolation).length) && decide (k < (0 :: steps.map RunStep.sysGoal).length) &&
    decide (k < (steps.map RunStep.sysSat ++ [false]).length) && decide (k < (steps.map RunStep.sysViolation).length)

/-- What is printed: a message or a table.  Not modelled: the layout of the table. -/
inductive InterestingReport where
  /-- "There is no position that is winning for the system and ..." -/
  | noStart
  /-- `inside`: no read outside of a vector took place -/
  | table (inside : Bool) (rows : List RunRow)
  deriving DecidableEq, Repr

/-- `execute` after `checkRealizability`, and `computeRun`, `extensionComputeInterestingRunOfTheSystem.hpp:44-410`. -/
def computeRun (M : Mgr B) (c : Ctx B) (vs : RunVars B) (fuel : Nat) (rnd : List Bool) (junk : Bool × Bool) (winningPositions : B) (dump : Dump B) :
    Option InterestingReport :=
  let start := M.and (M.and winningPositions c.initEnv) c.initSys
  if start = M.ff then some .noStart
  else
    let start := determinize M vs.preVars start
    match deadlockLoop M c fuel M.tt M.ff M.ff with
    | none => none
    | some ndt =>
      match hopeStrategies M c ndt fuel c.livenessAssumptions with
      | none => none
      | some env =>
        match runLoop M c vs ((List.range c.livenessGuarantees.length).map (positional M dump)) env 100 start 0 0 rnd with
        | none => none
        | some steps => some (.table (readsInside steps) (runRows M c vs start steps junk))

/-- The variables of a table. -/
def runVars (B : Type) [DecidableEq B] [L : BddLib B] (tab : VarTable) : RunVars B where
  preVars := (varsOfType tab.types .pre).map L.var
  postVars := (varsOfType tab.types .post).map L.var
  inputs := (varsOfType tab.types .preInput).map fun k => (tab.names.getD k [], L.var k)
  outputs := (varsOfType tab.types .preOutput).map fun k => (tab.names.getD k [], L.var k)

/-- What a run ends with. -/
inductive InterestingOutcome where
  | report (r : InterestingReport)
  /-- some variable has a `@` in its name: not modelled -/
  | grouped
  | inputError (e : InitErr)
  | ub
  | running
  deriving DecidableEq, Repr

/-- `XComputeInterestingRunOfTheSystem<GR1Context>`: `init` and `execute` (`extensionComputeInterestingRunOfTheSystem.hpp:401-411`), for files in which no variable
has a `@` in its name.  The verdict of `checkRealizability` is ignored. -/
def runInteresting (B : Type) [DecidableEq B] [BddLib B] (cap : Nat) (order : List Char → Bool) (fuel : Nat) (rnd : List Bool) (junk : Bool × Bool)
    (text : List Char) : InterestingOutcome :=
  match initContext (B := B) cap order text with
  | .ok (tab, c) =>
    if ((varsOfType tab.types .pre).map fun k => tab.names.getD k []).any (fun x => x.contains '@') then .grouped
    else
      match checkRealizability .standard (bddMgr B tab.types) c fuel with
      | some (_, winningPositions, dump) =>
        match computeRun (bddMgr B tab.types) c (runVars B tab) fuel rnd junk winningPositions dump with
        | some r => .report r
        | none => .running
      | none => .running
  | .err e => .inputError e
  | .ub => .ub
  | .stuck => .running

end Slugs.Model
