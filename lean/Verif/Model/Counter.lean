import Verif.Model.Explicit
import Verif.Spec.Counter

/-!
Model of `extensionCounterstrategy.hpp` (the fixed point from the point of view of the environment) and of
`extensionExtractExplicitCounterstrategy.hpp` (explicit-state counterstrategies).
-/

namespace Slugs.Model

open Slugs.Spec (CState)

variable {B : Type} [DecidableEq B]

/-- `strategyDumpingData` of a counterstrategy: number of the assumption, number of the guarantee, transitions;
`extensionCounterstrategy.hpp:33`. -/
abbrev CDump (B : Type) := List (Nat × Nat × B)

/-- Body of the innermost loop, `extensionCounterstrategy.hpp:97-109`.  State: `strategyDumpingData`. -/
def mu0Step (M : Mgr B) (c : Ctx B) (i j : Nat) (livetransitions assumption : B) (mu0 : B) (dump : CDump B) :
    Option (B × CDump B) :=
  let foundPaths := M.and livetransitions (M.or (M.swap mu0) assumption)
  let foundPaths := M.allPostOutput (M.and c.safetyEnv (M.imp c.safetySys foundPaths))
  some (M.exPostInput foundPaths, dump ++ [(i, j, foundPaths)])

/-- The loop over the liveness assumptions, `extensionCounterstrategy.hpp:87-114`; `i` is the number of the first assumption in the list.
State: `goodForAllLivenessAssumptions` and `strategyDumpingData`. -/
def assumptionLoopC (M : Mgr B) (c : Ctx B) (fuel j : Nat) (livetransitions : B) :
    Nat → List B → B × CDump B → Option (B × CDump B)
  | _, [], st => some st
  | i, a :: as, (good, dump) =>
    match fixLoop (mu0Step M c i j livetransitions a) fuel M.ff dump with
    | none => none
    | some (mu0, dump) => assumptionLoopC M c fuel j livetransitions (i + 1) as (M.and good mu0, dump)

/-- Body of the middle loop, `extensionCounterstrategy.hpp:76-118`.  State: `livetransitions` and `strategyDumpingData`, which is
set to `strategyDumpingDataOld` at the beginning. -/
def nu1StepC (M : Mgr B) (c : Ctx B) (fuel j : Nat) (dumpOld : CDump B) (nu1 : B) (st : B × CDump B) :
    Option (B × (B × CDump B)) :=
  let livetransitions := M.and st.1 (M.swap nu1)
  match assumptionLoopC M c fuel j livetransitions 0 c.livenessAssumptions (nu1, dumpOld) with
  | none => none
  | some (good, dump) => some (good, (livetransitions, dump))

/-- The middle greatest fixed point for goal number `j`, `extensionCounterstrategy.hpp:65-118`. -/
def nu1LoopC (M : Mgr B) (c : Ctx B) (fuel j : Nat) (mu2 goal : B) (dump : CDump B) : Option (B × (B × CDump B)) :=
  fixLoop (nu1StepC M c fuel j dump) fuel M.tt (M.or (M.not goal) (M.swap mu2), dump)

/-- The loop over the liveness guarantees, `extensionCounterstrategy.hpp:63-122`.  State: `nextContraintsForGoals` and
`strategyDumpingData`; `j` is the number of the first goal in the list. -/
def goalLoopC (M : Mgr B) (c : Ctx B) (fuel : Nat) (mu2 : B) : Nat → List B → B × CDump B → Option (B × CDump B)
  | _, [], st => some st
  | j, goal :: goals, (next, dump) =>
    match nu1LoopC M c fuel j mu2 goal dump with
    | none => none
    | some (nu1, (_, dump)) => goalLoopC M c fuel mu2 (j + 1) goals (M.or next nu1, dump)

/-- Body of the outermost loop, `extensionCounterstrategy.hpp:58-127`: the dumping data is kept from round to round. -/
def mu2StepC (M : Mgr B) (c : Ctx B) (fuel : Nat) (mu2 : B) (dump : CDump B) : Option (B × CDump B) :=
  goalLoopC M c fuel mu2 0 c.livenessGuarantees (M.ff, dump)

/-- `XCounterStrategy::computeWinningPositions`, `extensionCounterstrategy.hpp:53-131`.
Result: `winningPositions` (of the environment) and `strategyDumpingData`. -/
def computeWinningPositionsC (M : Mgr B) (c : Ctx B) (fuel : Nat) : Option (B × CDump B) :=
  fixLoop (mu2StepC M c fuel) fuel M.ff []

/-- `isConstant`/`isTrue` test at the end of the check, `extensionCounterstrategy.hpp:145-149`. -/
def verdictOfC (M : Mgr B) (result : B) : Verdict :=
  if result = M.tt then .unrealizable
  else if result = M.ff then .realizable
  else .internalError

/-- `XCounterStrategy::checkRealizability`, `extensionCounterstrategy.hpp:133-150`; `robotics` is the template parameter
`specialRoboticsSemantics`. -/
def checkRealizabilityC (M : Mgr B) (c : Ctx B) (robotics : Bool) (fuel : Nat) : Option (Verdict × B × CDump B) :=
  match computeWinningPositionsC M c fuel with
  | none => none
  | some (W, dump) =>
    let result :=
      if robotics then M.exPreInput (M.exPreOutput (M.and (M.and c.initEnv c.initSys) W))
      else M.exPreInput (M.and c.initEnv (M.allPreOutput (M.imp c.initSys W)))
    some (verdictOfC M result, W, dump)

/-! ### Explicit counterstrategies -/

/-- Body of the loop over the dumping data, `extensionExtractExplicitCounterstrategy.hpp:113`. -/
def positionalStepC (M : Mgr B) (strategy entry : B) : B :=
  M.or strategy (M.and (M.allPostOutput entry) (M.not (M.exPost strategy)))

/-- The positional strategy for assumption `i` and guarantee `j`, `extensionExtractExplicitCounterstrategy.hpp:101-117`. -/
def positionalC (M : Mgr B) (dump : CDump B) (i j : Nat) : B :=
  ((dump.filter fun e => e.1 == i && e.2.1 == j).map fun e => e.2.2).foldl (positionalStepC M) M.ff

/-- What the extraction uses of a context besides the specification: also `postInputVars`, `postOutputVars` and the names and BFs of the
variables that inherit the type `PreInput` (`extensionExtractExplicitCounterstrategy.hpp:249-259`). -/
structure CVars (B : Type) extends Vars B where
  postInputVars : List B
  postOutputVars : List B
  inputLabels : List (Name × B)

/-- `lookupTableForPastStates.find(k)`. -/
def Work.find {R : Type} [DecidableEq R] (w : Work B R) (k : B × R) : Option Nat := w.keys.lookup k

/-- The guarantee that is prevented first, `extensionExtractExplicitCounterstrategy.hpp:129-135`. -/
def firstGoal (M : Mgr B) (n : Nat) (strategy : Nat → B) (concreteState : B) : Nat :=
  ((List.range n).find? fun j => M.and concreteState (strategy j) ≠ M.ff).getD 0

/-- The loop that collects the initial states, `extensionExtractExplicitCounterstrategy.hpp:124-143`. -/
def initLoopC (M : Mgr B) (n : Nat) (vs : CVars B) (strategy : Nat → B) : Nat → B → Work B (Nat × Nat) → Option (Work B (Nat × Nat))
  | 0, _, _ => none
  | fuel + 1, todoInit, w =>
    if todoInit = M.ff then some w
    else
      let concreteState := determinize M vs.preVars todoInit
      initLoopC M n vs strategy fuel (M.and todoInit (M.not concreteState))
        (w.enter (concreteState, (0, firstGoal M n strategy concreteState)))

/-- The loop over the successors of a state, `extensionExtractExplicitCounterstrategy.hpp:181-230`.
Result: the tables and the numbers that are printed. -/
def succLoopC (M : Mgr B) (c : Ctx B) (vs : CVars B) (rank : Nat × Nat) : Nat → B → Work B (Nat × Nat) → List Nat →
    Option (Work B (Nat × Nat) × List Nat)
  | 0, _, _, _ => none
  | n + 1, remaining, w, printed =>
    if M.and remaining c.safetySys = M.ff then some (w, printed)
    else
      let newCombination := determinize M vs.postOutputVars (M.and remaining c.safetySys)
      match goalJump M c.livenessAssumptions newCombination rank.1 (c.livenessAssumptions.length + 1) rank.1 true,
        goalJump M c.livenessGuarantees newCombination rank.2 (c.livenessGuarantees.length + 1) rank.2 true with
      | some nextA, some nextG =>
        let target := (M.swap (M.exPre newCombination), (nextA, nextG))
        let w' := if w.find target = none then w.enter target else w
        succLoopC M c vs rank n (M.and remaining (M.not newCombination)) w' (printed ++ [w'.num target])
      | _, _ => none

/-- Enter a state without successors, which is not put on the to-do list: `extensionExtractExplicitCounterstrategy.hpp:253-254`. -/
def Work.enterDead {R : Type} (w : Work B R) (k : B × R) : Work B R :=
  { w with keys := (k, w.bfs.length) :: w.keys, bfs := w.bfs ++ [k.1] }

/-- The values that are printed for a state without successors, `extensionExtractExplicitCounterstrategy.hpp:249-259`. -/
def inputLabelOf (M : Mgr B) (vs : CVars B) (f : B) : List (Name × Bool) :=
  vs.inputLabels.map fun v => (v.1, if M.and f v.2 = M.ff then false else true)

/-- `addDeadlocked`, `extensionExtractExplicitCounterstrategy.hpp:240-275`.
Result: the tables, the number that is printed and the states that are printed. -/
def addDeadlocked (M : Mgr B) (vs : CVars B) (rank : Nat × Nat) (deadlockInput : B) (w : Work B (Nat × Nat)) :
    Work B (Nat × Nat) × Nat × List CState :=
  let newCombination := determinize M vs.postVars deadlockInput
  let newCombination := M.swap (M.exPre (M.exPostOutput newCombination))
  let target := (newCombination, rank)
  if w.find target = none then
    let w' := w.enterDead target
    (w', w'.num target, [{ num := w'.num target, rank := rank, label := inputLabelOf M vs newCombination, succ := none }])
  else (w, w.num target, [])

/-- The main loop, `extensionExtractExplicitCounterstrategy.hpp:146-235`.  Result: the printed states, in the order in which they are printed. -/
def extractLoopC (M : Mgr B) (c : Ctx B) (vs : CVars B) (strategy : Nat → Nat → B) (fuel : Nat) :
    Nat → Work B (Nat × Nat) → List CState → Option (List CState)
  | 0, _, _ => none
  | n + 1, w, out =>
    match w.todo with
    | [] => some out
    | cur :: rest =>
      let w := { w with todo := rest }
      let stateNum := w.num cur
      match w.bfs[stateNum]? with
      | none => none
      | some f =>
        let label := labelOf M vs.toVars f
        let deadlockInput := M.allPostOutput (M.and (M.and f c.safetyEnv) (M.not c.safetySys))
        if deadlockInput ≠ M.ff then
          let r := addDeadlocked M vs cur.2 deadlockInput w
          extractLoopC M c vs strategy fuel n r.1
            (out ++ [{ num := stateNum, rank := cur.2, label := label, succ := some [r.2.1] }] ++ r.2.2)
        else
          let remaining := determinize M vs.postInputVars (M.and f (strategy cur.2.1 cur.2.2))
          match succLoopC M c vs cur.2 fuel remaining w [] with
          | none => none
          | some (w', succ) =>
            extractLoopC M c vs strategy fuel n w'
              (out ++ [{ num := stateNum, rank := cur.2, label := label, succ := some succ }])

/-- `computeAndPrintExplicitStateStrategy`, `extensionExtractExplicitCounterstrategy.hpp:87-237`.  Not modelled: the punctuation around the
numbers and names that are printed.  `strategyDumpingData` only contains numbers of existing assumptions and guarantees, and there is at
least one assumption and one guarantee (`synthesisContextBasics.cpp:196-198`), so that the accesses to `positionalStrategiesForTheIndividualGoals`
are in range. -/
def extractCounterstrategy (M : Mgr B) (c : Ctx B) (vs : CVars B) (fuel : Nat) (winningPositions : B) (dump : CDump B) :
    Option (List CState) :=
  let todoInit := M.and (M.and winningPositions c.initEnv) c.initSys
  match initLoopC M c.livenessGuarantees.length vs (positionalC M dump 0) fuel todoInit { keys := [], bfs := [], todo := [] } with
  | none => none
  | some w => extractLoopC M c vs (positionalC M dump) fuel fuel w []

/-- The variables of a table as BFs (`variableManager.cpp:170-179`). -/
def tableCVars (B : Type) [DecidableEq B] [L : BddLib B] (tab : VarTable) : CVars B where
  toVars := tableVars B tab
  postInputVars := (varsOfType tab.types .postInput).map L.var
  postOutputVars := (varsOfType tab.types .postOutput).map L.var
  inputLabels := (varsOfType tab.types .preInput).map fun k => (tab.names.getD k [], L.var k)

/-- What a run with `--counterStrategy` ends with. -/
inductive CounterOutcome where
  /-- unrealizable; the states are printed -/
  | counterstrategy (states : List CState)
  /-- no counterstrategy is printed; the message is that of a run without strategy extraction -/
  | none (o : Outcome)
  deriving DecidableEq, Repr

/-- A run of `XExtractExplicitCounterStrategy<XCounterStrategy<GR1Context,robotics>>` (`main.cpp:185-186`,
`extensionExtractExplicitCounterstrategy.hpp:64-85`) on a single file.  Not modelled: that the output file cannot be written, and the treatment of the
list of file names in the constructor (lines 44-51). -/
def runCounter (B : Type) [DecidableEq B] [BddLib B] (robotics : Bool) (cap : Nat) (order : List Char → Bool)
    (fuel : Nat) (text : List Char) : CounterOutcome :=
  match initContext (B := B) cap order text with
  | .ok (tab, ctx) =>
    let M := bddMgr B tab.types
    let r := checkRealizabilityC M ctx robotics fuel
    match r with
    | some (.unrealizable, winningPositions, dump) =>
      match extractCounterstrategy M ctx (tableCVars B tab) fuel winningPositions dump with
      | some sts => .counterstrategy sts
      | none => .none .running
    | _ => .none (outcomeOf r)
  | .err e => .none (.inputError e)
  | .ub => .none .ub
  | .stuck => .none .running

end Slugs.Model
