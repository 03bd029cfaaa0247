import Verif.Model.Symbolic
import Verif.Model.Cooperative
import Verif.Model.FastSlow

/-!
# Symbolic strategies together with other options

The extraction of symbolic strategies after a computation of the winning positions for cooperative strategies (`--cooperativeGR1Strategy`) or with fast and slow
outputs (`--IROSfastslow`).  The class `XExtractSymbolicStrategy<T,oneStepRecovery,systemGoalEncoded>` is the same as in `Model/Symbolic.lean`, only the class
`T` whose `execute` it calls differs.
-/

namespace Slugs.Model

/-- A run of `XExtractSymbolicStrategy<T,_,goalEncoded>` (`extensionExtractSymbolicStrategy.hpp:57-66`) with `T` equal to
`XCooperativeGR1Strategy<GR1Context>` or `XRoboticsSemantics<XCooperativeGR1Strategy<GR1Context>>`, `main.cpp:175-182`.  The extraction sees the list of
liveness guarantees that `computeWinningPositions` has extended (`extensionCooperativeGR1Strategy.hpp:50` and `:228-229`).  As in `runSymbolic`, the parameter
`oneStepRecovery` has no effect. -/
def runSymbolicCoop (B : Type) [DecidableEq B] [BddLib B] (robotics goalEncoded : Bool) (cap : Nat) (order : List Char → Bool)
    (fuel : Nat) (text : List Char) : SymbolicOutcome B :=
  match initContext (B := B) cap order text with
  | .ok (tab, ctx) =>
    let r := checkRealizabilityCoop robotics (bddMgr B tab.types) ctx fuel
    match r with
    | some (.realizable, _, dump, ctx') => .strategy (extractSymbolic goalEncoded tab ctx' dump)
    | _ => .none (outcomeOf r)
  | .err e => .none (.inputError e)
  | .ub => .none .ub
  | .stuck => .none .running

/-- A run of `XExtractSymbolicStrategy<T,_,goalEncoded>` (`extensionExtractSymbolicStrategy.hpp:57-66`) with `T` equal to `XIROSFS<GR1Context>` or
`XRoboticsSemantics<XIROSFS<GR1Context>>`, `main.cpp:125-132`.  The types of the variables in the table are the ones of
`extensionIROSfastslow.hpp`, and `varCubePostOutput` consists of the variables whose type inherits from `PostOutput`. -/
def runFSSymbolic (B : Type) [DecidableEq B] [BddLib B] (robotics goalEncoded : Bool) (cap : Nat) (order : List Char → Bool)
    (fuel : Nat) (text : List Char) : SymbolicOutcome B :=
  match fsInit (B := B) cap order text with
  | .ok (tab, c) =>
    let r := checkFS robotics tab.types c fuel
    match r with
    | some (.realizable, _, dump) => .strategy (extractSymbolic goalEncoded tab c dump)
    | _ => .none (outcomeOf r)
  | .err e => .none (.inputError e)
  | .ub => .none .ub
  | .stuck => .none .running

end Slugs.Model
