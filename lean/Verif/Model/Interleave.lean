import Verif.Model.Run

/-!
Model of `extensionInterleave.hpp`: `--analyzeInterleaving`.  Not modelled: the numbers written to `stderr` (`:185-186`), the file for debugging that is
written to `/tmp` (`:169`), and `strategyDumpingData`, which is filled but never used.
-/

namespace Slugs.Model

section
variable {B : Type} [DecidableEq B]

/-- The innermost greatest fixed point, `extensionInterleave.hpp:130-145`; `ctl` is the enforceable predecessor operator of line 144. -/
def nu0LoopBA (M : Mgr B) (ctl : B → B) (fuel : Nat) (livetransitions assumption : B) : Option (B × Unit) :=
  fixLoop (fun nu0 _ => some (ctl (M.or livetransitions (M.and (M.swap nu0) (M.not assumption))), ())) fuel M.tt ()

/-- The loop over the liveness assumptions, `extensionInterleave.hpp:127-153`.  State: `goodForAnyLivenessAssumption`. -/
def assumptionLoopBA (M : Mgr B) (ctl : B → B) (fuel : Nat) (livetransitions : B) : List B → B → Option B
  | [], good => some good
  | a :: as, good =>
    match nu0LoopBA M ctl fuel livetransitions a with
    | none => none
    | some (nu0, _) => assumptionLoopBA M ctl fuel livetransitions as (M.or good nu0)

/-- The middle least fixed point, `extensionInterleave.hpp:116-157`.  State: `livetransitions`. -/
def mu1LoopBA (M : Mgr B) (ctl : B → B) (fuel : Nat) (assumptions : List B) (nu2 goal : B) : Option (B × B) :=
  fixLoop (fun mu1 live =>
    let livetransitions := M.or live (M.swap mu1)
    match assumptionLoopBA M ctl fuel livetransitions assumptions mu1 with
    | none => none
    | some good => some (good, livetransitions)) fuel M.ff (M.and goal (M.swap nu2))

/-- The loop over the liveness guarantees, `extensionInterleave.hpp:110-161`.  State: `nextContraintsForGoals`. -/
def goalLoopBA (M : Mgr B) (ctl : B → B) (fuel : Nat) (assumptions : List B) (nu2 : B) : List B → B → Option B
  | [], next => some next
  | goal :: goals, next =>
    match mu1LoopBA M ctl fuel assumptions nu2 goal with
    | none => none
    | some (mu1, _) => goalLoopBA M ctl fuel assumptions nu2 goals (M.and next mu1)

/-- `XInterleave::computeWinningPositions`, `extensionInterleave.hpp:85-170`. -/
def computeWinningPositionsBA (M : Mgr B) (ctl : B → B) (assumptions guarantees : List B) (fuel : Nat) : Option (B × Unit) :=
  fixLoop (fun nu2 _ =>
    match goalLoopBA M ctl fuel assumptions nu2 guarantees M.tt with
    | none => none
    | some next => some (next, ())) fuel M.tt ()

/-- `GR1Context::checkRealizability` with the winning positions of `XInterleave`, `synthesisAlgorithm.cpp:94-110`. -/
def checkRealizabilityBA (M : Mgr B) (ctl : B → B) (c : Ctx B) (fuel : Nat) : Option Verdict :=
  match computeWinningPositionsBA M ctl c.livenessAssumptions c.livenessGuarantees fuel with
  | none => none
  | some (winningPositions, _) =>
    some (verdictOf M (M.allPreInput (M.imp c.initEnv (M.exPreOutput (M.and winningPositions c.initSys)))))
end

/-- The enforceable predecessor operator, `extensionInterleave.hpp:144`: there are values for the "before" outputs such that for all inputs there are values
for the "after" outputs. -/
def ctlBA (B : Type) [DecidableEq B] [L : BddLib B] (types : List VarType) (c : Ctx B) (foundPaths : B) : B :=
  let M := bddMgr B types
  L.exist (varsOfType types .postOutputBefore)
    (M.allPostInput (L.exist (varsOfType types .postOutputAfter) (M.imp c.safetyEnv (M.and c.safetySys foundPaths))))

/-- `doesVariableInheritType`, `variableManager.hpp:71-74`: it uses `variableTypesAll`, which is computed from `variableTypes` by
`computeVariableInformation`; `known` are the types at that time. -/
def inheritsType (known : List VarType) (i : Nat) (ty : VarType) : Bool :=
  match known[i]? with
  | some t => t.closure.contains ty
  | none => false

/-- The default ordering, `extensionInterleave.hpp:175-182`. -/
def defaultTypes (known : List VarType) : List VarType :=
  known.mapIdx fun i t =>
    if inheritsType known i .postOutput then .postOutputAfter
    else if inheritsType known i .preOutput then .preOutputAfter
    else t

/-- The state of the loop: `variableTypes`, its value at the last `computeVariableInformation`, and `foundOne` (`none`: not initialised). -/
structure BAState where
  types : List VarType
  known : List VarType
  found : Option Bool

/-- The loop over the variables, `extensionInterleave.hpp:194-209`.  `check` is a call of `computeVariableInformation` and `checkRealizability` for the given
types; its outcome `err` is the internal error.  If there is no variable `i + 1`, the behaviour is undefined. -/
def tryOutputs (check : List VarType → Res Unit Bool) : List Nat → BAState → Res Unit BAState
  | [], st => .ok st
  | i :: is, st =>
    if inheritsType st.known i .preOutput then
      if st.types.length ≤ i + 1 then .ub
      else
        let types := (st.types.set i .preOutputBefore).set (i + 1) .postOutputBefore
        match check types with
        | .ok true => tryOutputs check is { types := types, known := types, found := some true }
        | .ok false =>
          tryOutputs check is
            { types := (types.set i .preOutputAfter).set (i + 1) .postOutputAfter, known := types, found := st.found }
        | .err e => .err e
        | .ub => .ub
        | .stuck => .stuck
    else tryOutputs check is st

/-- What a run with `--analyzeInterleaving` ends with. -/
inductive BAOutcome where
  /-- "Starting point is an unrealizable specification --> no analysis to be performed.", `extensionInterleave.hpp:223` -/
  | unrealizable
  /-- "The specification stays realizable when the values of the following output signals have to be set before reading the input:" with the names,
  `extensionInterleave.hpp:212-217` -/
  | before (names : List Name)
  /-- "The specification becomes unrealizable when some output variable has to be set before the inputs are present.", `extensionInterleave.hpp:219` -/
  | becomesUnrealizable
  | internalError
  | inputError (e : InitErr)
  | ub
  | running
  deriving DecidableEq

/-- The outcome of a check: `realizable`, or the internal error. -/
def checkResult : Option Verdict → Res Unit Bool
  | none => .stuck
  | some .realizable => .ok true
  | some .unrealizable => .ok false
  | some .internalError => .err ()

/-- `computeVariableInformation` and `checkRealizability` for the given types, `extensionInterleave.hpp:183-188,199-200`. -/
def checkBA (B : Type) [DecidableEq B] [BddLib B] (c : Ctx B) (fuel : Nat) (types : List VarType) : Res Unit Bool :=
  checkResult (checkRealizabilityBA (bddMgr B types) (ctlBA B types c) c fuel)

/-- `XInterleave::execute`, `extensionInterleave.hpp:172-226`. -/
def executeBA (B : Type) [DecidableEq B] [BddLib B] (tab : VarTable) (c : Ctx B) (fuel : Nat) : BAOutcome :=
  let types := defaultTypes tab.types
  match checkBA B c fuel types with
  | .ok false => .unrealizable
  | .ok true =>
    match tryOutputs (checkBA B c fuel) (List.range types.length) { types := types, known := types, found := none } with
    | .ok st =>
      match st.found with
      | none => .ub
      | some true => .before ((varsOfType st.known .preOutputBefore).map fun k => tab.names.getD k [])
      | some false => .becomesUnrealizable
    | .err _ => .internalError
    | .ub => .ub
    | .stuck => .running
  | .err _ => .internalError
  | .ub => .ub
  | .stuck => .running

/-- `main.cpp:337-350` for the plugin `XInterleave<GR1Context>` (`main.cpp:138`). -/
def runInterleave (B : Type) [DecidableEq B] [BddLib B] (cap : Nat) (order : List Char → Bool) (fuel : Nat) (text : List Char) : BAOutcome :=
  match initContext (B := B) cap order text with
  | .ok (tab, c) => executeBA B tab c fuel
  | .err e => .inputError e
  | .ub => .ub
  | .stuck => .running

end Slugs.Model
