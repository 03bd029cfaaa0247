import Verif.Model.Explicit

/-!
Model of `extensionCooperativeGR1Strategy.hpp`: the computation of cooperative strategies.
-/

namespace Slugs.Model

variable {B : Type} [DecidableEq B]

/-- `nonDeadEndSafetySys`, `extensionCooperativeGR1Strategy.hpp:43`. -/
def nonDeadEnd (M : Mgr B) (c : Ctx B) : B := M.and c.safetySys (M.swap (M.exPost c.safetyEnv))

/-- Body of the loop for `muCoop`, `extensionCooperativeGR1Strategy.hpp:118-133`.  State: `foundPaths` and
`livenessAssumptionProgressPaths`. -/
def muCoopStep (M : Mgr B) (c : Ctx B) (livetransitions assumption nu0 : B) (muCoop : B) (st : B × List B) :
    Option (B × (B × List B)) :=
  let foundPaths := M.or livetransitions (M.and (M.swap (M.and nu0 muCoop)) (M.not assumption))
  let foundPaths := M.and foundPaths (M.and (nonDeadEnd M c) c.safetyEnv)
  some (M.exPost (M.and c.safetyEnv foundPaths), (foundPaths, st.2 ++ [foundPaths]))

/-- Body of the innermost greatest fixed point, `extensionCooperativeGR1Strategy.hpp:108-147`.  State: `foundPaths` and
`livenessAssumptionProgressPaths`. -/
def nu0StepCoop (M : Mgr B) (c : Ctx B) (fuel : Nat) (livetransitions assumption : B) (nu0 : B) (st : B × List B) :
    Option (B × (B × List B)) :=
  match fixLoop (muCoopStep M c livetransitions assumption nu0) fuel M.ff (st.1, [livetransitions]) with
  | none => none
  | some (_, (foundPaths, progress)) =>
    some (M.allPostInput (M.exPostOutput (M.imp c.safetyEnv foundPaths)), (foundPaths, progress))

/-- The loop over the liveness assumptions, `extensionCooperativeGR1Strategy.hpp:95-157`.  State: `goodForAnyLivenessAssumption` and
`strategyDumpingData`. -/
def assumptionLoopCoop (M : Mgr B) (c : Ctx B) (fuel j : Nat) (livetransitions : B) :
    List B → B × Dump B → Option (B × Dump B)
  | [], st => some st
  | a :: as, (good, dump) =>
    match fixLoop (nu0StepCoop M c fuel livetransitions a) fuel M.tt (M.tt, []) with
    | none => none
    | some (nu0, (foundPaths, progress)) =>
      assumptionLoopCoop M c fuel j livetransitions as
        (M.or good nu0, dump ++ progress.map (fun it => (j, M.and foundPaths it)))

/-- Body of the middle loop, `extensionCooperativeGR1Strategy.hpp:82-165`.  State: `livetransitions` and `strategyDumpingData`. -/
def mu1StepCoop (M : Mgr B) (c : Ctx B) (fuel j : Nat) (mu1 : B) (st : B × Dump B) : Option (B × (B × Dump B)) :=
  let livetransitions := M.or st.1 (M.swap mu1)
  match assumptionLoopCoop M c fuel j livetransitions c.livenessAssumptions (mu1, st.2) with
  | none => none
  | some (good, dump) => some (good, (livetransitions, dump))

/-- The middle least fixed point for goal number `j`, `extensionCooperativeGR1Strategy.hpp:77-165`. -/
def mu1LoopCoop (M : Mgr B) (c : Ctx B) (fuel j : Nat) (nu2 goal : B) (dump : Dump B) : Option (B × (B × Dump B)) :=
  fixLoop (mu1StepCoop M c fuel j) fuel M.ff (M.and goal (M.swap nu2), dump)

/-- The loop over the original liveness guarantees, `extensionCooperativeGR1Strategy.hpp:71-169`. -/
def goalLoopCoop (M : Mgr B) (c : Ctx B) (fuel : Nat) (nu2 : B) : Nat → List B → B × Dump B → Option (B × Dump B)
  | _, [], st => some st
  | j, goal :: goals, (next, dump) =>
    match mu1LoopCoop M c fuel j nu2 goal dump with
    | none => none
    | some (mu1, (_, dump)) => goalLoopCoop M c fuel nu2 (j + 1) goals (M.and next mu1, dump)

/-- Body of the loop towards a liveness assumption, `extensionCooperativeGR1Strategy.hpp:184-209`.  State: `goodTransitions` and
`strategyDumpingData`. -/
def towardsStep (M : Mgr B) (c : Ctx B) (j : Nat) (next : B) (mu1 : B) (st : B × Dump B) : Option (B × (B × Dump B)) :=
  let winningStates := M.exPost st.1
  let goodTransitions :=
    M.or st.1 (M.and (M.and (M.and (M.swap winningStates) c.safetyEnv) (nonDeadEnd M c)) next)
  some (M.or winningStates mu1, (goodTransitions, st.2 ++ [(j, st.1)]))

/-- The loop over the liveness assumptions that were appended to the guarantees, `extensionCooperativeGR1Strategy.hpp:174-215`; `j` is the
number of the first one in the list.  State: `nextContraintsForGoals`, `strategyDumpingData` and the entries of
`transitionsTowardsLivenessAssumption` written so far (all entries of this vector are written anew in every round of the outermost loop). -/
def towardsLoop (M : Mgr B) (c : Ctx B) (fuel : Nat) (nu2 : B) : Nat → List B → B × (Dump B × List B) →
    Option (B × (Dump B × List B))
  | _, [], st => some st
  | j, a :: as, (next, (dump, ts)) =>
    let goodTransitions := M.and (M.and (M.and (M.and a (nonDeadEnd M c)) next) c.safetyEnv) (M.swap next)
    match fixLoop (towardsStep M c j next) fuel M.ff (goodTransitions, dump) with
    | none => none
    | some (mu1, (goodTransitions, dump)) =>
      towardsLoop M c fuel nu2 (j + 1) as
        (M.and next mu1, (dump ++ [(j, M.and (nonDeadEnd M c) (M.swap nu2))], ts ++ [goodTransitions]))

/-- Body of the outermost loop, `extensionCooperativeGR1Strategy.hpp:59-224`. -/
def nu2StepCoop (M : Mgr B) (c : Ctx B) (fuel : Nat) (nu2 : B) (_st : Dump B × List B) : Option (B × (Dump B × List B)) :=
  match goalLoopCoop M c fuel nu2 0 c.livenessGuarantees (M.tt, []) with
  | none => none
  | some (next, dump) => towardsLoop M c fuel nu2 c.livenessGuarantees.length c.livenessAssumptions (next, (dump, []))

/-- The liveness guarantees after the computation: the assumptions are appended (`extensionCooperativeGR1Strategy.hpp:49-51`) and weakened
(`:228-230`). -/
def coopGuarantees (M : Mgr B) (c : Ctx B) (towards : List B) : List B :=
  c.livenessGuarantees ++ List.zipWith (fun a t => M.or a (M.not t)) c.livenessAssumptions towards

/-- `XCooperativeGR1Strategy::computeWinningPositions`, `extensionCooperativeGR1Strategy.hpp:39-235`.  Result: `winningPositions`,
`strategyDumpingData` and the context with the changed liveness guarantees. -/
def computeWinningPositionsCoop (M : Mgr B) (c : Ctx B) (fuel : Nat) : Option (B × (Dump B × Ctx B)) :=
  match fixLoop (nu2StepCoop M c fuel) fuel M.tt ([], []) with
  | none => none
  | some (winningPositions, (dump, towards)) =>
    some (winningPositions, (dump, { c with livenessGuarantees := coopGuarantees M c towards }))

/-- `GR1Context::checkRealizability` (`synthesisAlgorithm.cpp:94-110`) and `XRoboticsSemantics::checkRealizability`
(`extensionRoboticsSemantics.hpp:26-38`) with `computeWinningPositions` of `XCooperativeGR1Strategy`. -/
def checkRealizabilityCoop (robotics : Bool) (M : Mgr B) (c : Ctx B) (fuel : Nat) :
    Option (Verdict × (B × (Dump B × Ctx B))) :=
  match computeWinningPositionsCoop M c fuel with
  | none => none
  | some (winningPositions, r) =>
    let result :=
      if robotics then M.allPreInput (M.allPreOutput (M.imp (M.and c.initEnv c.initSys) winningPositions))
      else M.allPreInput (M.imp c.initEnv (M.exPreOutput (M.and winningPositions c.initSys)))
    some (verdictOf M result, (winningPositions, r))

/-- A run with `--cooperativeGR1Strategy` (and `--sysInitRoboticsSemantics` if `robotics`), `main.cpp:183-184`. -/
def runCoop (B : Type) [DecidableEq B] [BddLib B] (robotics : Bool) (cap : Nat) (order : List Char → Bool) (fuel : Nat)
    (text : List Char) : Outcome :=
  match initContext (B := B) cap order text with
  | .ok (tab, ctx) => outcomeOf (checkRealizabilityCoop robotics (bddMgr B tab.types) ctx fuel)
  | .err e => .inputError e
  | .ub => .ub
  | .stuck => .running

/-- A run with `--cooperativeGR1Strategy --explicitStrategy` (and `--simpleRecovery` if `recovery`, `--sysInitRoboticsSemantics` if
`robotics`), `main.cpp:170-173`: `XExtractExplicitStrategy<T,recovery,false>` (`extensionExtractExplicitStrategy.hpp:52-73`). -/
def runExplicitCoop (B : Type) [DecidableEq B] [BddLib B] (robotics recovery : Bool) (cap : Nat) (order : List Char → Bool)
    (fuel : Nat) (text : List Char) : ExplicitOutcome :=
  match initContext (B := B) cap order text with
  | .ok (tab, ctx) =>
    let M := bddMgr B tab.types
    let r := checkRealizabilityCoop robotics M ctx fuel
    match r with
    | some (.realizable, (winningPositions, (dump, ctx'))) =>
      match extractStrategy M ctx' (tableVars B tab) false recovery fuel winningPositions dump with
      | some sts => .strategy sts
      | none => .none .running
    | _ => .none (outcomeOf r)
  | .err e => .none (.inputError e)
  | .ub => .none .ub
  | .stuck => .none .running

end Slugs.Model
