import Verif.Model.Mgr

/-!
Model of `synthesisAlgorithm.cpp`: the nested fixed point and the realizability check.
-/

namespace Slugs.Model

variable {B : Type} [DecidableEq B]

/-- Body of the innermost loop, `synthesisAlgorithm.cpp:58-66`.  State: the variable `foundPaths`. -/
def nu0Step (M : Mgr B) (c : Ctx B) (livetransitions assumption : B) (nu0 : B) (_foundPaths : B) : Option (B × B) :=
  let foundPaths := M.or livetransitions (M.and (M.swap nu0) (M.not assumption))
  let foundPaths := M.and foundPaths c.safetySys
  some (M.allPostInput (M.exPostOutput (M.imp c.safetyEnv foundPaths)), foundPaths)

/-- The innermost greatest fixed point, `synthesisAlgorithm.cpp:54-66`: starts with true. -/
def nu0Loop (M : Mgr B) (c : Ctx B) (fuel : Nat) (livetransitions assumption : B) : Option (B × B) :=
  fixLoop (nu0Step M c livetransitions assumption) fuel M.tt M.tt

/-- The loop over the liveness assumptions, `synthesisAlgorithm.cpp:49-74`.
State: `goodForAnyLivenessAssumption` and `strategyDumpingData`. -/
def assumptionLoop (M : Mgr B) (c : Ctx B) (fuel j : Nat) (livetransitions : B) :
    List B → B × Dump B → Option (B × Dump B)
  | [], st => some st
  | a :: as, (good, dump) =>
    match nu0Loop M c fuel livetransitions a with
    | none => none
    | some (nu0, foundPaths) =>
      assumptionLoop M c fuel j livetransitions as (M.or good nu0, dump ++ [(j, foundPaths)])

/-- Body of the middle loop, `synthesisAlgorithm.cpp:42-78`.  State: `livetransitions` and `strategyDumpingData`. -/
def mu1Step (M : Mgr B) (c : Ctx B) (fuel j : Nat) (mu1 : B) (st : B × Dump B) : Option (B × (B × Dump B)) :=
  let livetransitions := M.or st.1 (M.swap mu1)
  match assumptionLoop M c fuel j livetransitions c.livenessAssumptions (mu1, st.2) with
  | none => none
  | some (good, dump) => some (good, (livetransitions, dump))

/-- The middle least fixed point for goal number `j`, `synthesisAlgorithm.cpp:38-78`. -/
def mu1Loop (M : Mgr B) (c : Ctx B) (fuel j : Nat) (nu2 goal : B) (dump : Dump B) : Option (B × (B × Dump B)) :=
  fixLoop (mu1Step M c fuel j) fuel M.ff (M.and goal (M.swap nu2), dump)

/-- The loop over the liveness guarantees, `synthesisAlgorithm.cpp:32-82`.
State: `nextContraintsForGoals` and `strategyDumpingData`; `j` is the number of the first goal in the list. -/
def goalLoop (M : Mgr B) (c : Ctx B) (fuel : Nat) (nu2 : B) : Nat → List B → B × Dump B → Option (B × Dump B)
  | _, [], st => some st
  | j, goal :: goals, (next, dump) =>
    match mu1Loop M c fuel j nu2 goal dump with
    | none => none
    | some (mu1, (_, dump)) => goalLoop M c fuel nu2 (j + 1) goals (M.and next mu1, dump)

/-- Body of the outermost loop, `synthesisAlgorithm.cpp:21-87`: the dumping data is cleared in every round. -/
def nu2Step (M : Mgr B) (c : Ctx B) (fuel : Nat) (nu2 : B) (_dump : Dump B) : Option (B × Dump B) :=
  goalLoop M c fuel nu2 0 c.livenessGuarantees (M.tt, [])

/-- `GR1Context::computeWinningPositions`, `synthesisAlgorithm.cpp:15-91`.
Result: `winningPositions` and `strategyDumpingData`. -/
def computeWinningPositions (M : Mgr B) (c : Ctx B) (fuel : Nat) : Option (B × Dump B) :=
  fixLoop (nu2Step M c fuel) fuel M.tt []

/-- Outcome of a realizability check: a verdict, or the "Internal error: Could not establish
realizability/unrealizability" exception (`synthesisAlgorithm.cpp:102-106`). -/
inductive Verdict where
  | realizable
  | unrealizable
  | internalError
  deriving DecidableEq, Repr

/-- `isConstant`/`isTrue` test at the end of the realizability check, `synthesisAlgorithm.cpp:102-109`. -/
def verdictOf (M : Mgr B) (result : B) : Verdict :=
  if result = M.tt then .realizable
  else if result = M.ff then .unrealizable
  else .internalError

end Slugs.Model
