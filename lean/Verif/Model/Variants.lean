import Verif.Model.Synthesis

/-!
The overridden versions of `computeWinningPositions` that solve the same game: `extensionFixedPointRecycling.hpp` and
`extensionBiasForAction.hpp`.
-/

namespace Slugs.Model

variable {B : Type} [DecidableEq B]

/-! ### Recycling of innermost fixed points -/

/-- `recyclingInnermostFixedPoints`, `extensionFixedPointRecycling.hpp:43-46`, indexed by goal and assumption.  `none`
is a default-constructed `BF` (`resize(m)`), on which no operation is possible. -/
abbrev Recycled (B : Type) := Nat → Nat → Option B

/-- Assignment to a cell of the table, `extensionFixedPointRecycling.hpp:105`. -/
def Recycled.set (r : Recycled B) (j i : Nat) (b : B) : Recycled B :=
  fun j' i' => if j' = j ∧ i' = i then some b else r j' i'

/-- The start value of the innermost loop, `extensionFixedPointRecycling.hpp:91`.  `none` if an unassigned cell of the
table would be used. -/
def recycledStart (M : Mgr B) (recycle : Bool) (cell : Option B) (nu2 : B) : Option B :=
  if recycle then cell.map (fun b => M.and b nu2) else some nu2

/-- The loop over the liveness assumptions, `extensionFixedPointRecycling.hpp:84-110`; the body of the innermost loop
(`:92-100`) is the same as that of `GR1Context`.  State: `goodForAnyLivenessAssumption`, `strategyDumpingData` and the
table.  `recycle` is `firstMiddle && !firstOutermost`.  The outcome `none` also stands for the use of an unassigned
cell of the table. -/
def assumptionLoopRecycling (M : Mgr B) (c : Ctx B) (fuel j : Nat) (nu2 livetransitions : B) (recycle : Bool) :
    Nat → List B → B × (Dump B × Recycled B) → Option (B × (Dump B × Recycled B))
  | _, [], st => some st
  | i, a :: as, (good, (dump, rec)) =>
    match recycledStart M recycle (rec j i) nu2 with
    | none => none
    | some start =>
      match fixLoop (nu0Step M c livetransitions a) fuel start M.tt with
      | none => none
      | some (nu0, foundPaths) =>
        assumptionLoopRecycling M c fuel j nu2 livetransitions recycle (i + 1) as
          (M.or good nu0, (dump ++ [(j, foundPaths)], rec.set j i nu0))

/-- Body of the middle loop, `extensionFixedPointRecycling.hpp:76-116`.  State: `livetransitions`,
`strategyDumpingData`, the table and `firstMiddle`. -/
def mu1StepRecycling (M : Mgr B) (c : Ctx B) (fuel j : Nat) (nu2 : B) (firstOutermost : Bool) (mu1 : B)
    (st : B × (Dump B × (Recycled B × Bool))) : Option (B × (B × (Dump B × (Recycled B × Bool)))) :=
  let livetransitions := M.or st.1 (M.swap mu1)
  match assumptionLoopRecycling M c fuel j nu2 livetransitions (st.2.2.2 && !firstOutermost) 0 c.livenessAssumptions
      (mu1, (st.2.1, st.2.2.1)) with
  | none => none
  | some (good, (dump, rec)) => some (good, (livetransitions, (dump, (rec, false))))

/-- The middle least fixed point for goal number `j`, `extensionFixedPointRecycling.hpp:69-116`. -/
def mu1LoopRecycling (M : Mgr B) (c : Ctx B) (fuel j : Nat) (nu2 : B) (firstOutermost : Bool) (goal : B) (dump : Dump B)
    (rec : Recycled B) : Option (B × (B × (Dump B × (Recycled B × Bool)))) :=
  fixLoop (mu1StepRecycling M c fuel j nu2 firstOutermost) fuel M.ff (M.and goal (M.swap nu2), (dump, (rec, true)))

/-- The loop over the liveness guarantees, `extensionFixedPointRecycling.hpp:63-120`. -/
def goalLoopRecycling (M : Mgr B) (c : Ctx B) (fuel : Nat) (nu2 : B) (firstOutermost : Bool) :
    Nat → List B → B × (Dump B × Recycled B) → Option (B × (Dump B × Recycled B))
  | _, [], st => some st
  | j, goal :: goals, (next, (dump, rec)) =>
    match mu1LoopRecycling M c fuel j nu2 firstOutermost goal dump rec with
    | none => none
    | some (mu1, (_, (dump, (rec, _)))) =>
      goalLoopRecycling M c fuel nu2 firstOutermost (j + 1) goals (M.and next mu1, (dump, rec))

/-- Body of the outermost loop, `extensionFixedPointRecycling.hpp:52-126`.  State: `strategyDumpingData`, the table and
`firstOutermost`. -/
def nu2StepRecycling (M : Mgr B) (c : Ctx B) (fuel : Nat) (nu2 : B) (st : Dump B × (Recycled B × Bool)) :
    Option (B × (Dump B × (Recycled B × Bool))) :=
  match goalLoopRecycling M c fuel nu2 st.2.2 0 c.livenessGuarantees (M.tt, ([], st.2.1)) with
  | none => none
  | some (next, (dump, rec)) => some (next, (dump, (rec, false)))

/-- `XFixedPointRecycling::computeWinningPositions`, `extensionFixedPointRecycling.hpp:34-130`. -/
def computeWinningPositionsRecycling (M : Mgr B) (c : Ctx B) (fuel : Nat) : Option (B × Dump B) :=
  match fixLoop (nu2StepRecycling M c fuel) fuel M.tt ([], (fun _ _ => none, true)) with
  | none => none
  | some (winningPositions, (dump, _)) => some (winningPositions, dump)

/-! ### Bias for action -/

/-- Body of the additional loop, `extensionBiasForAction.hpp:55-61`.  State: `strategyDumpingData`. -/
def mu1bStep (M : Mgr B) (c : Ctx B) (j : Nat) (livetransitions : B) (mu1b : B) (dump : Dump B) :
    Option (B × Dump B) :=
  let foundPaths := M.or livetransitions (M.swap mu1b)
  let foundPaths := M.and foundPaths c.safetySys
  some (M.allPostInput (M.exPostOutput (M.imp c.safetyEnv foundPaths)), dump ++ [(j, foundPaths)])

/-- Body of the middle loop, `extensionBiasForAction.hpp:50-84`: the loop over the assumptions (`:65-81`) is the same
as in `GR1Context`, but starts with the value of the additional loop. -/
def mu1StepBias (M : Mgr B) (c : Ctx B) (fuel j : Nat) (mu1 : B) (st : B × Dump B) : Option (B × (B × Dump B)) :=
  let livetransitions := M.or st.1 (M.swap mu1)
  match fixLoop (mu1bStep M c j livetransitions) fuel mu1 st.2 with
  | none => none
  | some (mu1b, dump) =>
    match assumptionLoop M c fuel j livetransitions c.livenessAssumptions (mu1b, dump) with
    | none => none
    | some (good, dump) => some (good, (livetransitions, dump))

/-- The middle least fixed point for goal number `j`, `extensionBiasForAction.hpp:47-84`. -/
def mu1LoopBias (M : Mgr B) (c : Ctx B) (fuel j : Nat) (nu2 goal : B) (dump : Dump B) : Option (B × (B × Dump B)) :=
  fixLoop (mu1StepBias M c fuel j) fuel M.ff (M.and goal (M.swap nu2), dump)

/-- The loop over the liveness guarantees, `extensionBiasForAction.hpp:43-87`. -/
def goalLoopBias (M : Mgr B) (c : Ctx B) (fuel : Nat) (nu2 : B) : Nat → List B → B × Dump B → Option (B × Dump B)
  | _, [], st => some st
  | j, goal :: goals, (next, dump) =>
    match mu1LoopBias M c fuel j nu2 goal dump with
    | none => none
    | some (mu1, (_, dump)) => goalLoopBias M c fuel nu2 (j + 1) goals (M.and next mu1, dump)

/-- Body of the outermost loop, `extensionBiasForAction.hpp:40-90`. -/
def nu2StepBias (M : Mgr B) (c : Ctx B) (fuel : Nat) (nu2 : B) (_dump : Dump B) : Option (B × Dump B) :=
  goalLoopBias M c fuel nu2 0 c.livenessGuarantees (M.tt, [])

/-- `XBiasForAction::computeWinningPositions`, `extensionBiasForAction.hpp:37-93`. -/
def computeWinningPositionsBias (M : Mgr B) (c : Ctx B) (fuel : Nat) : Option (B × Dump B) :=
  fixLoop (nu2StepBias M c fuel) fuel M.tt []

/-! ### Selection by the command line -/

/-- The class that implements `computeWinningPositions`: `GR1Context`, `XFixedPointRecycling<GR1Context>`
(`--fixedPointRecycling`) or `XBiasForAction<GR1Context>` (`--biasForAction`), `main.cpp:111-253`. -/
inductive Algorithm where
  | standard
  | recycling
  | bias
  deriving DecidableEq, Repr

/-- Dispatch of the virtual function `computeWinningPositions`, `gr1context.hpp:78`. -/
def solve (alg : Algorithm) (M : Mgr B) (c : Ctx B) (fuel : Nat) : Option (B × Dump B) :=
  match alg with
  | .standard => computeWinningPositions M c fuel
  | .recycling => computeWinningPositionsRecycling M c fuel
  | .bias => computeWinningPositionsBias M c fuel

/-- `GR1Context::checkRealizability`, `synthesisAlgorithm.cpp:94-110`. -/
def checkRealizability (alg : Algorithm) (M : Mgr B) (c : Ctx B) (fuel : Nat) : Option (Verdict × B × Dump B) :=
  match solve alg M c fuel with
  | none => none
  | some (winningPositions, dump) =>
    let result := M.allPreInput (M.imp c.initEnv (M.exPreOutput (M.and winningPositions c.initSys)))
    some (verdictOf M result, winningPositions, dump)

/-- `XRoboticsSemantics::checkRealizability`, `extensionRoboticsSemantics.hpp:26-38`. -/
def checkRealizabilityRobotics (alg : Algorithm) (M : Mgr B) (c : Ctx B) (fuel : Nat) : Option (Verdict × B × Dump B) :=
  match solve alg M c fuel with
  | none => none
  | some (winningPositions, dump) =>
    let result := M.allPreInput (M.allPreOutput (M.imp (M.and c.initEnv c.initSys) winningPositions))
    some (verdictOf M result, winningPositions, dump)

end Slugs.Model
