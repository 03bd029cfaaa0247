import Verif.Model.Run
import Verif.Spec.Assumptions

/-!
Model of `extensionAnalyzeAssumptions.hpp`: `--analyzeAssumptions`.  Not modelled: the files for debugging that are written to `/tmp` (`:282,302,303`).
-/

namespace Slugs.Model

open Slugs.Spec

/-! ### Reading the file -/

section
variable {B : Type} [DecidableEq B] [L : BddLib B]

/-- State while reading, `extensionAnalyzeAssumptions.hpp:30-34,58-68`: additionally `safetyEnvParts`, `safetyEnvPartNames`, `livenessEnvPartNames` and
`currentPropertyName`. -/
structure PartState (B : Type) where
  st : InitState B
  parts : List B
  safetyNames : List (List Char)
  livenessNames : List (List Char)
  current : List Char

/-- The name of the `k`-th assumption, `extensionAnalyzeAssumptions.hpp:120-126,141-147`. -/
def partName (default current : List Char) (k : Nat) : List Char :=
  if current.length > 0 then current else default ++ Nat.toDigits 10 k

/-- One line (already trimmed), `extensionAnalyzeAssumptions.hpp:72-162`.  The code repeats the one of `GR1Context::init`; what is the same is modelled by
the same function (which skips lines that start with `#`). -/
def initLineParts (cap : Nat) (order : List Char → Bool) (s : PartState B) (line : List Char) : Res InitErr (PartState B) :=
  match initLine cap order s.st line with
  | .ok st =>
    if line.take 2 = ['#', '#'] then .ok { s with st := st, current := trim (line.drop 2) }
    else
      match line with
      | [] => .ok { s with st := st }
      | c :: _ =>
        if c = '#' then .ok { s with st := st }
        else if c = '[' then .ok { s with st := st }
        else
          match s.st.mode with
          | some .envTrans =>
            match parseFormula s.st.table (allowedIn .envTrans) cap order line with
            | .ok (some f) =>
              .ok { s with
                st := st
                parts := s.parts ++ [f]
                safetyNames := s.safetyNames ++ [partName txt!"Safety Assumption " s.current (s.parts.length + 1)]
                current := [] }
            | _ => .ub
          | some .envLiveness =>
            .ok { s with
              st := st
              livenessNames := s.livenessNames ++ [partName txt!"Liveness Assumption " s.current st.ctx.livenessAssumptions.length]
              current := [] }
          | _ => .ok { s with st := st, current := [] }
  | .err e => .err e
  | .ub => .ub
  | .stuck => .stuck

/-- The loop over the lines, `extensionAnalyzeAssumptions.hpp:69-163`. -/
def initLinesParts (cap : Nat) (order : List Char → Bool) : PartState B → List (List Char) → Res InitErr (PartState B)
  | s, [] => .ok s
  | s, l :: ls =>
    match initLineParts cap order s (trim l) with
    | .ok s => initLinesParts cap order s ls
    | .err e => .err e
    | .ub => .ub
    | .stuck => .stuck

/-- What `init` stores. -/
structure Loaded (B : Type) where
  table : VarTable
  ctx : Ctx B
  parts : List B
  safetyNames : List (List Char)
  livenessNames : List (List Char)

/-- `XAnalyzeAssumptions::init`, `extensionAnalyzeAssumptions.hpp:47-176`. -/
def initContextParts (cap : Nat) (order : List Char → Bool) (content : List Char) : Res InitErr (Loaded B) :=
  match initLinesParts cap order { st := initStart, parts := [], safetyNames := [], livenessNames := [], current := [] } (splitLines content) with
  | .ok s =>
    if s.st.table.names.Nodup then
      .ok
        { table := s.st.table
          ctx := { s.st.ctx with
            livenessAssumptions := if s.st.ctx.livenessAssumptions = [] then [L.tt] else s.st.ctx.livenessAssumptions
            livenessGuarantees := if s.st.ctx.livenessGuarantees = [] then [L.tt] else s.st.ctx.livenessGuarantees }
          parts := s.parts
          safetyNames := s.safetyNames
          livenessNames := if s.st.ctx.livenessAssumptions = [] then
              s.livenessNames ++ [txt!"Automatically added TRUE liveness assumption"]
            else s.livenessNames }
    else .err .duplicateNames
  | .err e => .err e
  | .ub => .ub
  | .stuck => .stuck
end

/-! ### Winning positions with distances -/

variable {B : Type} [DecidableEq B]

/-- The loop over the liveness assumptions, `extensionAnalyzeAssumptions.hpp:223-245`; the innermost loop (`:227-239`) is the same as in `GR1Context`.
State: `goodForAnyLivenessAssumption` and `allFoundPaths`. -/
def assumptionLoopD (M : Mgr B) (c : Ctx B) (fuel : Nat) (livetransitions : B) : List B → B × B → Option (B × B)
  | [], st => some st
  | a :: as, (good, all) =>
    match nu0Loop M c fuel livetransitions a with
    | none => none
    | some (nu0, foundPaths) => assumptionLoopD M c fuel livetransitions as (M.or good nu0, M.or all foundPaths)

/-- Body of the middle loop, `extensionAnalyzeAssumptions.hpp:213-249`.  State: `livetransitions`, `distanceStorage[j]` and
`overapproximativeWinningStrategy.back()`. -/
def mu1StepD (M : Mgr B) (c : Ctx B) (fuel : Nat) (mu1 : B) (st : B × (List B × List B)) : Option (B × (B × (List B × List B))) :=
  let livetransitions := M.or st.1 (M.swap mu1)
  match assumptionLoopD M c fuel livetransitions c.livenessAssumptions (mu1, M.ff) with
  | none => none
  | some (good, all) => some (good, (livetransitions, (st.2.1 ++ [good], st.2.2 ++ [all])))

/-- The middle least fixed point, `extensionAnalyzeAssumptions.hpp:207-249`. -/
def mu1LoopD (M : Mgr B) (c : Ctx B) (fuel : Nat) (nu2 goal : B) : Option (B × (B × (List B × List B))) :=
  fixLoop (mu1StepD M c fuel) fuel M.ff (M.and goal (M.swap nu2), ([], []))

/-- The loop over the liveness guarantees, `extensionAnalyzeAssumptions.hpp:203-251`.  State: `nextContraintsForGoals`, `distanceStorage` and
`overapproximativeWinningStrategy`. -/
def goalLoopD (M : Mgr B) (c : Ctx B) (fuel : Nat) (nu2 : B) : List B → B × (List (List B) × List (List B)) → Option (B × (List (List B) × List (List B)))
  | [], st => some st
  | goal :: goals, (next, (dist, strat)) =>
    match mu1LoopD M c fuel nu2 goal with
    | none => none
    | some (mu1, (_, (d, s))) => goalLoopD M c fuel nu2 goals (M.and next mu1, (dist ++ [d], strat ++ [s]))

/-- `computeReactiveDistancesAndWinningPositions`, `extensionAnalyzeAssumptions.hpp:196-255`.  Both storages are cleared in every round of the
outermost loop. -/
def reactiveDistances (M : Mgr B) (c : Ctx B) (fuel : Nat) : Option (B × (List (List B) × List (List B))) :=
  fixLoop (fun nu2 _ => goalLoopD M c fuel nu2 c.livenessGuarantees (M.tt, ([], []))) fuel M.tt ([], [])

/-! ### The most general strategy -/

/-- `goalStrategies[i]`, `extensionAnalyzeAssumptions.hpp:274-281`.  State: `casesCovered` and `strategy`. -/
def goalStrategy (M : Mgr B) (layers : List B) : B :=
  (layers.foldl (fun (st : B × B) f =>
    let newCases := M.and (M.exPostOutput f) (M.not st.1)
    (M.or st.1 newCases, M.or st.2 (M.and newCases f))) (M.ff, M.ff)).2

/-- The inner loop of the computation of the reachable positions, `extensionAnalyzeAssumptions.hpp:291-296`.  State: `transitionPoints`. -/
def reachInner (M : Mgr B) (strategy goal : B) (fuel : Nat) (transitionPoints : B) : Option (B × B) :=
  fixLoop (fun x tp =>
    let nextTransitions := M.and x strategy
    some (M.or x (M.swap (M.exPre nextTransitions)), M.or tp (M.swap (M.exPre (M.and nextTransitions goal))))) fuel transitionPoints transitionPoints

/-- `extensionAnalyzeAssumptions.hpp:290-298`, for strategies paired with their goals.  State: `all` and `transitionPoints`. -/
def reachGoals (M : Mgr B) (fuel : Nat) : List (B × B) → B × B → Option (B × B)
  | [], st => some st
  | (strategy, goal) :: rest, (all, tp) =>
    match reachInner M strategy goal fuel tp with
    | none => none
    | some (x, tp) => reachGoals M fuel rest (M.or all x, tp)

/-- `reachablePositionsInMostGeneralStrategy`, `extensionAnalyzeAssumptions.hpp:286-301`. -/
def reachableInGeneral (M : Mgr B) (c : Ctx B) (fuel : Nat) (strat : List (List B)) : Option B :=
  (fixLoop (fun x tp => reachGoals M fuel ((strat.map (goalStrategy M)).zip c.livenessGuarantees) (x, tp)) fuel
    (M.and c.initEnv c.initSys) (M.and c.initEnv c.initSys)).map Prod.fst

/-! ### Findings -/

/-- What is printed about an assumption. -/
inductive Finding where
  /-- "is crucially needed.", `:369,434` -/
  | crucial
  /-- "makes more positions winning, which helps for satisfying the GR(1) robotics semantics." (`true`, `:323,394`) or
  "makes more positions winning, but without any effect of the GR(1) robotics semantics." (`false`, `:325,396`) -/
  | morePositions (robotics : Bool)
  /-- "is redundant and implied by the other safety assumptions.", `:330` -/
  | redundant
  /-- "makes reaching the system goals ... easier for the system.", `:351-361,419-429`: the numbers of the goals, and whether
  "(but not in most general stategy)" is missing -/
  | easier (goals : List (Nat × Bool))
  /-- "is superfluous.", `:364,431` -/
  | superfluous
  deriving DecidableEq, Repr

/-- `a < b` for Boolean functions, `BFCudd.h:125`. -/
def Mgr.lt (M : Mgr B) (a b : B) : Prop := M.imp a b = M.tt ∧ a ≠ b

instance (M : Mgr B) (a b : B) : Decidable (M.lt a b) := inferInstanceAs (Decidable (_ ∧ _))

/-- The check for realizability, `extensionAnalyzeAssumptions.hpp:263,319,390`. -/
def passes (M : Mgr B) (c : Ctx B) (winningPositions : B) : Prop :=
  M.allPreInput (M.imp c.initEnv (M.exPreOutput (M.and winningPositions c.initSys))) = M.tt

instance (M : Mgr B) (c : Ctx B) (w : B) : Decidable (passes M c w) := inferInstanceAs (Decidable (_ = _))

/-- The comparison of the distances of one goal, `extensionAnalyzeAssumptions.hpp:335-348,403-416`: `none` if `neededHere` is false and
`some neededInMostGeneralStrategy` otherwise.  The index is always in range since a list of distances is never empty. -/
def compareGoal (M : Mgr B) (ref new : List B) (reachable : B) : Option Bool :=
  let diffs := (new.zipIdx.map fun p => (ref.getD (min (ref.length - 1) p.2) M.ff, p.1)).filter fun p => p.1 ≠ p.2
  if diffs = [] then none
  else some (diffs.any fun p => M.and (M.and p.1 (M.not p.2)) reachable ≠ M.ff)

/-- The comparison of all distances, `extensionAnalyzeAssumptions.hpp:333-365,401-432`; the goals have the numbers `0,1,...`. -/
def compareDistances (M : Mgr B) (ref new : List (List B)) (reachable : B) : Finding :=
  let needs := ((ref.zip new).zipIdx.filterMap fun p => (compareGoal M p.1.1 p.1.2 reachable).map fun b => (p.2, b))
  if needs = [] then .superfluous else .easier needs

/-- What is printed, `extensionAnalyzeAssumptions.hpp:319-370,390-435`.  `redundant` is `oldSafetyEnv==safetyEnv` for safety assumptions (`:329`); it is
not tested for liveness assumptions. -/
def finding (M : Mgr B) (c : Ctx B) (refW : B) (refD : List (List B)) (reachable : B) (redundant : Prop) [Decidable redundant] (newW : B)
    (newD : List (List B)) : Finding :=
  if passes M c newW then
    if M.lt newW refW then .morePositions (decide (M.lt (M.and newW c.initEnv) (M.and refW c.initEnv)))
    else if redundant then .redundant
    else compareDistances M refD newD reachable
  else .crucial

/-- The conjunction of all parts but the `i`-th, `extensionAnalyzeAssumptions.hpp:309-312`. -/
def safetyWithout (M : Mgr B) (parts : List B) (i : Nat) : B :=
  parts.zipIdx.foldl (fun acc p => if i ≠ p.2 then M.and acc p.1 else acc) M.tt

/-- All liveness assumptions but the `i`-th, `extensionAnalyzeAssumptions.hpp:380-383`. -/
def livenessWithout (as : List B) (i : Nat) : List B :=
  as.zipIdx.filterMap fun p => if i ≠ p.2 then some p.1 else none

/-- The loops over the assumptions, `extensionAnalyzeAssumptions.hpp:306-437`.  Line 379 sets `safetyEnv` to true for the liveness assumptions. -/
def findings (M : Mgr B) (c : Ctx B) (parts : List B) (fuel : Nat) (refW : B) (refD : List (List B)) (reachable : B) :
    Option (List Finding × List Finding) :=
  match (List.range parts.length).mapM fun i =>
      (reactiveDistances M { c with safetyEnv := safetyWithout M parts i } fuel).map fun r =>
        finding M c refW refD reachable (c.safetyEnv = safetyWithout M parts i) r.1 r.2.1 with
  | none => none
  | some safety =>
    match (List.range c.livenessAssumptions.length).mapM fun i =>
        (reactiveDistances M { c with safetyEnv := M.tt, livenessAssumptions := livenessWithout c.livenessAssumptions i } fuel).map fun r =>
          finding M c refW refD reachable False r.1 r.2.1 with
    | none => none
    | some liveness => some (safety, liveness)

/-- What is printed after the file has been read. -/
inductive Report where
  /-- "Starting with an unrealizable specification --> Analyzing the assumptions does not make sense.", `:266` -/
  | unrealizable
  /-- "Starting with a realizable specification (in the standard GR(1) semantics)." (`:264`), and then one line for each safety assumption and one line
  for each liveness assumption -/
  | findings (safety liveness : List Finding)
  deriving DecidableEq, Repr

/-- `XAnalyzeAssumptions::execute`, `extensionAnalyzeAssumptions.hpp:258-438`. -/
def analyzeAssumptions (M : Mgr B) (c : Ctx B) (parts : List B) (fuel : Nat) : Option Report :=
  match reactiveDistances M c fuel with
  | none => none
  | some (refW, (refD, strat)) =>
    if passes M c refW then
      match reachableInGeneral M c fuel strat with
      | none => none
      | some reachable => (findings M c parts fuel refW refD reachable).map fun r => .findings r.1 r.2
    else some .unrealizable

/-- What a run ends with. -/
inductive AssumptionsOutcome where
  | unrealizable
  /-- the names of the assumptions and what is printed about them -/
  | report (safety liveness : List (List Char × Finding))
  | inputError (e : InitErr)
  | ub
  | running
  deriving DecidableEq, Repr

/-- A run with `--analyzeAssumptions`: `init`, `computeVariableInformation` and `execute`. -/
def runAssumptions (B : Type) [DecidableEq B] [BddLib B] (cap : Nat) (order : List Char → Bool) (fuel : Nat) (text : List Char) : AssumptionsOutcome :=
  match initContextParts (B := B) cap order text with
  | .ok l =>
    match analyzeAssumptions (bddMgr B l.table.types) l.ctx l.parts fuel with
    | none => .running
    | some .unrealizable => .unrealizable
    | some (.findings safety liveness) => .report (l.safetyNames.zip safety) (l.livenessNames.zip liveness)
  | .err e => .inputError e
  | .ub => .ub
  | .stuck => .running

end Slugs.Model
