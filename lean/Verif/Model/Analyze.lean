import Verif.Model.Run
import Verif.Model.Count
import Verif.Spec.Analyze

/-!
Model of `extensionAnalyzeInitialPositions.hpp`: `--analyzeInitialPositions [--restrictToReachableStates]`, without the lists of cubes.
-/

namespace Slugs.Model

open Slugs.Spec

variable {B : Type} [DecidableEq B] [L : BddLib B]

/-! ### Reading the file -/

/-- State while reading, `extensionAnalyzeInitialPositions.hpp:248-262`: additionally `variableLimits` and `readingVariableLimitLine`. -/
structure LimitState (B : Type) where
  st : InitState B
  limits : B
  marked : Bool

/-- Errors while reading. -/
inductive AnalyzeErr where
  | init (e : InitErr)
  /-- "Did not expect a variable limit comment in a liveness objective", `:335,343` -/
  | limitInLiveness
  deriving DecidableEq, Repr

/-- One line (already trimmed), `extensionAnalyzeInitialPositions.hpp:267-350`.  The code repeats the one of `GR1Context::init`; what is the same is modelled by
the same function. -/
def initLineLimits (cap : Nat) (order : List Char → Bool) (s : LimitState B) (line : List Char) : Res AnalyzeErr (LimitState B) :=
  match initLine cap order s.st line with
  | .ok st =>
    match line with
    | [] => .ok { s with st := st }
    | c :: _ =>
      if c = '#' then .ok { s with st := st, marked := if line.take 20 = txt!"## Variable limits: " then true else s.marked }
      else if c = '[' then .ok { s with st := st, marked := false }
      else
        match s.st.mode with
        | some .envInit =>
          match parseFormula s.st.table (allowedIn .envInit) cap order line with
          | .ok (some f) => .ok { st := st, limits := if s.marked then L.and s.limits f else s.limits, marked := false }
          | _ => .ub
        | some .sysInit =>
          match parseFormula s.st.table (allowedIn .sysInit) cap order line with
          | .ok (some f) => .ok { st := st, limits := if s.marked then L.and s.limits f else s.limits, marked := false }
          | _ => .ub
        | some .envLiveness => if s.marked then .err .limitInLiveness else .ok { s with st := st, marked := false }
        | some .sysLiveness => if s.marked then .err .limitInLiveness else .ok { s with st := st, marked := false }
        | _ => .ok { s with st := st, marked := false }
  | .err e => .err (.init e)
  | .ub => .ub
  | .stuck => .stuck

/-- The loop over the lines, `extensionAnalyzeInitialPositions.hpp:263-352`. -/
def initLinesLimits (cap : Nat) (order : List Char → Bool) : LimitState B → List (List Char) → Res AnalyzeErr (LimitState B)
  | s, [] => .ok s
  | s, l :: ls =>
    match initLineLimits cap order s (trim l) with
    | .ok s => initLinesLimits cap order s ls
    | .err e => .err e
    | .ub => .ub
    | .stuck => .stuck

/-- `XAnalyzeInitialPositions::init`, `extensionAnalyzeInitialPositions.hpp:237-363`. -/
def initContextLimits (cap : Nat) (order : List Char → Bool) (content : List Char) : Res AnalyzeErr (VarTable × Ctx B × B) :=
  match initLinesLimits cap order { st := initStart, limits := L.tt, marked := false } (splitLines content) with
  | .ok s =>
    if s.st.table.names.Nodup then
      .ok (s.st.table, { s.st.ctx with
        livenessAssumptions := if s.st.ctx.livenessAssumptions = [] then [L.tt] else s.st.ctx.livenessAssumptions
        livenessGuarantees := if s.st.ctx.livenessGuarantees = [] then [L.tt] else s.st.ctx.livenessGuarantees }, s.limits)
    else .err (.init .duplicateNames)
  | .err e => .err e
  | .ub => .ub
  | .stuck => .stuck

/-! ### The analysis -/

/-- Fixing the value of a variable. -/
def cofactorB (v : Nat) (b : Bool) (f : B) : B := L.exist [v] (L.and f (if b then L.var v else L.not (L.var v)))

/-- What `BFBdd::getNofSatisfyingAssignments` returns for a cube of the given variables (`none` is NaN), in terms of the contract of the BDD library.
`Model/Count.lean` models the function itself; by `getNof_spec` and `countB_eq` both compute the same. -/
def countB : List Nat → B → Option Nat
  | [], f => if f = L.tt then some 1 else if f = L.ff then some 0 else none
  | v :: vs, f => plus (countB vs (cofactorB v true f)) (countB vs (cofactorB v false f))

/-- The loop that computes the reachable positions, `extensionAnalyzeInitialPositions.hpp:193-198`.  The first argument bounds the number of rounds. -/
def reachLoop (M : Mgr B) (combined : B) : Nat → B → B → Option B
  | 0, _, _ => none
  | n + 1, reachableStates, oldReachableStates =>
    if reachableStates = oldReachableStates then some reachableStates
    else reachLoop M combined n (M.or reachableStates (M.swap (M.exPre (M.and reachableStates combined)))) reachableStates

/-- `extensionAnalyzeInitialPositions.hpp:189-200`: the restriction of `variableLimits`. -/
def restrictLimits (M : Mgr B) (c : Ctx B) (restrict : Bool) (fuel : Nat) (limits : B) : Option B :=
  if restrict then
    match reachLoop M (M.and c.safetyEnv c.safetySys) fuel (M.and c.initSys c.initEnv) M.ff with
    | none => none
    | some r => some (M.and limits r)
  else some limits

/-- The numbers that are printed, `extensionAnalyzeInitialPositions.hpp:202-222`; `none` is NaN.  Simplification: natural numbers instead of `double`s, i.e.
neither rounding nor the number of printed digits is modelled. -/
structure Analysis where
  nofPos : Option Nat
  nofPosA : Option Nat
  nofPosG : Option Nat
  nofPosAG : Option Nat
  nofWPos : Option Nat
  nofWPosA : Option Nat
  nofWPosG : Option Nat
  nofWPosAG : Option Nat
  nofInputs : Option Nat
  nofInputsSystemLosing : Option Nat
  nofAllowedInitialInputs : Option Nat
  deriving DecidableEq, Repr

/-- `extensionAnalyzeInitialPositions.hpp:202-214`. -/
def numbers (types : List VarType) (c : Ctx B) (winningPositions variableLimits : B) : Analysis :=
  let M := bddMgr B types
  let cubePre := varsOfTypes types [.preOutput, .preInput]
  let cubePreInput := varsOfTypes types [.preInput]
  { nofPos := countB cubePre variableLimits
    nofPosA := countB cubePre (M.and c.initEnv variableLimits)
    nofPosG := countB cubePre (M.and c.initSys variableLimits)
    nofPosAG := countB cubePre (M.and (M.and c.initEnv c.initSys) variableLimits)
    nofWPos := countB cubePre (M.and winningPositions variableLimits)
    nofWPosA := countB cubePre (M.and (M.and c.initEnv winningPositions) variableLimits)
    nofWPosG := countB cubePre (M.and (M.and c.initSys winningPositions) variableLimits)
    nofWPosAG := countB cubePre (M.and (M.and (M.and c.initEnv c.initSys) winningPositions) variableLimits)
    nofInputs := countB cubePreInput (M.exPreOutput variableLimits)
    nofInputsSystemLosing := countB cubePreInput
      (M.and (M.and c.initEnv variableLimits) (M.not (M.exPreOutput (M.and winningPositions c.initSys))))
    nofAllowedInitialInputs := countB cubePreInput (M.and c.initEnv (M.exPreOutput variableLimits)) }

/-- What a run ends with. -/
inductive AnalyzeOutcome where
  | numbers (a : Analysis)
  /-- "Internal error: Could not establish realizability/unrealizability", `synthesisAlgorithm.cpp:105` -/
  | internalError
  | inputError (e : AnalyzeErr)
  | ub
  | running
  deriving DecidableEq, Repr

/-- `XAnalyzeInitialPositions<GR1Context,restrict>`: `init`, `computeVariableInformation` and the part of `execute` up to line 221. -/
def runAnalyze (B : Type) [DecidableEq B] [BddLib B] (restrict : Bool) (cap : Nat) (order : List Char → Bool) (fuel : Nat) (text : List Char) :
    AnalyzeOutcome :=
  match initContextLimits (B := B) cap order text with
  | .ok (tab, c, limits) =>
    match checkRealizability .standard (bddMgr B tab.types) c fuel with
    | none => .running
    | some (.internalError, _) => .internalError
    | some (_, winningPositions, _) =>
      match restrictLimits (bddMgr B tab.types) c restrict fuel limits with
      | none => .running
      | some limits => .numbers (numbers tab.types c winningPositions limits)
  | .err e => .inputError e
  | .ub => .ub
  | .stuck => .running

end Slugs.Model
