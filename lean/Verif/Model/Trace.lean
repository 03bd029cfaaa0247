import Verif.Model.Explicit
import Verif.Spec.Trace

/-!
Model of `extensionAbstractWinningTraceGenerator.hpp`: `--computeAbstractWinningTrace`.
-/

namespace Slugs.Model

open Slugs.Spec (Cell)

variable {B : Type} [DecidableEq B]

/-- What is used of the variables: `preVars`, `postInputVars`, and the rows of the table (`extensionAbstractWinningTraceGenerator.hpp:221-249`): the names
and BFs of the input variables, then those of the output variables.  Simplification: variables with a `@` in their name are shown in groups; this is not
modelled, see `runTrace`. -/
structure TraceVars (B : Type) where
  preVars : List B
  postInputVars : List B
  rows : List (Name × B)

/-- The positions from which the player can force the next position to be in `X`, or that the other player violates a safety constraint.
`extensionAbstractWinningTraceGenerator.hpp:119,131,181-185`. -/
def forcePre (M : Mgr B) (c : Ctx B) (env : Bool) (X : B) : B :=
  if env then M.exPostInput (M.and c.safetyEnv (M.allPostOutput (M.or (M.swap X) (M.not c.safetySys))))
  else M.allPostInput (M.exPostOutput (M.imp c.safetyEnv (M.and c.safetySys (M.swap X))))

/-- The test for the initial positions, `extensionAbstractWinningTraceGenerator.hpp:121-122,134-135`. -/
def startTest (M : Mgr B) (c : Ctx B) (env : Bool) (W : B) : B :=
  if env then M.exPreInput (M.allPreOutput (M.or (M.not c.initSys) (M.and c.initEnv W)))
  else M.allPreInput (M.exPreOutput (M.imp c.initEnv (M.and c.initSys W)))

/-- The loops of `extensionAbstractWinningTraceGenerator.hpp:116-126,129-138`.  State: `winningPositions`, `oldWinningPositions` and `distances`
(last element first).  The flag of the result says whether `roundFoundInitPos>-1`. -/
def distanceLoop (M : Mgr B) (c : Ctx B) (env : Bool) : Nat → B → B → List B → Option (B × List B × Bool)
  | 0, _, _, _ => none
  | n + 1, W, old, ds =>
    if W = old then some (W, ds, false)
    else
      let W' := M.or W (forcePre M c env W)
      if startTest M c env W' = M.tt then some (W', W :: ds, true) else distanceLoop M c env n W' W (W :: ds)

/-- One attempt to restrict `distances[i]` (first component of the state) by a literal, when `distances[i+1]` is `pre`,
`extensionAbstractWinningTraceGenerator.hpp:167-190`.  The second component is `madeChange`. -/
def tryLiteral (M : Mgr B) (c : Ctx B) (env : Bool) (pre lit : B) (st : B × Bool) : B × Bool :=
  let candidatePost := M.and st.1 lit
  if M.or (forcePre M c env candidatePost) (M.not pre) = M.tt ∧ candidatePost ≠ st.1 then (candidatePost, true) else st

/-- Both cases for a variable, `extensionAbstractWinningTraceGenerator.hpp:164-191`.  (`foundARestriction` is never set.) -/
def tryVariable (M : Mgr B) (c : Ctx B) (env : Bool) (pre : B) (st : B × Bool) (v : B) : B × Bool :=
  tryLiteral M c env pre (M.not v) (tryLiteral M c env pre v st)

/-- The loop over `i`, `extensionAbstractWinningTraceGenerator.hpp:158-193`, from the last but one element of `distances` to the first one. -/
def restrictPass (M : Mgr B) (c : Ctx B) (env : Bool) (vs : List B) : B → List B → List B × Bool
  | _, [] => ([], false)
  | pre, d :: ds =>
    let r := vs.foldl (tryVariable M c env pre) (d, false)
    let rest := restrictPass M c env vs r.1 ds
    (r.1 :: rest.1, r.2 || rest.2)

/-- `while (madeChange)`, `extensionAbstractWinningTraceGenerator.hpp:154-194`. -/
def restrictLoop (M : Mgr B) (c : Ctx B) (env : Bool) (vs : List B) (start : B) : Nat → List B → Option (List B)
  | 0, _ => none
  | n + 1, ds =>
    let r := restrictPass M c env vs start ds
    if r.2 then restrictLoop M c env vs start n r.1 else some r.1

/-- The last input of the environment, `extensionAbstractWinningTraceGenerator.hpp:211-213`.  Simplification: `UnivAbstract(varCubePre)` is written as two
quantifications. -/
def lastInput (M : Mgr B) (c : Ctx B) (vs : List B) (distances1 : B) : B :=
  M.swap (determinize M vs
    (M.allPreInput (M.allPreOutput (M.allPostOutput (M.or (M.and c.safetyEnv (M.not c.safetySys)) (M.not distances1))))))

/-- `distances[0] = f(distances[1])`. -/
def replaceLast (f : B → B) : B → List B → List B
  | _, [] => []
  | pre, [_] => [f pre]
  | _, d :: d' :: ds => d :: replaceLast f d (d' :: ds)

/-- An entry of the table, `extensionAbstractWinningTraceGenerator.hpp:287-295,343-351`. -/
def cellOf (M : Mgr B) (d v : B) : Cell :=
  if d = M.ff then .X else if M.and d v = M.ff then .zero else if M.and d (M.not v) = M.ff then .one else .star

/-- What is printed for one player: nothing, the message that there is no strategy from an initial position, or a table.  Not modelled: the layout of the
table and the round numbers (0, 1, ...). -/
inductive TraceReport where
  | nothing
  | noStrategy
  | table (names : List Name) (columns : List (List Cell))
  deriving DecidableEq, Repr

/-- `computeAbstractStrategyTrace(env)`, `extensionAbstractWinningTraceGenerator.hpp:107-387`. -/
def computeTrace (M : Mgr B) (c : Ctx B) (vs : TraceVars B) (env : Bool) (fuel : Nat) : Option TraceReport :=
  match distanceLoop M c env fuel M.ff (M.not M.ff) [] with
  | none => none
  | some (_, _, false) => some .nothing
  | some (W, ds, true) =>
    let startingState := M.and (M.and c.initEnv c.initSys) W
    if startingState = M.ff then some .noStrategy
    else
      let start := determinize M vs.preVars startingState
      match restrictLoop M c env vs.preVars start fuel ds with
      | none => none
      | some ds =>
        let ds := if env then replaceLast (lastInput M c vs.postInputVars) start ds else ds
        some (.table (vs.rows.map Prod.fst) ((start :: ds).map fun d => vs.rows.map fun r => cellOf M d r.2))

/-- The variables of a table. -/
def traceVars (B : Type) [DecidableEq B] [L : BddLib B] (tab : VarTable) : TraceVars B where
  preVars := (varsOfType tab.types .pre).map L.var
  postInputVars := (varsOfType tab.types .postInput).map L.var
  rows := (varsOfType tab.types .preInput ++ varsOfType tab.types .preOutput).map fun k => (tab.names.getD k [], L.var k)

/-- What a run ends with. -/
inductive TraceOutcome where
  /-- the reports for the environment and for the system -/
  | reports (env sys : TraceReport)
  /-- some variable has a `@` in its name: not modelled -/
  | grouped
  | inputError (e : InitErr)
  | ub
  | running
  deriving DecidableEq, Repr

/-- `XAbstractWinningTraceGenerator<GR1Context>`: `init` and `execute` (`extensionAbstractWinningTraceGenerator.hpp:399-480`), for files in which no
variable has a `@` in its name. -/
def runTrace (B : Type) [DecidableEq B] [BddLib B] (cap : Nat) (order : List Char → Bool) (fuel : Nat) (text : List Char) : TraceOutcome :=
  match initContext (B := B) cap order text with
  | .ok (tab, c) =>
    if ((varsOfType tab.types .pre).map fun k => tab.names.getD k []).any (fun x => x.contains '@') then .grouped
    else
      match computeTrace (bddMgr B tab.types) c (traceVars B tab) true fuel, computeTrace (bddMgr B tab.types) c (traceVars B tab) false fuel with
      | some e, some s => .reports e s
      | _, _ => .running
  | .err e => .inputError e
  | .ub => .ub
  | .stuck => .running

end Slugs.Model
