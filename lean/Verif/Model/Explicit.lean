import Verif.Model.Variants
import Verif.Model.Run
import Verif.Spec.Explicit

/-!
Model of `tools.cpp` (determinisation) and of the extraction of explicit-state strategies
(`extensionExtractExplicitStrategy.hpp` and `extensionPermissiveExplicitStrategy.hpp`).
-/

namespace Slugs.Model

open Slugs.Spec (PState)

variable {B : Type} [DecidableEq B]

/-- `GR1Context::determinize`, `tools.cpp:19-29`. -/
def determinize (M : Mgr B) : List B → B → B
  | [], f => f
  | v :: vs, f =>
    let res := M.and f (M.not v)
    determinize M vs (if res = M.ff then M.and f v else res)

/-- `GR1Context::determinizeRandomized`, `tools.cpp:39-58`.  `rnd` lists the values of `rand()%2` (a missing value
counts as 0). -/
def determinizeRandomized (M : Mgr B) : List Bool → List B → B → B
  | _, [], f => f
  | rnd, v :: vs, f =>
    if rnd.headD false then
      let res := M.and f (M.not v)
      determinizeRandomized M rnd.tail vs (if res = M.ff then M.and f v else res)
    else
      let res := M.and f v
      determinizeRandomized M rnd.tail vs (if res = M.ff then M.and f (M.not v) else res)

/-- What the extraction uses of a context besides the specification: `preVars`, `postVars` (`gr1context.hpp:40-41`), and the
names and BFs of the variables that inherit the type `Pre`, in the order of the variable table
(`extensionExtractExplicitStrategy.hpp:164-174`). -/
structure Vars (B : Type) where
  preVars : List B
  postVars : List B
  labels : List (Name × B)

/-- `lookupTableForPastStates` (most recent write first), `bfsUsedInTheLookupTable` and `todoList`,
`extensionExtractExplicitStrategy.hpp:92-94`.  A key contains the pointer of a BDD node; as all nodes in the table are kept alive by
`bfsUsedInTheLookupTable`, pointers are equal if and only if the functions are, so that the model uses the function itself.  `R` is the type of the second component of
the keys: a goal here, a pair of an assumption and a guarantee in `extensionExtractExplicitCounterstrategy.hpp:95-97`. -/
structure Work (B : Type) (R : Type := Nat) where
  keys : List ((B × R) × Nat)
  bfs : List B
  todo : List (B × R)

/-- `lookupTableForPastStates[k]` for reading (an absent key is mapped to 0). -/
def Work.num {R : Type} [DecidableEq R] (w : Work B R) (k : B × R) : Nat := (w.keys.lookup k).getD 0

/-- Enter a new state: `lookupTableForPastStates[k] = bfs.size(); bfs.push_back(k.first); todoList.push_back(k)`,
`extensionExtractExplicitStrategy.hpp:101-104` and `:221-223`. -/
def Work.enter {R : Type} (w : Work B R) (k : B × R) : Work B R :=
  { keys := (k, w.bfs.length) :: w.keys, bfs := w.bfs ++ [k.1], todo := w.todo ++ [k] }

/-- The loop that collects the initial states, `extensionExtractExplicitStrategy.hpp:98-105` and
`extensionPermissiveExplicitStrategy.hpp:101-108`. -/
def initLoop (M : Mgr B) (vs : Vars B) : Nat → B → Work B → Option (Work B)
  | 0, _, _ => none
  | n + 1, todoInit, w =>
    if todoInit = M.ff then some w
    else
      let concreteState := determinize M vs.preVars todoInit
      initLoop M vs n (M.and todoInit (M.not concreteState)) (w.enter (concreteState, 0))

/-- Body of the loop over the dumping data, `extensionExtractExplicitStrategy.hpp:113-118`.
State: `casesCovered` and `strategy`. -/
def positionalStep (M : Mgr B) (st : B × B) (entry : B) : B × B :=
  let newCases := M.and (M.exPostOutput entry) (M.not st.1)
  (M.or st.1 newCases, M.or st.2 (M.and newCases entry))

/-- The positional strategy for goal `j`, `extensionExtractExplicitStrategy.hpp:108-121`. -/
def positional (M : Mgr B) (dump : Dump B) (j : Nat) : B :=
  (((dump.filter (fun e => e.1 == j)).map (fun e => e.2)).foldl (positionalStep M) (M.ff, M.ff)).2

/-- Body of the loop over the dumping data, `extensionPermissiveExplicitStrategy.hpp:118-125`.
State: `statesCovered`, `stateInputsCovered` and `strategy`. -/
def permissiveStep (M : Mgr B) (c : Ctx B) (st : B × B × B) (entry : B) : B × B × B :=
  let newCases := M.and (M.exPostOutput entry) (M.not st.1)
  let strategy := M.or st.2.2 (M.and (M.not st.1) entry)
  let stateInputsCovered := M.or st.2.1 newCases
  (M.allPostInput (M.or (M.not c.safetyEnv) stateInputsCovered), stateInputsCovered, strategy)

/-- The permissive positional strategy for goal `j`, `extensionPermissiveExplicitStrategy.hpp:111-128`. -/
def permissive (M : Mgr B) (c : Ctx B) (dump : Dump B) (j : Nat) : B :=
  (((dump.filter (fun e => e.1 == j)).map (fun e => e.2)).foldl (permissiveStep M c) (M.ff, M.ff, M.ff)).2.2

/-- The loop that moves on to the next goal, `extensionExtractExplicitStrategy.hpp:200-206`.  The first argument bounds the number
of rounds; `none` also stands for an access outside of `livenessGuarantees`. -/
def goalJump (M : Mgr B) (goals : List B) (comb : B) (cur : Nat) : Nat → Nat → Bool → Option Nat
  | 0, _, _ => none
  | n + 1, next, firstTry =>
    if next ≠ cur ∨ firstTry then
      match goals[next]? with
      | none => none
      | some G =>
        if M.and G comb = M.ff then some next
        else goalJump M goals comb cur n ((next + 1) % goals.length) false
    else some next

/-- The loop over the successors of a state, `extensionExtractExplicitStrategy.hpp:197-235` (`perm = false`) and
`extensionPermissiveExplicitStrategy.hpp:169-199` (`perm = true`; the only difference is what counts as captured).
Result: the tables and the numbers that are printed. -/
def succLoop (M : Mgr B) (c : Ctx B) (vs : Vars B) (perm : Bool) (rank : Nat) : Nat → B → Work B → List Nat →
    Option (Work B × List Nat)
  | 0, _, _, _ => none
  | n + 1, remaining, w, printed =>
    if remaining = M.ff then some (w, printed)
    else
      let newCombination := determinize M vs.postVars remaining
      match goalJump M c.livenessGuarantees newCombination rank (c.livenessGuarantees.length + 1) rank true with
      | none => none
      | some next =>
        let inputCaptured := if perm then newCombination else M.exPostOutput newCombination
        let target := (M.swap (M.exPre newCombination), next)
        let w' := if w.keys.lookup target = none then w.enter target else w
        succLoop M c vs perm rank n (M.and remaining (M.not inputCaptured)) w' (printed ++ [w'.num target])

/-- The values that are printed for a state, `extensionExtractExplicitStrategy.hpp:164-174`. -/
def labelOf (M : Mgr B) (vs : Vars B) (f : B) : List (Name × Bool) :=
  vs.labels.map fun v => (v.1, if M.and f v.2 = M.ff then false else true)

/-- The main loop, `extensionExtractExplicitStrategy.hpp:144-251` and `extensionPermissiveExplicitStrategy.hpp:131-201`.
`strategy` are the positional strategies, `recovery` is the template parameter `oneStepRecovery`.  Result: the printed states. -/
def extractLoop (M : Mgr B) (c : Ctx B) (vs : Vars B) (perm recovery : Bool) (strategy : Nat → B) (fuel : Nat) :
    Nat → Work B → List PState → Option (List PState)
  | 0, _, _ => none
  | n + 1, w, out =>
    match w.todo with
    | [] => some out
    | cur :: rest =>
      let w := { w with todo := rest }
      let stateNum := w.num cur
      match w.bfs[stateNum]? with
      | none => none
      | some f =>
        let currentPossibilities := M.and f (strategy cur.2)
        let remaining := if recovery then currentPossibilities else M.and currentPossibilities c.safetyEnv
        match succLoop M c vs perm cur.2 fuel remaining w [] with
        | none => none
        | some (w', succ) =>
          extractLoop M c vs perm recovery strategy fuel n w'
            (out ++ [{ num := stateNum, rank := cur.2, label := labelOf M vs f, succ := succ }])

/-- `computeAndPrintExplicitStateStrategy`, `extensionExtractExplicitStrategy.hpp:83-256` (`perm = false`) and
`extensionPermissiveExplicitStrategy.hpp:86-202` (`perm = true`).  The order of the printed states and of the successors is that of the
program.  Not modelled: the punctuation around the numbers and names that are printed. -/
def extractStrategy (M : Mgr B) (c : Ctx B) (vs : Vars B) (perm recovery : Bool) (fuel : Nat) (winningPositions : B)
    (dump : Dump B) : Option (List PState) :=
  let todoInit :=
    if perm then winningPositions
    else if recovery then M.and winningPositions c.initSys
    else M.and (M.and winningPositions c.initSys) c.initEnv
  match initLoop M vs fuel todoInit { keys := [], bfs := [], todo := [] } with
  | none => none
  | some w =>
    extractLoop M c vs perm recovery (if perm then permissive M c dump else positional M dump) fuel fuel w []

/-- The variables of a table as BFs: `preVars` and `postVars` (`variableManager.cpp:170-179`), and the names and BFs of the variables that
inherit the type `Pre`. -/
def tableVars (B : Type) [DecidableEq B] [L : BddLib B] (tab : VarTable) : Vars B where
  preVars := (varsOfType tab.types .pre).map L.var
  postVars := (varsOfType tab.types .post).map L.var
  labels := (varsOfType tab.types .pre).map fun k => (tab.names.getD k [], L.var k)

/-- What a run with strategy extraction ends with. -/
inductive ExplicitOutcome where
  /-- realizable; the states are printed -/
  | strategy (states : List PState)
  /-- no strategy is printed; the message is that of a run without strategy extraction -/
  | none (o : Outcome)
  deriving DecidableEq, Repr

/-- A run of `XExtractExplicitStrategy<T,recovery,_>` (`perm = false`, `extensionExtractExplicitStrategy.hpp:52-73`) or of
`XExtractPermissiveExplicitStrategy<T,recovery>` (`perm = true`, `extensionPermissiveExplicitStrategy.hpp:55-76`) with `T` equal to
`GR1Context` or `XRoboticsSemantics<GR1Context>`.  Not modelled: that the output file cannot be written. -/
def runExplicit (B : Type) [DecidableEq B] [BddLib B] (alg : Algorithm) (robotics perm recovery : Bool) (cap : Nat) (order : List Char → Bool)
    (fuel : Nat) (text : List Char) : ExplicitOutcome :=
  match initContext (B := B) cap order text with
  | .ok (tab, ctx) =>
    let M := bddMgr B tab.types
    let r := if robotics then checkRealizabilityRobotics alg M ctx fuel else checkRealizability alg M ctx fuel
    match r with
    | some (.realizable, winningPositions, dump) =>
      match extractStrategy M ctx (tableVars B tab) perm recovery fuel winningPositions dump with
      | some sts => .strategy sts
      | none => .none .running
    | _ => .none (outcomeOf r)
  | .err e => .none (.inputError e)
  | .ub => .none .ub
  | .stuck => .none .running

end Slugs.Model
