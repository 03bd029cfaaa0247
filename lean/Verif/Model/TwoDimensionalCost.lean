import Verif.Model.Explicit
import Mathlib.Order.Defs.LinearOrder

/-!
Model of `extensionTwoDimensionalCost.hpp`: `--twoDimensionalCost`, alone or together with `--sysInitRoboticsSemantics`, `--explicitStrategy`, `--simpleRecovery`,
`--jsonOutput` and `--extractExplicitPermissiveStrategy`.  Not modelled: the files for debugging and the messages that are written to `stderr`, and `assert`.
-/

namespace Slugs.Model

open Slugs.Spec

variable {B : Type} [DecidableEq B] {D : Type} [LinearOrder D]

/-- The numbers of type `double` and the operations on them that the program uses.  Simplification: the numbers are linearly ordered, i.e. there is no NaN, and 0 and -0
are the same number.  `next` is `nextafter(x,std::numeric_limits<double>::max())`; `read` is `is >> x` and gives what is left of the stream (`none` if it fails). -/
structure Doubles (D : Type) where
  zero : D
  infinity : D
  add : D → D → D
  sub : D → D → D
  mul : D → D → D
  ofNat : Nat → D
  next : D → D
  read : List Char → Option (D × List Char)

/-- Cost preference data, `extensionTwoDimensionalCost.hpp:131-133`. -/
structure Preference (D : Type) where
  waiting : D
  action : D
  waitingPreferred : Bool

/-- `TwoDimensionalCostNotionTuple`, `extensionTwoDimensionalCost.hpp:6-11`.  (The field `preference` is the same for all tuples.)  Simplification: the waiting cost, an `int`, does not
overflow. -/
structure CostTuple (D : Type) where
  combined : D
  action : D
  waiting : Nat
  deriving DecidableEq

/-- The constructor, `extensionTwoDimensionalCost.hpp:20-32`, as called by `MK_COST_TUPLE(x,y)`, `:310`. -/
def mkTuple (N : Doubles D) (p : Preference D) (waiting : Nat) (action : D) : CostTuple D where
  combined :=
    if N.zero < p.action then
      if action = N.infinity then N.infinity
      else N.add (N.mul p.waiting (N.ofNat waiting)) (N.mul p.action action)
    else N.mul p.waiting (N.ofNat waiting)
  action := action
  waiting := waiting

/-- `operator <`, `extensionTwoDimensionalCost.hpp:34-53`. -/
def CostTuple.lt (pref : Bool) (s t : CostTuple D) : Bool :=
  if s.combined < t.combined then true
  else if t.combined < s.combined then false
  else if pref then
    if s.waiting < t.waiting then true
    else if t.waiting < s.waiting then false
    else s.action < t.action
  else
    if s.action < t.action then true
    else if t.action < s.action then false
    else s.waiting < t.waiting

/-- `operator <=` and `operator ==`, `extensionTwoDimensionalCost.hpp:54-66`. -/
def CostTuple.le (pref : Bool) (s t : CostTuple D) : Bool := s.lt pref t || (t.action = s.action ∧ t.waiting = s.waiting)

/-- `std::set::insert`: a set is the list of its elements in increasing order. -/
def tupleInsert (pref : Bool) : List (CostTuple D) → CostTuple D → List (CostTuple D)
  | [], t => [t]
  | u :: us, t => if t.lt pref u then t :: u :: us else if u.lt pref t then u :: tupleInsert pref us t else u :: us

/-- `m[t] = b`: a map is the list of its entries in increasing order of the keys. -/
def mapSet (pref : Bool) : List (CostTuple D × B) → CostTuple D → B → List (CostTuple D × B)
  | [], t, b => [(t, b)]
  | (u, a) :: us, t, b =>
    if t.lt pref u then (t, b) :: (u, a) :: us else if u.lt pref t then (u, a) :: mapSet pref us t b else (u, b) :: us

/-- The entry before `m.upper_bound(t)`, e.g. `extensionTwoDimensionalCost.hpp:372-375`: the last one whose key is not greater than `t`. -/
def mapFloor (pref : Bool) (m : List (CostTuple D × B)) (t : CostTuple D) : Option B :=
  ((m.takeWhile fun e => !t.lt pref e.1).getLast?).map Prod.snd

/-- `transitionCosts[v] |= f`, or `= f` if there is no entry, `extensionTwoDimensionalCost.hpp:204-208` and `:247-251`. -/
def costInsert (M : Mgr B) : List (D × B) → D → B → List (D × B)
  | [], v, f => [(v, f)]
  | (w, g) :: us, v, f =>
    if v < w then (v, f) :: (w, g) :: us else if w < v then (w, g) :: costInsert M us v f else (w, M.or g f) :: us

/-- Errors of this option. -/
inductive CostErr where
  | init (e : InitErr)
  /-- "Error: Assume that the first line in the cost file contains factors ...", `extensionTwoDimensionalCost.hpp:171-174` -/
  | noPreference
  /-- "Error: Cannot read line ... (case 2)", `extensionTwoDimensionalCost.hpp:199-202` -/
  | noCost
  /-- an error in a formula of the cost file -/
  | formula (e : ReadErr)
  /-- "Error in the cost file: there is some overlap between the costly transitions ...", `extensionTwoDimensionalCost.hpp:231-235` -/
  | overlap
  deriving DecidableEq, Repr

/-- The first line of the cost file, `extensionTwoDimensionalCost.hpp:161-174`. -/
def readPreference (N : Doubles D) (line : List Char) : Option (Preference D) :=
  match N.read line with
  | none => none
  | some (w, rest) =>
    match N.read rest with
    | none => none
    | some (a, rest) =>
      match rest.dropWhile isSpace with
      | '<' :: _ => some { waiting := w, action := a, waitingPreferred := true }
      | '>' :: _ => some { waiting := w, action := a, waitingPreferred := false }
      | _ => none

/-- One further line of the cost file, `extensionTwoDimensionalCost.hpp:188-211`.  The test `spaceIndex==std::string::npos` fails on a platform where `size_t` has 64 bits,
since `spaceIndex` has 32 bits; if there is no space, then the whole line is read as a number and also as a formula. -/
def costLine [L : BddLib B] (N : Doubles D) (tab : VarTable) (cap : Nat) (order : List Char → Bool) (costs : List (D × B)) (line : List Char) :
    Res CostErr (List (D × B)) :=
  match line with
  | [] => .ok costs
  | c :: _ =>
    if c = '#' then .ok costs
    else
      match N.read (line.takeWhile (· ≠ ' ')) with
      | none => .err .noCost
      | some (value, _) =>
        match parseFormula tab [.preInput, .preOutput, .postInput, .postOutput] cap order
          (if ' ' ∈ line then (line.dropWhile (· ≠ ' ')).drop 1 else line) with
        | .ok (some f) => .ok (costInsert (bddMgr B tab.types) costs value f)
        | .ok none => .ub
        | .err e => .err (.formula e)
        | .ub => .ub
        | .stuck => .stuck

/-- The loop over the lines, `extensionTwoDimensionalCost.hpp:186-212`. -/
def costLines [L : BddLib B] (N : Doubles D) (tab : VarTable) (cap : Nat) (order : List Char → Bool) :
    List (D × B) → List (List Char) → Res CostErr (List (D × B))
  | costs, [] => .ok costs
  | costs, l :: ls =>
    match costLine N tab cap order costs l with
    | .ok costs => costLines N tab cap order costs ls
    | .err e => .err e
    | .ub => .ub
    | .stuck => .stuck

/-- `init` on the content of the cost file, `extensionTwoDimensionalCost.hpp:150-213` (opening the file is not modelled). -/
def readCosts [L : BddLib B] (N : Doubles D) (tab : VarTable) (cap : Nat) (order : List Char → Bool) (content : List Char) :
    Res CostErr (Preference D × List (D × B)) :=
  match readPreference N ((splitLines content).headD []) with
  | none => .err .noPreference
  | some p =>
    match costLines N tab cap order [] (splitLines content).tail with
    | .ok costs => .ok (p, costs)
    | .err e => .err e
    | .ub => .ub
    | .stuck => .stuck

/-- Whether two entries overlap, `extensionTwoDimensionalCost.hpp:227-239`. -/
def overlapping (M : Mgr B) : List (D × B) → Bool
  | [] => false
  | (_, f) :: us => (us.any fun u => M.and f u.2 ≠ M.ff) || overlapping M us

/-- Transitions without a cost get the cost 0, `extensionTwoDimensionalCost.hpp:243-251`. -/
def allCosts (M : Mgr B) (N : Doubles D) (costs : List (D × B)) : List (D × B) :=
  costInsert M costs N.zero (costs.foldl (fun b u => M.and b (M.not u.2)) M.tt)

/-- `transitionCosts[v]`. -/
def costOf (M : Mgr B) (costs : List (D × B)) (v : D) : B :=
  match costs.find? fun u => u.1 = v with
  | some u => u.2
  | none => M.ff

/-- The numbers 1, 2, 4, ... that are at most `n`, `extensionTwoDimensionalCost.hpp:255`.  (The first argument bounds the number of rounds.) -/
def counterBits : Nat → Nat → Nat → List Nat
  | 0, _, _ => []
  | k + 1, i, n => if i < n + 1 then i :: counterBits k (2 * i) n else []

/-- The additional variables, `extensionTwoDimensionalCost.hpp:255-277`. -/
def costTable (tab : VarTable) (n : Nat) : VarTable :=
  let tab := (counterBits n 1 n).foldl (fun (t : VarTable) i =>
    (t.add .currentLivenessAssumptionCounterPre (txt!"_l_a_c_v_" ++ decimal i)).add .currentLivenessAssumptionCounterPost (txt!"_l_a_c_v_" ++ decimal i ++ txt!"'")) tab
  let tab := (tab.add .isInftyCostPre txt!"_is_infty_cost_Pre").add .isInftyCostPost txt!"_is_infty_cost_Post"
  (varsOfType tab.types .pre).foldl (fun (t : VarTable) k => t.add .transitiveClosureIntermediateVariables (tab.names.getD k [] ++ txt!"__trans")) tab

/-- What the search for a strategy uses of the additional variables. -/
structure Helpers (B : Type) where
  /-- `preTransitionalStateEncoding`, `extensionTwoDimensionalCost.hpp:254-259` -/
  zeroPre : B
  /-- `nonTransitionalStatePreEncoding` and `nonTransitionalStatePostEncoding`, `extensionTwoDimensionalCost.hpp:290-313` -/
  nonPre : Nat → B
  nonPost : Nat → B
  /-- `isInftyCostPreVars[0]` and `isInftyCostPostVars[0]` -/
  infPre : B
  infPost : B
  /-- `ExistAbstract(assumptionCounterPreCube).ExistAbstractSingleVar(isInftyCostPreVars[0])` -/
  forget : B → B
  /-- one step of the transitive closure, `extensionTwoDimensionalCost.hpp:406-407` -/
  compose : B → B
  /-- `addedHelperBitsInImplementationPreVars`, and the abstraction from each of these variables -/
  bits : List (B × (B → B))
  /-- `ExistAbstract(addedHelperBitsInImplementationPreCube)` -/
  forgetAll : B → B

/-- The encoding of a number in the counter variables, `extensionTwoDimensionalCost.hpp:292-306`. -/
def encode [L : BddLib B] : List Nat → Nat → B
  | [], _ => L.tt
  | v :: vs, n => L.and (if n % 2 = 1 then L.var v else L.not (L.var v)) (encode vs (n / 2))

/-- The additional variables as BFs. -/
def helpersOf (B : Type) [DecidableEq B] [L : BddLib B] (types : List VarType) : Helpers B :=
  let counterPre := varsOfType types .currentLivenessAssumptionCounterPre
  let counterPost := varsOfType types .currentLivenessAssumptionCounterPost
  let inftyPre := varsOfType types .isInftyCostPre
  let trans := varsOfType types .transitiveClosureIntermediateVariables
  { zeroPre := encode counterPre 0
    nonPre := fun i => encode counterPre (i + 1)
    nonPost := fun i => encode counterPost (i + 1)
    infPre := L.var (inftyPre.headD 0)
    infPost := L.var ((varsOfType types .isInftyCostPost).headD 0)
    forget := fun f => L.exist [inftyPre.headD 0] (L.exist counterPre f)
    compose := fun f => L.exist trans
      (L.and (L.swap (varsOfTypes types [.postInput, .postOutput]) trans f) (L.swap (varsOfTypes types [.preInput, .preOutput]) trans f))
    bits := (counterPre ++ inftyPre).map fun k => (L.var k, L.exist [k])
    forgetAll := L.exist (counterPre ++ inftyPre) }

/-- `while (cur!=old) { old = cur; cur = step(cur); }`. -/
def whileLoop {σ : Type} (step : B → σ → Option (B × σ)) (fuel : Nat) (cur old : B) (s : σ) : Option (B × σ) :=
  if cur = old then some (cur, s) else fixLoop step fuel cur s

/-- The part of the state that the inner loops change: `transitionsAlreadyFoundToBeWinning`, `positionsAlreadyFoundToBeWinning` and `strategyDumpingData`. -/
structure Found (B : Type) where
  trans : B
  pos : B
  dump : Dump B

/-- The enforceable predecessor operator, e.g. `extensionTwoDimensionalCost.hpp:527`. -/
def enforce (M : Mgr B) (c : Ctx B) (t : B) : B := M.allPostInput (M.or (M.not c.safetyEnv) (M.exPostOutput t))

/-- Body of the three loops that solve a reachability game, `extensionTwoDimensionalCost.hpp:446-458` (`top = true`, `cheap` is true there), `:524-537` (`top = false`) and
`:638-650` (`top = true`). -/
def reachStep (M : Mgr B) (c : Ctx B) (E : Helpers B) (goal : Nat) (top : Bool) (mask ending cheap : B) (new : B) (st : Found B) : Option (B × Found B) :=
  let newT := M.and (M.and mask c.safetySys) (M.or ending (M.and cheap (M.swap new)))
  let new := enforce M c newT
  let recordT := if top then M.and (M.and newT new) E.zeroPre else newT
  let recordP := if top then M.and new E.zeroPre else new
  some (new, { trans := M.or st.trans recordT, pos := M.or st.pos recordP, dump := st.dump ++ [(goal, recordT)] })

/-- `transitions`, `extensionTwoDimensionalCost.hpp:391` (infinite costs: `pre` and `post` say that the cost is infinite, `cheap` is true) and `:583`. -/
def sccTransitions (M : Mgr B) (c : Ctx B) (E : Helpers B) (i : Nat) (assumption pre post escape cheap : B) (scc : B) : B :=
  M.and (M.and (E.nonPre i) pre)
    (M.or (M.not c.safetyEnv)
      (M.and c.safetySys (M.or escape (M.and (M.and (M.and (M.and (M.not assumption) (M.swap scc)) cheap) (E.nonPost i)) post))))

/-- Body of the loop for `winningSCCStates`, `extensionTwoDimensionalCost.hpp:389-393` and `:581-585`. -/
def sccStep (M : Mgr B) (c : Ctx B) (E : Helpers B) (i : Nat) (assumption pre post escape cheap : B) (scc : B) (_ : Unit) : Option (B × Unit) :=
  some (M.and scc (M.allPostInput (M.exPostOutput (sccTransitions M c E i assumption pre post escape cheap scc))), ())

/-- Body of the loop for the transitive closure, `extensionTwoDimensionalCost.hpp:404-408` and `:594-598`. -/
def closureStep (M : Mgr B) (E : Helpers B) (r : B) (_ : Unit) : Option (B × Unit) := some (M.or r (E.compose r), ())

/-- `transitiveClosureInternaltransitions` before the loop, `extensionTwoDimensionalCost.hpp:401-402` (`excluded` is false) and `:591-592` (`excluded` is `winningPositionsFound[currentTuple]`,
which is equal to `positionsAlreadyFoundToBeWinning` there). -/
def internal (M : Mgr B) (c : Ctx B) (E : Helpers B) (i : Nat) (assumption pre post cheap excluded : B) (scc : B) : B :=
  M.and (M.and (M.and (M.not excluded) scc) (M.swap scc))
    (M.and (M.and (M.and (E.nonPre i)
      (M.or (M.not c.safetyEnv)
        (M.and c.safetySys (M.and (M.and (M.and (M.and (M.not assumption) (M.swap scc)) cheap) (E.nonPre i)) pre))))
      (E.nonPost i)) post)

/-- `finalTransitions`, `extensionTwoDimensionalCost.hpp:415-419` and `:605-609`. -/
def finalTransitions (M : Mgr B) (c : Ctx B) (E : Helpers B) (i : Nat) (assumption pre post escape cheap goal : B) (scc reversible : B) : B :=
  M.and (M.and (E.nonPre i) pre)
    (M.or (M.not c.safetyEnv)
      (M.and c.safetySys
        (M.or (M.and escape (M.or (M.or (M.not (E.nonPost i)) goal) (M.not post)))
          (M.and (M.and (M.and (M.and (M.not assumption) (M.swap scc)) reversible) cheap) post))))

/-- The loop over the liveness assumptions, `extensionTwoDimensionalCost.hpp:385-435` (`infinite = true`) and `:576-627`.  `i` is the number of the first assumption in the list. -/
def sccLoop (M : Mgr B) (c : Ctx B) (E : Helpers B) (fuel : Nat) (goalNum : Nat) (goal : B) (infinite : Bool) (escape cheap : B) :
    Nat → List B → Found B → Option (Found B)
  | _, [], st => some st
  | i, assumption :: as, st =>
    let pre := if infinite then E.infPre else M.not E.infPre
    let post := if infinite then E.infPost else M.not E.infPost
    match whileLoop (sccStep M c E i assumption pre post escape cheap) fuel (M.not st.pos) M.ff () with
    | none => none
    | some (scc, _) =>
      match whileLoop (closureStep M E) fuel (internal M c E i assumption pre post cheap (if infinite then M.ff else st.pos) scc) M.ff () with
      | none => none
      | some (closure, _) =>
        let final := finalTransitions M c E i assumption pre post escape cheap goal scc (M.and closure (M.swap closure))
        let finalStates := M.and scc (M.allPostInput (M.exPostOutput final))
        sccLoop M c E fuel goalNum goal infinite escape cheap (i + 1) as
          { trans := M.or st.trans final, pos := M.or st.pos finalStates, dump := st.dump ++ [(goalNum, final)] }

/-- The variables of the search for one goal: `todo`, `winningTransitionsFound`, `winningPositionsFound`, and `Found`. -/
structure Search (B D : Type) where
  todo : List (CostTuple D)
  transAt : List (CostTuple D × B)
  posAt : List (CostTuple D × B)
  found : Found B

/-- What stays the same during the search for one goal. -/
structure SearchIn (B D : Type) where
  M : Mgr B
  c : Ctx B
  E : Helpers B
  N : Doubles D
  p : Preference D
  costs : List (D × B)
  goalNum : Nat
  goal : B

/-- `escapeTransitions |= it->second.ExistAbstract(...)` if there is an entry, `extensionTwoDimensionalCost.hpp:372-377` and `:563-571`. -/
def orForgotten (M : Mgr B) (E : Helpers B) (escape : B) : Option B → B
  | some t => M.or escape (E.forget t)
  | none => escape

/-- `allowedEndingTransitions |= safetySys & swapped winning positions & costs` if there is an entry, `extensionTwoDimensionalCost.hpp:508-513`. -/
def orReach (M : Mgr B) (c : Ctx B) (cost b : B) : Option B → B
  | some w => M.or b (M.and (M.and c.safetySys (M.swap w)) cost)
  | none => b

/-- A tuple with infinite action cost and positive waiting cost, `extensionTwoDimensionalCost.hpp:361-482`. -/
def infiniteCase (S : SearchIn B D) (fuel : Nat) (cur : CostTuple D) (st : Search B D) : Option (Search B D) :=
  let M := S.M
  let before := (st.posAt.getLast?.map Prod.snd).getD M.ff
  let escape := M.and S.c.safetySys S.goal
  let escape := orForgotten M S.E escape (mapFloor S.p.waitingPreferred st.transAt (mkTuple S.N S.p (cur.waiting - 1) cur.action))
  match sccLoop M S.c S.E fuel S.goalNum S.goal true escape M.tt 0 S.c.livenessAssumptions st.found with
  | none => none
  | some f =>
    match whileLoop (reachStep M S.c S.E S.goalNum true S.E.infPre f.trans M.tt) fuel M.ff M.tt f with
    | none => none
    | some (_, f) =>
      some
        { todo := if before ≠ f.pos then tupleInsert S.p.waitingPreferred st.todo (mkTuple S.N S.p (cur.waiting + 1) cur.action) else st.todo
          transAt := mapSet S.p.waitingPreferred st.transAt cur f.trans
          posAt := mapSet S.p.waitingPreferred st.posAt cur f.pos
          found := f }

/-- The transitions to the goal that are not too expensive, `extensionTwoDimensionalCost.hpp:493-498` (`waiting` is 0) and `:552-558` (`waiting` is one less than in `cur`). -/
def goalsWithin (S : SearchIn B D) (cur : CostTuple D) (waiting : Nat) : B :=
  S.costs.foldl (fun b u =>
    if (mkTuple S.N S.p waiting u.1).le S.p.waitingPreferred cur then S.M.or b (S.M.and (S.M.and u.2 S.c.safetySys) S.goal) else b) S.M.ff

/-- `allowedEndingTransitions`, `extensionTwoDimensionalCost.hpp:496-515`. -/
def endingTransitions (S : SearchIn B D) (cur : CostTuple D) (posAt : List (CostTuple D × B)) : B :=
  let M := S.M
  S.costs.foldl (fun b u =>
    orReach M S.c u.2 b (mapFloor S.p.waitingPreferred posAt (mkTuple S.N S.p cur.waiting (S.N.next (S.N.sub cur.action u.1))))) (goalsWithin S cur 0)

/-- New elements of the list, `extensionTwoDimensionalCost.hpp:664-678`. -/
def moreTuples (S : SearchIn B D) (cur : CostTuple D) (todo : List (CostTuple D)) : List (CostTuple D) :=
  let pref := S.p.waitingPreferred
  S.costs.foldl (fun td u =>
    if u.1 ≠ S.N.zero then
      tupleInsert pref (tupleInsert pref td (mkTuple S.N S.p cur.waiting (S.N.add u.1 cur.action))) (mkTuple S.N S.p (cur.waiting + 1) (S.N.add u.1 cur.action))
    else td) (tupleInsert pref todo (mkTuple S.N S.p (cur.waiting + 1) cur.action))

/-- A tuple with finite action cost, `extensionTwoDimensionalCost.hpp:486-679`. -/
def finiteCase (S : SearchIn B D) (fuel : Nat) (cur : CostTuple D) (st : Search B D) : Option (Search B D) :=
  let M := S.M
  let pref := S.p.waitingPreferred
  let cheap := costOf M S.costs S.N.zero
  let before := (st.posAt.getLast?.map Prod.snd).getD M.ff
  match whileLoop (reachStep M S.c S.E S.goalNum false (M.and S.E.zeroPre (M.not S.E.infPre)) (endingTransitions S cur st.posAt) cheap) fuel M.ff M.tt st.found with
  | none => none
  | some (_, f) =>
    let transAt := mapSet pref st.transAt cur f.trans
    let posAt := mapSet pref st.posAt cur f.pos
    if 0 < cur.waiting then
      let escape := orForgotten M S.E (goalsWithin S cur (cur.waiting - 1)) (mapFloor pref transAt (mkTuple S.N S.p (cur.waiting - 1) cur.action))
      match sccLoop M S.c S.E fuel S.goalNum S.goal false escape cheap 0 S.c.livenessAssumptions f with
      | none => none
      | some f =>
        match whileLoop (reachStep M S.c S.E S.goalNum true (M.not S.E.infPre) f.trans cheap) fuel f.pos M.tt f with
        | none => none
        | some (_, f) =>
          some
            { todo := if before ≠ f.pos then moreTuples S cur st.todo else st.todo
              transAt := mapSet pref transAt cur f.trans
              posAt := mapSet pref posAt cur f.pos
              found := f }
    else
      some { todo := if before ≠ f.pos then moreTuples S cur st.todo else st.todo, transAt := transAt, posAt := posAt, found := f }

/-- Body of the loop `while (todo.size()!=0)`, `extensionTwoDimensionalCost.hpp:336-681`: `cur` has been removed from the list. -/
def tupleStep (S : SearchIn B D) (fuel : Nat) (cur : CostTuple D) (st : Search B D) : Option (Search B D) :=
  if cur.action = S.N.infinity then
    if cur.waiting = 0 then some st else infiniteCase S fuel cur st
  else finiteCase S fuel cur st

/-- The loop `while (todo.size()!=0)`, `extensionTwoDimensionalCost.hpp:336-681`. -/
def todoLoop (S : SearchIn B D) (fuel : Nat) : Nat → Search B D → Option (Search B D)
  | 0, _ => none
  | n + 1, st =>
    match st.todo with
    | [] => some st
    | cur :: rest =>
      match tupleStep S fuel cur { st with todo := rest } with
      | none => none
      | some st => todoLoop S fuel n st

/-- The search for one goal, `extensionTwoDimensionalCost.hpp:320-681`. -/
def searchGoal (S : SearchIn B D) (fuel : Nat) (dump : Dump B) : Option (Search B D) :=
  let pref := S.p.waitingPreferred
  let todo := tupleInsert pref (S.costs.foldl (fun td u => tupleInsert pref td (mkTuple S.N S.p 0 u.1)) []) (mkTuple S.N S.p 1 S.N.infinity)
  todoLoop S fuel fuel { todo := todo, transAt := [], posAt := [], found := { trans := S.M.ff, pos := S.M.ff, dump := dump } }

/-- "Determinize the additional bits", `extensionTwoDimensionalCost.hpp:702-706`. -/
def fixBits (M : Mgr B) : List (B × (B → B)) → B → B
  | [], f => f
  | (var, ex) :: bs, f => fixBits M bs (M.and f (M.or (M.not var) (M.and var (M.not (ex (M.and f (M.not var)))))))

/-- The new `initSys`, `extensionTwoDimensionalCost.hpp:694-716`. -/
def bestInit (M : Mgr B) (c : Ctx B) (E : Helpers B) (robotics : Bool) (winningPositions : B) (posAt : List (CostTuple D × B)) : B :=
  let r := posAt.foldl (fun (st : B × B) e =>
    let newStates := M.and winningPositions (fixBits M E.bits e.2)
    (M.or st.1 (M.and newStates (M.not st.2)),
      M.or st.2 (if robotics then E.forgetAll newStates else M.exPreOutput (M.and newStates c.initSys)))) (M.ff, M.ff)
  M.and c.initSys r.1

/-- The loop over the liveness guarantees, `extensionTwoDimensionalCost.hpp:317-724`.  `j` is the number of the first goal in the list.  State: `initSys` and `strategyDumpingData`. -/
def costGoals (M : Mgr B) (c : Ctx B) (E : Helpers B) (N : Doubles D) (p : Preference D) (costs : List (D × B)) (robotics : Bool) (winningPositions : B) (fuel : Nat) :
    Nat → List B → B × Dump B → Option (B × Dump B)
  | _, [], st => some st
  | j, goal :: goals, (initSys, dump) =>
    match searchGoal { M := M, c := c, E := E, N := N, p := p, costs := costs, goalNum := j, goal := goal } fuel dump with
    | none => none
    | some s =>
      costGoals M c E N p costs robotics winningPositions fuel (j + 1) goals
        (if j = 0 then bestInit M c E robotics winningPositions s.posAt else initSys, s.found.dump)

/-- `computeCostOptimalStrategy`, `extensionTwoDimensionalCost.hpp:217-728`.  `M` has the variables of the input file, `M'` also the additional ones.
Result: the changed context and `strategyDumpingData`. -/
def costStrategy (M M' : Mgr B) (E : Helpers B) (N : Doubles D) (p : Preference D) (costs : List (D × B)) (robotics : Bool) (c : Ctx B) (winningPositions : B)
    (fuel : Nat) : Res CostErr (Ctx B × Dump B) :=
  let c := { c with livenessGuarantees := c.livenessGuarantees.map fun g => M.and g (M.swap winningPositions) }
  if overlapping M costs then .err .overlap
  else
    match costGoals M' c E N p (allCosts M N costs) robotics winningPositions fuel 0 c.livenessGuarantees (c.initSys, []) with
    | some (initSys, dump) => .ok ({ c with initSys := initSys }, dump)
    | none => .stuck

/-- What a run ends with. -/
inductive CostOutcome where
  /-- the verdict; with an option for strategies, the states are printed if the specification is realizable -/
  | unrealizable
  | realizable
  | strategy (states : List PState)
  | internalError
  | error (e : CostErr)
  | ub
  | running
  deriving DecidableEq, Repr

/-- `XTwoDimensionalCost::checkRealizability`, `extensionTwoDimensionalCost.hpp:735-751`, and what comes after it: nothing (`explicit = none`,
`GR1Context::execute`), or the extraction of an explicit strategy as in `runExplicit` (`explicit = some (perm, recovery)`). -/
def costRun (B : Type) [DecidableEq B] [BddLib B] (N : Doubles D) (robotics : Bool) (explicit : Option (Bool × Bool)) (fuel : Nat) (tab : VarTable) (c : Ctx B)
    (p : Preference D) (costs : List (D × B)) : CostOutcome :=
  let M := bddMgr B tab.types
  let r := if robotics then checkRealizabilityRobotics .standard M c fuel else checkRealizability .standard M c fuel
  match r with
  | none => .running
  | some (.unrealizable, _) => .unrealizable
  | some (.internalError, _) => .internalError
  | some (.realizable, winningPositions, _) =>
    let tab' := costTable tab c.livenessAssumptions.length
    let M' := bddMgr B tab'.types
    match costStrategy M M' (helpersOf B tab'.types) N p costs robotics c winningPositions fuel with
    | .ok (c', dump) =>
      match explicit with
      | none => .realizable
      | some (perm, recovery) =>
        match extractStrategy M' c' (tableVars B tab') perm recovery fuel winningPositions dump with
        | some sts => .strategy sts
        | none => .running
    | .err e => .error e
    | .ub => .ub
    | .stuck => .running

/-- `main.cpp:337-350` for `XTwoDimensionalCost<GR1Context,robotics,_>`, `XExtractExplicitStrategy<...>` and `XExtractPermissiveExplicitStrategy<...>` of it,
`main.cpp:195-215,249-252`, on the content of an input file and of a cost file. -/
def runCost (B : Type) [DecidableEq B] [BddLib B] (N : Doubles D) (robotics : Bool) (explicit : Option (Bool × Bool)) (cap : Nat) (order : List Char → Bool)
    (fuel : Nat) (text costText : List Char) : CostOutcome :=
  match initContext (B := B) cap order text with
  | .ok (tab, c) =>
    match readCosts N tab cap order costText with
    | .ok (p, costs) => costRun B N robotics explicit fuel tab c p costs
    | .err e => .error e
    | .ub => .ub
    | .stuck => .running
  | .err e => .error (.init e)
  | .ub => .ub
  | .stuck => .running

end Slugs.Model
