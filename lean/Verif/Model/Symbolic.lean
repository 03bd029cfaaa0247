import Verif.Model.Explicit

/-!
Model of the extraction of symbolic strategies (`extensionExtractSymbolicStrategy.hpp`).
-/

namespace Slugs.Model

variable {B : Type} [DecidableEq B] [L : BddLib B]

/-- Names of the counter variables: `"_jx_b"` followed by a decimal number, `extensionExtractSymbolicStrategy.hpp:107-108`. -/
def counterName (k : Nat) : Name := txt!"_jx_b" ++ Nat.toDigits 10 k

/-- The loop that allocates the counter variables, `extensionExtractSymbolicStrategy.hpp:106-111`.  `i` is the loop variable and `n` the number of
goals; the first argument bounds the number of rounds.  Result: the table and the numbers of the variables.  Not modelled: overflow of `i`
for more than 2^31 goals. -/
def allocCounters (goalEncoded : Bool) (n : Nat) : Nat → Nat → VarTable → List Nat → List Nat → VarTable × List Nat × List Nat
  | 0, _, tab, preNums, postNums => (tab, preNums, postNums)
  | fuel + 1, i, tab, preNums, postNums =>
    if i ≤ n then
      let tab1 := tab.add .symbolicStrategyCounterVar (counterName preNums.length)
      if goalEncoded then
        allocCounters goalEncoded n fuel (i * 2) (tab1.add .symbolicStrategyCounterVar (counterName preNums.length ++ ['\'']))
          (preNums ++ [tab.names.length]) (postNums ++ [tab1.names.length])
      else allocCounters goalEncoded n fuel (i * 2) tab1 (preNums ++ [tab.names.length]) postNums
    else (tab, preNums, postNums)

/-- The conjunction of literals that says that the variables hold the number `i`, `extensionExtractSymbolicStrategy.hpp:121-128`,
`:133-140` and `:142-149`.  `k` is the number of the first bit of the list. -/
def encoding (i : Nat) : Nat → List Nat → B → B
  | _, [], acc => acc
  | k, v :: vs, acc => encoding i (k + 1) vs (L.and acc (if i.testBit k then L.var v else L.not (L.var v)))

/-- The loop over the goals, `extensionExtractSymbolicStrategy.hpp:119-160`.  `i` is the number of the first goal of the list; `n` is the number of
goals; `selector` is the variable `strat_type`. -/
def combineGoals (goalEncoded : Bool) (n : Nat) (positionals : Nat → B) (preNums postNums : List Nat) (selector : Nat) :
    Nat → List B → B → B
  | _, [], acc => acc
  | i, G :: Gs, acc =>
    let thisEncoding := encoding i 0 preNums L.tt
    let new :=
      if goalEncoded then
        let stay := encoding i 0 postNums L.tt
        let go := encoding ((i + 1) % n) 0 postNums L.tt
        let theseTrans := L.or (L.and go G) (L.and stay (L.not G))
        L.and (L.and thisEncoding (positionals i)) theseTrans
      else L.and (L.and thisEncoding (positionals i)) (L.or (L.not (L.var selector)) G)
    combineGoals goalEncoded n positionals preNums postNums selector (i + 1) Gs (L.or acc new)

/-- What is written: the BDD, and the mapping of variable numbers to names in the header (`extensionExtractSymbolicStrategy.hpp:176-191`, without
the prefix `in_`). -/
structure SymbolicStrategy (B : Type) where
  table : VarTable
  counterPre : List Nat
  counterPost : List Nat
  selector : Nat
  strategy : B

/-- `computeAndPrintSymbolicStrategy`, `extensionExtractSymbolicStrategy.hpp:76-205`.  Not modelled: the DDDMP format of the file. -/
def extractSymbolic (goalEncoded : Bool) (tab : VarTable) (c : Ctx B) (dump : Dump B) : SymbolicStrategy B :=
  let n := c.livenessGuarantees.length
  let (tab1, preNums, postNums) := allocCounters goalEncoded n (n + 1) 1 tab [] []
  let tab2 := if goalEncoded then tab1 else tab1.add .symbolicStrategyCounterVar txt!"strat_type"
  { table := tab2
    counterPre := preNums
    counterPost := postNums
    selector := tab1.names.length
    strategy := combineGoals goalEncoded n (positional (bddMgr B tab.types) dump) preNums postNums tab1.names.length 0
      c.livenessGuarantees L.ff }

/-- What a run with symbolic strategy extraction ends with. -/
inductive SymbolicOutcome (B : Type) where
  | strategy (s : SymbolicStrategy B)
  | none (o : Outcome)

/-- A run of `XExtractSymbolicStrategy<T,_,goalEncoded>` (`extensionExtractSymbolicStrategy.hpp:57-66`; the parameter `oneStepRecovery` has no
effect, since `init`, line 83, is not used) with `T` equal to `GR1Context` or `XRoboticsSemantics<GR1Context>`. -/
def runSymbolic (B : Type) [DecidableEq B] [BddLib B] (alg : Algorithm) (robotics goalEncoded : Bool) (cap : Nat) (order : List Char → Bool)
    (fuel : Nat) (text : List Char) : SymbolicOutcome B :=
  match initContext (B := B) cap order text with
  | .ok (tab, ctx) =>
    let M := bddMgr B tab.types
    let r := if robotics then checkRealizabilityRobotics alg M ctx fuel else checkRealizability alg M ctx fuel
    match r with
    | some (.realizable, _, dump) => .strategy (extractSymbolic goalEncoded tab ctx dump)
    | _ => .none (outcomeOf r)
  | .err e => .none (.inputError e)
  | .ub => .none .ub
  | .stuck => .none .running

end Slugs.Model
