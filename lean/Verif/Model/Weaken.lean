import Verif.Model.Explicit
import Verif.Model.Run
import Verif.Spec.Weaken

/-!
Model of `extensionWeakenSafetyAssumptions.hpp`: `--computeWeakenedSafetyAssumptions`.  `NDEBUG` is defined, so that lines 176-180 are not part of the program.
-/

namespace Slugs.Model

open Slugs.Spec (Clause)

variable {B : Type} [DecidableEq B] [L : BddLib B]

/-- The loops that make the assumptions independent of variables, `extensionWeakenSafetyAssumptions.hpp:37-47`, for the given variables.  `check` is a call of
`checkRealizability` with the argument as `safetyEnv`; its outcome `err` is the internal error. -/
def abstractLoop (check : B → Res Unit Bool) : List Nat → B → Res Unit B
  | [], cur => .ok cur
  | i :: is, cur =>
    match check (L.exist [i] cur) with
    | .ok true => abstractLoop check is (L.exist [i] cur)
    | .ok false => abstractLoop check is cur
    | .err e => .err e
    | .ub => .ub
    | .stuck => .stuck

/-- The variables in the order of these loops. -/
def abstractVars (types : List VarType) : List Nat :=
  [VarType.postInput, .preOutput, .preInput].flatMap fun t => (List.range types.length).filter fun i => types[i]? = some t

/-- `extensionWeakenSafetyAssumptions.hpp:56-68`: variables are removed from the cube `thisClause`; the result is the cube and `thisClauseInt`. -/
def clauseVector (assumptions : B) : List Nat → B → B × List Int
  | [], cube => (cube, [])
  | i :: is, cube =>
    let thisTry := L.exist [i] cube
    if L.and thisTry assumptions = L.ff then
      let r := clauseVector assumptions is thisTry
      (r.1, 0 :: r.2)
    else if L.and cube (L.var i) = L.ff then
      let r := clauseVector assumptions is cube
      (r.1, 1 :: r.2)
    else
      let r := clauseVector assumptions is cube
      (r.1, -1 :: r.2)

/-- `elementsInThisClause`. -/
def clauseSize (v : List Int) : Nat := (v.filter fun x => x ≠ 0).length

/-- The loop of `extensionWeakenSafetyAssumptions.hpp:51-71`.  The clauses are listed in the order in which they are found (last one first in the
accumulator).  `none` means that the bound for the number of rounds was exceeded. -/
def cnfLoop (types : List VarType) : Nat → B → List (List Int × B) → Option (List (List Int × B))
  | 0, _, _ => none
  | n + 1, cur, acc =>
    if cur = L.tt then some acc.reverse
    else
      let start := determinize (bddMgr B types) ((List.range types.length).map L.var) (L.not cur)
      let r := clauseVector cur (List.range types.length) start
      cnfLoop types n (L.or cur r.1) ((r.2, L.not r.1) :: acc)

/-- The order in which the clauses are visited, `extensionWeakenSafetyAssumptions.hpp:50,69,78-79`: the longest clauses first, and clauses of the same length in the
order in which they were found.  No clause is longer than the number `n` of variables. -/
def bySize (n : Nat) (cs : List (List Int × B)) : List (List Int × B) :=
  (List.range (n + 1)).reverse.flatMap fun k => cs.filter fun c => clauseSize c.1 = k

/-- Insertion into a `std::set<std::vector<int>>`, which is a list in lexicographic order. -/
def vectorInsert (x : List Int) (l : List (List Int)) : List (List Int) :=
  if x ∈ l then l else l.takeWhile (fun y => decide (y < x)) ++ x :: l.dropWhile (fun y => decide (y < x))

/-- The loop of `extensionWeakenSafetyAssumptions.hpp:74-105`.  State: `clausesFoundSoFar` and `clausesFoundSoFarInt`.  (The assignment in line 99 has no
effect, since an entry is not used after it has been visited.) -/
def removeLoop (check : B → Res Unit Bool) : List (List Int × B) → B → List (List Int) → Res Unit (List (List Int))
  | [], _, ints => .ok ints
  | (v, b) :: rest, found, ints =>
    match check (L.and (rest.foldl (fun acc c => L.and acc c.2) L.tt) found) with
    | .ok true => removeLoop check rest found ints
    | .ok false => removeLoop check rest (L.and found b) (vectorInsert v ints)
    | .err e => .err e
    | .ub => .ub
    | .stuck => .stuck

/-- The disjunction of `acc` and the literals of (a part of) a clause whose first entry has the number `i`,
`extensionWeakenSafetyAssumptions.hpp:118-125,133-140`. -/
def orLiterals (acc : B) : Nat → List Int → B
  | _, [] => acc
  | i, x :: xs => orLiterals (if x > 0 then L.or acc (L.var i) else if x < 0 then L.or acc (L.not (L.var i)) else acc) (i + 1) xs

/-- The loop of `extensionWeakenSafetyAssumptions.hpp:130-156` from variable number `i` on.  `context` is `clausesSoFar & nextClauses`; the result is
`committedLiterals` and `filteredLiterals`. -/
def filterLiterals (context : B) : Nat → List Int → B → B × List Int
  | _, [], committed => (committed, [])
  | i, x :: xs, committed =>
    let restOfClause := orLiterals committed (i + 1) xs
    let literal := if x > 0 then L.var i else L.not (L.var i)
    if L.and context restOfClause = L.and context (L.or restOfClause literal) then
      let r := filterLiterals context (i + 1) xs committed
      (r.1, 0 :: r.2)
    else
      let r := filterLiterals context (i + 1) xs (L.or committed literal)
      (r.1, x :: r.2)

/-- The loop of `extensionWeakenSafetyAssumptions.hpp:111-159`.  State: `clausesSoFar` and `clausesFoundSoFarIntAfterFiltering`.  The loop of lines 117-127 runs
over the remaining clauses, but it uses `thisClause` instead of them. -/
def filterLoop : List (List Int) → B → List (List Int) → List (List Int)
  | [], _, out => out
  | thisClause :: rest, clausesSoFar, out =>
    let nextClauses := rest.foldl (fun acc _ => L.and acc (orLiterals L.ff 0 thisClause)) L.tt
    let r := filterLiterals (L.and clausesSoFar nextClauses) 0 thisClause L.ff
    filterLoop rest (L.and clausesSoFar r.1) (vectorInsert r.2 out)

/-- The literals that are printed for a clause, `extensionWeakenSafetyAssumptions.hpp:165-172`. -/
def printedClause : List Name → List Int → Clause
  | x :: xs, n :: ns => if n = 0 then printedClause xs ns else (decide (n < 0), x) :: printedClause xs ns
  | _, _ => []

/-- A call of `GR1Context::checkRealizability` with other safety assumptions. -/
def checkWith (B : Type) [DecidableEq B] [BddLib B] (types : List VarType) (c : Ctx B) (fuel : Nat) (safetyEnv : B) : Res Unit Bool :=
  match checkRealizability .standard (bddMgr B types) { c with safetyEnv := safetyEnv } fuel with
  | none => .stuck
  | some (.realizable, _) => .ok true
  | some (.unrealizable, _) => .ok false
  | some (.internalError, _) => .err ()

/-- What a run ends with. -/
inductive WeakenOutcome where
  /-- the clauses that are printed, in this order -/
  | clauses (cs : List Clause)
  | internalError
  | inputError (e : InitErr)
  | ub
  | running
  deriving DecidableEq

/-- `XComputeWeakenedSafetyAssumptions::execute`, `extensionWeakenSafetyAssumptions.hpp:29-181`, without the last step: the vectors that are printed. -/
def weakenVectors (check : B → Res Unit Bool) (types : List VarType) (safetyEnv : B) (fuel : Nat) : Res Unit (List (List Int)) :=
  match abstractLoop check (abstractVars types) safetyEnv with
  | .ok cur =>
    match cnfLoop types fuel cur [] with
    | none => .stuck
    | some cs =>
      match removeLoop check (bySize types.length cs) L.tt [] with
      | .ok ints => .ok (filterLoop ints (L.tt : B) [])
      | .err e => .err e
      | .ub => .ub
      | .stuck => .stuck
  | .err e => .err e
  | .ub => .ub
  | .stuck => .stuck

/-- `main.cpp:337-350` for the plugin `XComputeWeakenedSafetyAssumptions<GR1Context>` (`main.cpp:165`). -/
def runWeaken (B : Type) [DecidableEq B] [BddLib B] (cap : Nat) (order : List Char → Bool) (fuel : Nat) (text : List Char) : WeakenOutcome :=
  match initContext (B := B) cap order text with
  | .ok (tab, c) =>
    match weakenVectors (checkWith B tab.types c fuel) tab.types c.safetyEnv fuel with
    | .ok out => .clauses (out.map (printedClause tab.names))
    | .err _ => .internalError
    | .ub => .ub
    | .stuck => .running
  | .err e => .inputError e
  | .ub => .ub
  | .stuck => .running

end Slugs.Model
