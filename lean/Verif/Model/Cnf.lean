import Verif.Model.Explicit
import Verif.Spec.Cnf

/-!
Model of `extensionComputeCNFFormOfTheSpecification.hpp`: `--computeCNFFormOfTheSpecification`.
-/

namespace Slugs.Model

open Slugs.Spec (CnfLine ClauseKind)

variable {B : Type} [DecidableEq B] [L : BddLib B]

/-- The messages of `extensionComputeCNFFormOfTheSpecification.hpp:38,41,42,46,47,50,74,113`. -/
inductive CnfError where
  | alternating (case : Nat)
  | primed (case : Nat)
  | wrongCnf (case : Nat)
  deriving DecidableEq, Repr

/-- The lines with the variables, `extensionComputeCNFFormOfTheSpecification.hpp:37-52`.  The first argument is `i`, the second the names and types from
there on (`variableNames` and `variableTypes` always have the same length, see `VarTable`). -/
def declLines : Nat → List (Name × VarType) → Except CnfError (List CnfLine)
  | _, [] => .ok []
  | _, [_] => .error (.alternating 1)
  | i, (x, t) :: (x', t') :: rest =>
    if t = .preInput then
      if t' ≠ .postInput then .error (.alternating 2)
      else if x' ≠ x ++ ['\''] then .error (.primed 1)
      else (declLines (i + 2) rest).map (CnfLine.input x (i + 1) (i + 2) :: ·)
    else if t = .preOutput then
      if t' ≠ .postOutput then .error (.alternating 3)
      else if x' ≠ x ++ ['\''] then .error (.primed 2)
      else (declLines (i + 2) rest).map (CnfLine.output x (i + 1) (i + 2) :: ·)
    else .error (.alternating 4)

/-- The loops that remove variables from a cube, `extensionComputeCNFFormOfTheSpecification.hpp:62-71,91-102`.  `fits candidate` is the test whether
the candidate may be used instead.  The result are the cube and, for each variable that has not been removed, its index and whether it has to be true
(last variable first in the accumulator). -/
def shrinkCube (fits : B → Bool) : List Nat → B → List (Nat × Bool) → B × List (Nat × Bool)
  | [], cube, kept => (cube, kept.reverse)
  | i :: is, cube, kept =>
    let candidate := L.exist [i] cube
    if fits candidate then shrinkCube fits is candidate kept
    else if L.and cube (L.var i) = L.ff then shrinkCube fits is cube ((i, false) :: kept)
    else shrinkCube fits is cube ((i, true) :: kept)

/-- The printed literals of a clause, which is the negation of the cube: `extensionComputeCNFFormOfTheSpecification.hpp:66-70`. -/
def clauseLiterals (kept : List (Nat × Bool)) : List Int := kept.map fun (i, b) => if b then -(i : Int) - 1 else (i : Int) + 1

/-- The printed literals of a cube: `extensionComputeCNFFormOfTheSpecification.hpp:95-101,105-107`.  If they are all about next values, then their
numbers are replaced by those of the current values. -/
def cubeLiterals (types : List VarType) (kept : List (Nat × Bool)) : List Int :=
  let literals : List Int := kept.map fun (i, b) => if b then (i : Int) + 1 else -(i : Int) - 1
  if kept.all fun (i, _) => types[i]? = some .postInput || types[i]? = some .postOutput then literals.map fun l => l - l.sign else literals

/-- The loop of `extensionComputeCNFFormOfTheSpecification.hpp:59-73`.  `none` means that the bound for the number of rounds was exceeded. -/
def clauseLoop (types : List VarType) (rest : B) : Nat → B → List (List Int) → Option (B × List (List Int))
  | 0, _, _ => none
  | n + 1, found, acc =>
    if L.or rest found = L.tt then some (found, acc.reverse)
    else
      let start := determinize (bddMgr B types) ((List.range types.length).map L.var) (L.and (L.not rest) (L.not found))
      let (cube, kept) := shrinkCube (fun f => decide (L.and (L.and f rest) (L.not found) = L.ff)) (List.range types.length) start []
      clauseLoop types rest n (L.or found cube) (clauseLiterals kept :: acc)

/-- The loop of `extensionComputeCNFFormOfTheSpecification.hpp:86-112`. -/
def cubeLoop (types : List VarType) (goal : B) : Nat → B → List (List Int) → Option (B × List (List Int))
  | 0, _, _ => none
  | n + 1, found, acc =>
    if L.and goal (L.not found) = L.ff then some (found, acc.reverse)
    else
      let start := determinize (bddMgr B types) ((List.range types.length).map L.var) (L.and goal (L.not found))
      let (cube, kept) := shrinkCube (fun f => decide (L.and f (L.not goal) = L.ff)) (List.range types.length) start []
      cubeLoop types goal n (L.or found cube) (cubeLiterals types kept :: acc)

/-- The results of a run: what is printed, an error, undefined behaviour while reading, or the bound for the rounds was exceeded.  (If there is an error, some
lines have been printed before; this is not modelled.) -/
inductive CnfOutcome where
  | prints (lines : List CnfLine)
  | error (e : CnfError)
  | inputError (e : InitErr)
  | ub
  | running

/-- The lines for one of the three kinds of clauses, `extensionComputeCNFFormOfTheSpecification.hpp:56-75`. -/
def clauseLines (types : List VarType) (fuel : Nat) (kind : ClauseKind) (rest : B) : Res CnfError (List CnfLine) :=
  match clauseLoop types rest fuel L.ff [] with
  | none => .stuck
  | some (found, cs) => if found ≠ L.not rest then .err (.wrongCnf 1) else .ok (cs.map (CnfLine.clause kind))

/-- The lines for the liveness guarantees or for the assumptions, `extensionComputeCNFFormOfTheSpecification.hpp:83-115`. -/
def liveLines (types : List VarType) (fuel : Nat) (guarantee : Bool) : List B → Res CnfError (List CnfLine)
  | [] => .ok []
  | goal :: goals =>
    match cubeLoop types goal fuel L.ff [] with
    | none => .stuck
    | some (found, cs) =>
      if found ≠ goal then .err (.wrongCnf 2)
      else
        match liveLines types fuel guarantee goals with
        | .ok ls => .ok (CnfLine.cubes guarantee cs :: ls)
        | r => r

/-- `XComputeCNFFormOfTheSpecification<GR1Context>::execute`, `extensionComputeCNFFormOfTheSpecification.hpp:34-118`. -/
def executeCnf (tab : VarTable) (c : Ctx B) (fuel : Nat) : Res CnfError (List CnfLine) :=
  match declLines 0 (tab.names.zip tab.types) with
  | .error e => .err e
  | .ok decls =>
    match clauseLines tab.types fuel .safetyGuarantee c.safetySys with
    | .err e => .err e | .ub => .ub | .stuck => .stuck
    | .ok l1 =>
      match clauseLines tab.types fuel .safetyAssumption c.safetyEnv with
      | .err e => .err e | .ub => .ub | .stuck => .stuck
      | .ok l2 =>
        match clauseLines tab.types fuel .init (L.and c.initEnv c.initSys) with
        | .err e => .err e | .ub => .ub | .stuck => .stuck
        | .ok l3 =>
          match liveLines tab.types fuel true c.livenessGuarantees with
          | .err e => .err e | .ub => .ub | .stuck => .stuck
          | .ok l4 =>
            match liveLines tab.types fuel false c.livenessAssumptions with
            | .err e => .err e | .ub => .ub | .stuck => .stuck
            | .ok l5 => .ok (decls ++ l1 ++ l2 ++ l3 ++ l4 ++ l5)

/-- A complete run with `--computeCNFFormOfTheSpecification`. -/
def runCnf (B : Type) [DecidableEq B] [BddLib B] (cap : Nat) (order : List Char → Bool) (fuel : Nat) (text : List Char) : CnfOutcome :=
  match initContext (B := B) cap order text with
  | .ok (tab, c) =>
    match executeCnf tab c fuel with
    | .ok ls => .prints ls
    | .err e => .error e
    | .ub => .ub
    | .stuck => .running
  | .err e => .inputError e
  | .ub => .ub
  | .stuck => .running

/-- The text of an integer as written by `operator<<`. -/
def intText (l : Int) : List Char := if l < 0 then '-' :: (toString l.natAbs).toList else (toString l.natAbs).toList

/-- The text of a line, `extensionComputeCNFFormOfTheSpecification.hpp:40,45,58,67,69,72,84,87,106-108,114`. -/
def CnfLine.text : CnfLine → List Char
  | .input x k k' => txt!"Input: " ++ x ++ [' '] ++ intText k ++ [' '] ++ intText k' ++ ['\n']
  | .output x k k' => txt!"Output: " ++ x ++ [' '] ++ intText k ++ [' '] ++ intText k' ++ ['\n']
  | .clause kind ls => (match kind with | .safetyGuarantee => txt!"SafetyGuarantee: " | .safetyAssumption => txt!"SafetyAssumption: " | .init => txt!"Init: ") ++
      ls.flatMap (fun l => intText l ++ [' ']) ++ txt!"0\n"
  | .cubes guarantee cs => (if guarantee then txt!"LivenessGuarantee:" else txt!"LivenessAssumption:") ++
      cs.flatMap (fun c => [' '] ++ c.flatMap (fun l => intText l ++ [' ']) ++ ['0']) ++ ['\n']

end Slugs.Model
