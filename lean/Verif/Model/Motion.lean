import Verif.Model.Interleave
import Verif.Spec.Motion

/-!
Model of `extensionNondeterministicMotion.hpp`: `--nonDeterministicMotion`, alone or together with `--sysInitRoboticsSemantics`.  Not modelled: the files for
debugging that are written to `/tmp`, and `strategyDumpingData`, which only `--interactiveStrategy --nonDeterministicMotion` uses.
-/

namespace Slugs.Model

open Slugs.Spec

variable {B : Type} [DecidableEq B] [L : BddLib B]

/-- Section headers, `extensionNondeterministicMotion.hpp:188-213`.  (`readMode`, `:179`, is modelled by `Option MSection`.) -/
def mSectionOf (line : List Char) : Option MSection :=
  if line = txt!"[INPUT]" then some .input
  else if line = txt!"[MOTION STATE OUTPUT]" then some .motionState
  else if line = txt!"[MOTION CONTROLLER OUTPUT]" then some .motionControl
  else if line = txt!"[OTHER OUTPUT]" then some .otherOutput
  else if line = txt!"[ENV_INIT]" then some .envInit
  else if line = txt!"[SYS_INIT]" then some .sysInit
  else if line = txt!"[ENV_TRANS]" then some .envTrans
  else if line = txt!"[SYS_TRANS]" then some .sysTrans
  else if line = txt!"[ENV_LIVENESS]" then some .envLiveness
  else if line = txt!"[SYS_LIVENESS]" then some .sysLiveness
  else if line = txt!"[ABSTRACTION_REGION_BDDS]" then some .regions
  else none

/-- The variable types allowed in each section, `extensionNondeterministicMotion.hpp:243-294`. -/
def mAllowedIn : MSection → List VarType
  | .envInit => [.preInput, .preMotionState, .preOtherOutput]
  | .sysInit => [.preInput, .preMotionState, .preOtherOutput]
  | .envTrans => [.preInput, .preMotionState, .preOtherOutput, .postInput, .postMotionState, .postOtherOutput]
  | .sysTrans => [.preInput, .preMotionState, .postMotionControlOutput, .preOtherOutput, .postInput, .postMotionState, .postOtherOutput]
  | .envLiveness => [.preInput, .preMotionState, .preOtherOutput, .postInput]
  | .sysLiveness => [.preInput, .preMotionState, .postMotionControlOutput, .preOtherOutput, .postInput, .postMotionState, .postOtherOutput]
  | _ => []

/-- The section of an ordinary file to which a section of constraints corresponds. -/
def mPlain : MSection → Section
  | .input => .input
  | .envInit => .envInit
  | .sysInit => .sysInit
  | .envTrans => .envTrans
  | .sysTrans => .sysTrans
  | .envLiveness => .envLiveness
  | .sysLiveness => .sysLiveness
  | _ => .output

/-- `parseBooleanFormulaRecurseEx`, `extensionNondeterministicMotion.hpp:54-122`: as `parseRec`, with named BDDs (`readBDDs`). -/
def parseRecEx (named : List (Name × B)) (tab : VarTable) (allowed : List VarType) (cap : Nat) (order : List Char → Bool) :
    Nat → List (Option B) → List Char → Res ReadErr (Option B × List Char)
  | 0, _, _ => .stuck
  | fuel + 1, mem, inp =>
    let (word, rest) := readWord inp
    let two (op : B → B → B) : Res ReadErr (Option B × List Char) :=
      match parseRecEx named tab allowed cap order fuel mem rest with
      | .ok (a, rest1) =>
        match parseRecEx named tab allowed cap order fuel mem rest1 with
        | .ok (b, rest2) => if order rest then binOp op b a rest2 else binOp op a b rest2
        | .err e => .err e
        | .ub => .ub
        | .stuck => .stuck
      | .err e => .err e
      | .ub => .ub
      | .stuck => .stuck
    if word = [] then .err .prematureEnd
    else if word = ['|'] then two L.or
    else if word = ['^'] then two L.xor
    else if word = ['&'] then two L.and
    else if word = ['!'] then
      match parseRecEx named tab allowed cap order fuel mem rest with
      | .ok (some a, rest1) => .ok (some (L.not a), rest1)
      | .ok (none, _) => .ub
      | .err e => .err e
      | .ub => .ub
      | .stuck => .stuck
    else if word = ['1'] then .ok (some L.tt, rest)
    else if word = ['0'] then .ok (some L.ff, rest)
    else if word = ['$'] then
      match readUnsigned rest with
      | none => .err .expectedCount
      | some (n, rest1) =>
        if n ≥ cap then .err .badAlloc
        else
          match bufLoop (parseRecEx named tab allowed cap order fuel) n [] rest1 with
          | .ok (cells, rest2) =>
            match cells.getLast? with
            | some v => .ok (v, rest2)
            | none => .ub
          | .err e => .err e
          | .ub => .ub
          | .stuck => .stuck
    else if word = ['?'] then
      match readUnsigned rest with
      | none => .err .expectedIndex
      | some (k, rest1) =>
        match mem[k]? with
        | none => .err .notStored
        | some v => .ok (v, rest1)
    else
      match named.find? fun p => p.1 = word with
      | some p => .ok (some p.2, rest)
      | none => lookupVar word allowed rest 0 tab.names tab.types

/-- `parseBooleanFormulaEx`, `extensionNondeterministicMotion.hpp:131-145`. -/
def parseFormulaEx (named : List (Name × B)) (tab : VarTable) (allowed : List VarType) (cap : Nat) (order : List Char → Bool) (line : List Char) :
    Res ReadErr (Option B) :=
  match parseRecEx named tab allowed cap order (line.length + 1) [] line with
  | .ok (v, rest) => if (readWord rest).1 = [] then .ok v else .err .strayCharacters
  | .err e => .err e
  | .ub => .ub
  | .stuck => .stuck

/-- `BFBddManager::readBDDFromFile`, `BFCuddManager.cpp:133-151`: variable number `i` of the file becomes the `i`-th of the given variables
(`DDDMP_VAR_COMPOSEIDS`).  A file is modelled by the predicate that it stores; files that mention other variables are not modelled. -/
def readBdd : List Nat → BitPred → B
  | [], f => if f [] then L.tt else L.ff
  | k :: ks, f =>
    L.or (L.and (L.var k) (readBdd ks fun l => f (true :: l))) (L.and (L.not (L.var k)) (readBdd ks fun l => f (false :: l)))

/-- The variables of exactly the given type, in decreasing order ("Invert all order to get the least significant bit first"),
`extensionNondeterministicMotion.hpp:304-307,334-345`. -/
def varsDown (types : List VarType) (ty : VarType) : List Nat :=
  ((List.range types.length).filter fun i => types[i]? = some ty).reverse

/-- State while reading a file; `named` is the map `readBDDs`, the newest entry first. -/
structure MState (B : Type) where
  table : VarTable
  named : List (Name × B)
  ctx : Ctx B
  mode : Option MSection

/-- Errors while reading a file. -/
inductive MotionErr where
  | init (e : InitErr)
  /-- "There must be at least one space in a BDD definition line.", `extensionNondeterministicMotion.hpp:296-299` -/
  | noSpace
  /-- exception if a BDD file cannot be opened, `BFCuddManager.cpp:135-140` -/
  | noFile
  /-- "A BDD with that name already exists.", `extensionNondeterministicMotion.hpp:317-320` -/
  | bddExists
  deriving DecidableEq, Repr

/-- One line of the file (already trimmed), `extensionNondeterministicMotion.hpp:186-329`; simplified as `initLine`. -/
def mLine (bddFile : List Char → Option BitPred) (cap : Nat) (order : List Char → Bool) (st : MState B) (line : List Char) :
    Res MotionErr (MState B) :=
  match line with
  | [] => .ok st
  | c :: _ =>
    if c = '#' then .ok st
    else if c = '[' then
      match mSectionOf line with
      | some m => .ok { st with mode := some m }
      | none => .err (.init .unknownSection)
    else
      match st.mode with
      | none => .err (.init .noContext)
      | some .input =>
        .ok { st with table := (st.table.add .preInput line).add .postInput (line ++ ['\'']) }
      | some .motionState =>
        .ok { st with table := (st.table.add .preMotionState line).add .postMotionState (line ++ ['\'']) }
      | some .motionControl =>
        .ok { st with table := (st.table.add .preMotionControlOutput line).add .postMotionControlOutput (line ++ ['\'']) }
      | some .otherOutput =>
        .ok { st with table := (st.table.add .preOtherOutput line).add .postOtherOutput (line ++ ['\'']) }
      | some .regions =>
        if ' ' ∈ line then
          let bddName := line.takeWhile (· ≠ ' ')
          match bddFile ((line.dropWhile (· ≠ ' ')).drop 1) with
          | none => .err .noFile
          | some f =>
            let newBDD := readBdd (varsDown st.table.types .preMotionState) f
            if (st.named.find? fun p => p.1 = bddName).isSome then .err .bddExists
            else
              .ok { st with named := (bddName ++ ['\''], (bddMgr B st.table.types).swap newBDD) :: (bddName, newBDD) :: st.named }
        else .err .noSpace
      | some m =>
        match parseFormulaEx st.named st.table (mAllowedIn m) cap order line with
        | .ok (some f) => .ok { st with ctx := addConstraint st.ctx f (mPlain m) }
        | .ok none => .ub
        | .err e => .err (.init (.formula e))
        | .ub => .ub
        | .stuck => .stuck

/-- The loop over the lines, `extensionNondeterministicMotion.hpp:183-330`. -/
def mLines (bddFile : List Char → Option BitPred) (cap : Nat) (order : List Char → Bool) : MState B → List (List Char) → Res MotionErr (MState B)
  | st, [] => .ok st
  | st, l :: ls =>
    match mLine bddFile cap order st (trim l) with
    | .ok st => mLines bddFile cap order st ls
    | .err e => .err e
    | .ub => .ub
    | .stuck => .stuck

/-- `addAutomaticallyGeneratedLivenessAssumption`, the assumption, `extensionNondeterministicMotion.hpp:467-475`. -/
def motionAssumption (types : List VarType) (robotBDD : B) : B :=
  let pairs := (varsOfType types .preMotionState).zip (varsOfType types .postMotionState)
  let different := pairs.foldl (fun d p => L.or d (L.xor (L.var p.1) (L.var p.2))) L.ff
  let canChange := L.exist (varsOfType types .postMotionState) (L.and different robotBDD)
  L.or (L.not canChange) different

/-- `XNonDeterministicMotion::init` on the content of the specification file and the predicate in the robot file,
`extensionNondeterministicMotion.hpp:154-354,465-487`.  Opening these two files is not modelled.  (It is not checked that the names are distinct.) -/
def mInit (bddFile : List Char → Option BitPred) (robot : BitPred) (cap : Nat) (order : List Char → Bool) (content : List Char) :
    Res MotionErr (VarTable × Ctx B × B) :=
  match mLines bddFile cap order { table := (initStart (B := B)).table, named := [], ctx := (initStart (B := B)).ctx, mode := none } (splitLines content) with
  | .ok st =>
    let types := st.table.types
    let robotBDD := readBdd (varsDown types .preMotionState ++ varsDown types .postMotionControlOutput ++ varsDown types .postMotionState) robot
    .ok (st.table, { st.ctx with
      livenessAssumptions := st.ctx.livenessAssumptions ++ [motionAssumption types robotBDD]
      livenessGuarantees := if st.ctx.livenessGuarantees = [] then [L.tt] else st.ctx.livenessGuarantees }, robotBDD)
  | .err e => .err e
  | .ub => .ub
  | .stuck => .stuck

/-- The enforceable predecessor operator, `extensionNondeterministicMotion.hpp:359,407-413`. -/
def ctlMotion (B : Type) [DecidableEq B] [L : BddLib B] (types : List VarType) (c : Ctx B) (robotBDD foundPaths : B) : B :=
  let M := bddMgr B types
  let robotAllowedMoves := L.exist (varsOfType types .postMotionState) robotBDD
  M.allPostInput (L.exist (varsOfType types .postMotionControlOutput)
    (M.imp c.safetyEnv
      (M.and robotAllowedMoves (L.univ (varsOfType types .postMotionState) (M.imp robotBDD (M.and foundPaths c.safetySys))))))

/-- `XNonDeterministicMotion::checkRealizability`, `extensionNondeterministicMotion.hpp:356-463`.  The loops are those of `computeWinningPositionsBA`. -/
def checkMotion (B : Type) [DecidableEq B] [L : BddLib B] (robotics : Bool) (types : List VarType) (c : Ctx B) (robotBDD : B) (fuel : Nat) : Option Verdict :=
  let M := bddMgr B types
  match computeWinningPositionsBA M (ctlMotion B types c robotBDD) c.livenessAssumptions c.livenessGuarantees fuel with
  | none => none
  | some (winningPositions, _) =>
    let result :=
      if robotics then M.allPreInput (M.imp c.initEnv (M.allPreOutput winningPositions))
      else M.allPreInput (M.imp c.initEnv (M.exPreOutput (M.and winningPositions c.initSys)))
    some (verdictOf M (L.exist (varsOfType types .preMotionState) result))

/-- What a run ends with. -/
inductive MotionOutcome where
  | realizable
  | unrealizable
  | internalError
  | inputError (e : MotionErr)
  | ub
  | running
  deriving DecidableEq, Repr

/-- `main.cpp:337-350` and `XNonDeterministicMotion::execute`, `extensionNondeterministicMotion.hpp:493-500`. -/
def runMotion (B : Type) [DecidableEq B] [BddLib B] (robotics : Bool) (bddFile : List Char → Option BitPred) (robot : BitPred) (cap : Nat)
    (order : List Char → Bool) (fuel : Nat) (text : List Char) : MotionOutcome :=
  match mInit (B := B) bddFile robot cap order text with
  | .ok (tab, c, robotBDD) =>
    match checkMotion B robotics tab.types c robotBDD fuel with
    | some .realizable => .realizable
    | some .unrealizable => .unrealizable
    | some .internalError => .internalError
    | none => .running
  | .err e => .inputError e
  | .ub => .ub
  | .stuck => .running

end Slugs.Model
