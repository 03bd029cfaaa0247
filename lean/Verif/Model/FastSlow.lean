import Verif.Model.Explicit
import Verif.Spec.FastSlow

/-!
Model of `extensionIROSfastslow.hpp`: `--IROSfastslow`, alone or together with `--sysInitRoboticsSemantics`, `--explicitStrategy`, `--simpleRecovery`,
`--jsonOutput` and `--extractExplicitPermissiveStrategy`.
-/

namespace Slugs.Model

open Slugs.Spec

variable {B : Type} [DecidableEq B] [L : BddLib B]

/-- Section headers, `extensionIROSfastslow.hpp:96-117`.  (`readMode`, `:88`, is modelled by `Option FSSection`.) -/
def fsSectionOf (line : List Char) : Option FSSection :=
  if line = txt!"[INPUT]" then some .input
  else if line = txt!"[OUTPUT_F]" then some .outputF
  else if line = txt!"[OUTPUT_S]" then some .outputS
  else if line = txt!"[ENV_INIT]" then some .envInit
  else if line = txt!"[SYS_INIT]" then some .sysInit
  else if line = txt!"[ENV_TRANS]" then some .envTrans
  else if line = txt!"[SYS_TRANS]" then some .sysTrans
  else if line = txt!"[ENV_LIVENESS]" then some .envLiveness
  else if line = txt!"[SYS_LIVENESS]" then some .sysLiveness
  else none

/-- The variable types allowed in each section, `extensionIROSfastslow.hpp:140-187`. -/
def fsAllowedIn : FSSection → List VarType
  | .input => []
  | .outputF => []
  | .outputS => []
  | .envInit => [.preInput]
  | .sysInit => [.preInput, .preOutputFast, .preOutputSlow]
  | .envTrans => [.preInput, .preOutputFast, .preOutputSlow, .postInput]
  | .sysTrans => [.preInput, .preOutputFast, .preOutputSlow, .postInput, .postOutputFast, .postOutputSlow]
  | .envLiveness => [.preInput, .preOutputFast, .preOutputSlow, .postOutputFast, .postOutputSlow, .postInput]
  | .sysLiveness => [.preInput, .preOutputFast, .preOutputSlow, .postInput, .postOutputFast, .postOutputSlow]

/-- State while reading a file. -/
structure FSState (B : Type) where
  table : VarTable
  ctx : Ctx B
  mode : Option FSSection

/-- One line of the file (already trimmed), `extensionIROSfastslow.hpp:93-193`; simplified as `initLine`. -/
def fsLine (cap : Nat) (order : List Char → Bool) (st : FSState B) (line : List Char) : Res InitErr (FSState B) :=
  match line with
  | [] => .ok st
  | c :: _ =>
    if c = '#' then .ok st
    else if c = '[' then
      match fsSectionOf line with
      | some m => .ok { st with mode := some m }
      | none => .err .unknownSection
    else
      match st.mode with
      | none => .err .noContext
      | some .input =>
        .ok { st with table := (st.table.add .preInput line).add .postInput (line ++ ['\'']) }
      | some .outputF =>
        .ok { st with table := (st.table.add .preOutputFast line).add .postOutputFast (line ++ ['\'']) }
      | some .outputS =>
        .ok { st with table := (st.table.add .preOutputSlow line).add .postOutputSlow (line ++ ['\'']) }
      | some m =>
        match parseFormula st.table (fsAllowedIn m) cap order line with
        | .ok (some f) => .ok { st with ctx := addConstraint st.ctx f m.plain }
        | .ok none => .ub
        | .err e => .err (.formula e)
        | .ub => .ub
        | .stuck => .stuck

/-- The loop over the lines, `extensionIROSfastslow.hpp:91-194`. -/
def fsLines (cap : Nat) (order : List Char → Bool) : FSState B → List (List Char) → Res InitErr (FSState B)
  | st, [] => .ok st
  | st, l :: ls =>
    match fsLine cap order st (trim l) with
    | .ok st => fsLines cap order st ls
    | .err e => .err e
    | .ub => .ub
    | .stuck => .stuck

/-- `XIROSFS::init` on the content of an input file, `extensionIROSfastslow.hpp:69-205` (opening the file is not modelled). -/
def fsInit (cap : Nat) (order : List Char → Bool) (content : List Char) : Res InitErr (VarTable × Ctx B) :=
  match fsLines cap order { table := (initStart (B := B)).table, ctx := (initStart (B := B)).ctx, mode := none } (splitLines content) with
  | .ok st =>
    if st.table.names.Nodup then
      .ok (st.table, { st.ctx with
        livenessAssumptions := if st.ctx.livenessAssumptions = [] then [L.tt] else st.ctx.livenessAssumptions
        livenessGuarantees := if st.ctx.livenessGuarantees = [] then [L.tt] else st.ctx.livenessGuarantees })
    else .err .duplicateNames
  | .err e => .err e
  | .ub => .ub
  | .stuck => .stuck

/-- The operations with which `XIROSFS` computes the winning positions and the verdict: fast and slow outputs are abstracted from one after the other,
`extensionIROSfastslow.hpp:316,349`. -/
def fsMgr (B : Type) [DecidableEq B] [L : BddLib B] (types : List VarType) : Mgr B :=
  { bddMgr B types with
    exPostOutput := fun f => L.exist (varsOfType types .postOutputSlow) (L.exist (varsOfType types .postOutputFast) f)
    exPreOutput := fun f => L.exist (varsOfType types .preOutputSlow) (L.exist (varsOfType types .preOutputFast) f) }

/-- `newSafetySys`, `extensionIROSfastslow.hpp:228-231`. -/
def newSafetySys (types : List VarType) (safetySys : B) : B :=
  let M := bddMgr B types
  let safeStates := L.exist (varsOfType types .postOutputFast) (L.exist (varsOfType types .postOutputSlow) (M.exPostInput safetySys))
  let safeNext := M.swap (L.exist (varsOfType types .preOutputFast) (L.exist (varsOfType types .preOutputSlow) (M.exPreInput safetySys)))
  M.and safetySys
    (L.swap (varsOfType types .postOutputSlow) (varsOfType types .preOutputSlow) (M.swap (M.and safeStates safeNext)))

/-- `XIROSFS::checkRealizability`, `extensionIROSfastslow.hpp:341-361`, and (`robotics = true`) `XRoboticsSemantics::checkRealizability` with the winning
positions of `XIROSFS`.  `XIROSFS::computeWinningPositions`, `:225-338`, is that of `synthesisAlgorithm.cpp:15-91` with `newSafetySys` instead of `safetySys`. -/
def checkFS (robotics : Bool) (types : List VarType) (c : Ctx B) (fuel : Nat) : Option (Verdict × B × Dump B) :=
  let c' := { c with safetySys := newSafetySys types c.safetySys }
  if robotics then checkRealizabilityRobotics .standard (fsMgr B types) c' fuel
  else checkRealizability .standard (fsMgr B types) c' fuel

/-- `main.cpp:337-350` for `XIROSFS<GR1Context>` and `XRoboticsSemantics<XIROSFS<GR1Context>>`, `main.cpp:133-134`. -/
def runFS (B : Type) [DecidableEq B] [BddLib B] (robotics : Bool) (cap : Nat) (order : List Char → Bool) (fuel : Nat) (text : List Char) :
    Outcome :=
  match fsInit (B := B) cap order text with
  | .ok (tab, c) => outcomeOf (checkFS robotics tab.types c fuel)
  | .err e => .inputError e
  | .ub => .ub
  | .stuck => .running

/-- A run of `XExtractExplicitStrategy<T,recovery,_>` (`perm = false`) or `XExtractPermissiveExplicitStrategy<T,recovery>` (`perm = true`) with `T` equal to
`XIROSFS<GR1Context>` or `XRoboticsSemantics<XIROSFS<GR1Context>>`, `main.cpp:114-123`.  (The extraction does not use `safetySys`.) -/
def runFSExplicit (B : Type) [DecidableEq B] [BddLib B] (robotics perm recovery : Bool) (cap : Nat) (order : List Char → Bool) (fuel : Nat)
    (text : List Char) : ExplicitOutcome :=
  match fsInit (B := B) cap order text with
  | .ok (tab, c) =>
    let r := checkFS robotics tab.types c fuel
    match r with
    | some (.realizable, winningPositions, dump) =>
      match extractStrategy (bddMgr B tab.types) c (tableVars B tab) perm recovery fuel winningPositions dump with
      | some sts => .strategy sts
      | none => .none .running
    | _ => .none (outcomeOf r)
  | .err e => .none (.inputError e)
  | .ub => .none .ub
  | .stuck => .none .running

end Slugs.Model
