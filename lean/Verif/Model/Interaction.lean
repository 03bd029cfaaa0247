import Verif.Model.Run

/-!
Model of `extensionAnalyzeSafetyLivenessInteraction.hpp`: `--analyzeSafetyLivenessInteraction`.  Not modelled: the layout of the table that is printed.
-/

namespace Slugs.Model

section
variable {B : Type} [DecidableEq B]

/-- `computeWinningPositions` followed by the tests for the classical and for the robotics semantics,
`extensionAnalyzeSafetyLivenessInteraction.hpp:81-84,118-121`. -/
def checkBoth (M : Mgr B) (c : Ctx B) (fuel : Nat) : Option (Bool × Bool) :=
  match computeWinningPositions M c fuel with
  | none => none
  | some (winningPositions, _) =>
    some (decide (M.allPreInput (M.imp c.initEnv (M.exPreOutput (M.and winningPositions c.initSys))) = M.tt),
      decide (M.allPreInput (M.allPreOutput (M.imp (M.and c.initEnv c.initSys) winningPositions)) = M.tt))

/-- The parts of the specification used in row `i`, `extensionAnalyzeSafetyLivenessInteraction.hpp:54-79`. -/
def rowCtx (M : Mgr B) (c : Ctx B) (i : Nat) : Ctx B :=
  { c with
    safetyEnv := if 0 < i &&& 8 then c.safetyEnv else M.tt
    safetySys := if 0 < i &&& 2 then c.safetySys else M.tt
    livenessAssumptions := if 0 < i &&& 4 then c.livenessAssumptions else [M.tt]
    livenessGuarantees := if 0 < i &&& 1 then c.livenessGuarantees else [M.tt] }

/-- The rows of the table, `extensionAnalyzeSafetyLivenessInteraction.hpp:53-98`. -/
def rowLoop (M : Mgr B) (c : Ctx B) (fuel : Nat) : List Nat → Option (List (Bool × Bool))
  | [] => some []
  | i :: is =>
    match checkBoth M (rowCtx M c i) fuel with
    | none => none
    | some r =>
      match rowLoop M c fuel is with
      | none => none
      | some rs => some (r :: rs)

/-- The loop for the environment, `extensionAnalyzeSafetyLivenessInteraction.hpp:145-157`.  State: `winningPositions`, `oldWinningPositions` and `round`.
Result: `winningPositions` and `roundFoundInitPos` (`none` stands for -1). -/
def envRounds (M : Mgr B) (c : Ctx B) : Nat → B → B → Nat → Option (B × Option Nat)
  | 0, _, _, _ => none
  | n + 1, W, old, round =>
    if W = old then some (W, none)
    else
      let W' := M.or W (M.exPostInput (M.and c.safetyEnv (M.allPostOutput (M.or (M.swap W) (M.not c.safetySys)))))
      if M.exPreInput (M.allPreOutput (M.or (M.not c.initSys) (M.and c.initEnv W'))) = M.tt then some (W', some (round + 1))
      else envRounds M c n W' W (round + 1)

/-- The loop for the system, `extensionAnalyzeSafetyLivenessInteraction.hpp:173-185`, which does not stop when `roundFoundInitPos` is found.  State:
`winningPositions`, `oldWinningPositions`, `round` and `roundFoundInitPos`. -/
def sysRounds (M : Mgr B) (c : Ctx B) : Nat → B → B → Nat → Option Nat → Option (Option Nat)
  | 0, _, _, _, _ => none
  | n + 1, W, old, round, found =>
    if W = old then some found
    else
      let W' := M.or W (M.allPostInput (M.exPostOutput (M.or (M.and c.safetySys (M.swap W)) (M.not c.safetyEnv))))
      let found' := if found = none ∧ M.allPreInput (M.imp c.initEnv (M.exPreOutput (M.and W' c.initSys))) = M.tt then some (round + 1) else found
      sysRounds M c n W' W (round + 1) found'

/-- The last message. -/
inductive FiniteReport where
  /-- "... the environment can falsify the system's specification within `n` steps."; the flag says whether "However, there is no corresponding strategy that
  starts from a position that satisfies all initialization constraints" follows -/
  | env (n : Nat) (noStart : Bool)
  /-- "... the environment can't falsify the system's specification." -/
  | envCannot
  /-- "... the system can falsify the environment's specification within `n` steps." -/
  | sys (n : Nat)
  /-- "... the system can't falsify the environment's specification." -/
  | sysCannot
  deriving DecidableEq, Repr

/-- `extensionAnalyzeSafetyLivenessInteraction.hpp:142-192`; `safetyRow` is the classical result of row 10. -/
def finiteReport (M : Mgr B) (c : Ctx B) (fuel : Nat) (safetyRow : Bool) : Option FiniteReport :=
  if safetyRow then
    match sysRounds M c fuel M.ff (M.not M.ff) 0 none with
    | none => none
    | some none => some .sysCannot
    | some (some n) => some (.sys n)
  else
    match envRounds M c fuel M.ff (M.not M.ff) 0 with
    | none => none
    | some (_, none) => some .envCannot
    | some (W, some n) => some (.env n (decide (M.and (M.and c.initEnv c.initSys) W = M.ff)))
end

/-- The specification with the extra bit, `extensionAnalyzeSafetyLivenessInteraction.hpp:112-116`; `k` and `k + 1` are the numbers of the new variables. -/
def nonStrictCtx (B : Type) [DecidableEq B] [L : BddLib B] (c : Ctx B) (k : Nat) : Ctx B :=
  { c with
    safetySys := L.xor (L.not (L.var (k + 1))) (L.or (L.not c.safetySys) (L.var k))
    livenessGuarantees := c.livenessGuarantees ++ [L.not (L.var (k + 1))] }

/-- What is printed. -/
structure InteractionReport where
  /-- "yes"/"no" for the classical and for the robotics semantics, rows 0 to 15 -/
  rows : List (Bool × Bool)
  /-- the lines about the non-strict implication, if they are printed: whether "the specification becomes realizable" in the non-robotics and in the robotics
  semantics, or "nothing changes" -/
  nonStrict : Option (Bool × Bool)
  finite : FiniteReport
  deriving DecidableEq, Repr

/-- What a run ends with. -/
inductive InteractionOutcome where
  | report (r : InteractionReport)
  | inputError (e : InitErr)
  | ub
  | running
  deriving DecidableEq, Repr

/-- `XAnalyzeSafetyLivenessInteraction::execute`, `extensionAnalyzeSafetyLivenessInteraction.hpp:35-196`.  The two variables of the extra bit, both with the
name `safetyGuaranteesFailed`, are only added if the non-strict implication is analysed, `:103-109`; they stay in the variable table for the rest. -/
def executeInteraction (B : Type) [DecidableEq B] [BddLib B] (tab : VarTable) (c : Ctx B) (fuel : Nat) : Option InteractionReport :=
  match rowLoop (bddMgr B tab.types) c fuel (List.range 16) with
  | none => none
  | some rows =>
    let row10 := rows.getD 10 (false, false)
    let row15 := rows.getD 15 (false, false)
    if !row15.1 || !row15.2 then
      let tab' := (tab.add .preOutput "safetyGuaranteesFailed".toList).add .postOutput "safetyGuaranteesFailed".toList
      match checkBoth (bddMgr B tab'.types) (nonStrictCtx B c tab.types.length) fuel with
      | none => none
      | some (classical, robotics) =>
        match finiteReport (bddMgr B tab'.types) c fuel row10.1 with
        | none => none
        | some f => some ⟨rows, some (classical && !row15.1, robotics && !row15.2), f⟩
    else
      match finiteReport (bddMgr B tab.types) c fuel row10.1 with
      | none => none
      | some f => some ⟨rows, none, f⟩

/-- `main.cpp:337-350` for the plugin `XAnalyzeSafetyLivenessInteraction<GR1Context>` (`main.cpp:139`). -/
def runInteraction (B : Type) [DecidableEq B] [BddLib B] (cap : Nat) (order : List Char → Bool) (fuel : Nat) (text : List Char) : InteractionOutcome :=
  match initContext (B := B) cap order text with
  | .ok (tab, c) =>
    match executeInteraction B tab c fuel with
    | none => .running
    | some r => .report r
  | .err e => .inputError e
  | .ub => .ub
  | .stuck => .running

end Slugs.Model
