import Verif.Model.Parser
import Verif.Model.ROBDD
import Verif.Spec.Estimator

/-!
Model of `extensionIncompleteInformationEstimatorSynthesis.hpp`: `--computeIncompleteInformationEstimator`.
-/

namespace Slugs.Model

open Slugs.Spec

/-- The part of the contract that is only used here: `BF::readNodeIndex` (`BFCudd.h`), i.e. `Cudd_NodeReadIndex` of the root.  The root of a function that is not
constant is labelled with a variable on which the function depends. -/
class BddTop (B : Type) [DecidableEq B] [L : BddLib B] where
  top : B → Nat
  top_dep : ∀ b : B, b ≠ L.tt → b ≠ L.ff → ∃ v : Asg,
    L.eval b (fun k => if k = top b then true else v k) ≠ L.eval b (fun k => if k = top b then false else v k)

variable {B : Type} [DecidableEq B] [L : BddLib B]

/-! ### Reading the file -/

/-- Section headers, `extensionIncompleteInformationEstimatorSynthesis.hpp:72-92`.  (`readMode`, `:63`, is modelled by `Option ESection`.) -/
def eSectionOf (line : List Char) : Option ESection :=
  if line = txt!"[OBSERVABLE_INPUT]" then some .observable
  else if line = txt!"[UNOBSERVABLE_INPUT]" then some .unobservable
  else if line = txt!"[CONTROLLABLE_INPUT]" then some .controllable
  else if line = txt!"[OUTPUT]" then some .output
  else if line = txt!"[ENV_INIT]" then some .envInit
  else if line = txt!"[SYS_INIT]" then some .sysInit
  else if line = txt!"[ENV_TRANS]" then some .envTrans
  else if line = txt!"[SYS_TRANS]" then some .sysTrans
  else none

/-- The variable types allowed in each section, `extensionIncompleteInformationEstimatorSynthesis.hpp:103-136`. -/
def eAllowedIn : ESection → List VarType
  | .observable => []
  | .unobservable => []
  | .controllable => []
  | .output => []
  | .envInit => [.observablePre, .controllablePre, .unobservablePre]
  | .sysInit => [.observablePre, .controllablePre, .unobservablePre, .estimationPre]
  | .envTrans => [.observablePre, .controllablePre, .unobservablePre, .estimationPre, .observablePost, .unobservablePost, .controllablePost]
  | .sysTrans => [.observablePre, .controllablePre, .unobservablePre, .estimationPre, .observablePost, .unobservablePost, .estimationPost,
      .controllablePost]

/-- State while reading a file. -/
structure EState (B : Type) where
  table : VarTable
  ctx : Ctx B
  mode : Option ESection

/-- One line of the file (already trimmed), `extensionIncompleteInformationEstimatorSynthesis.hpp:70-146`; simplified as `initLine`. -/
def eLine (cap : Nat) (order : List Char → Bool) (st : EState B) (line : List Char) : Res InitErr (EState B) :=
  match line with
  | [] => .ok st
  | c :: _ =>
    if c = '#' then .ok st
    else if c = '[' then
      match eSectionOf line with
      | some m => .ok { st with mode := some m }
      | none => .err .unknownSection
    else
      match st.mode with
      | none => .err .noContext
      | some .observable =>
        .ok { st with table := (st.table.add .observablePre line).add .observablePost (line ++ ['\'']) }
      | some .unobservable =>
        .ok { st with table := (st.table.add .unobservablePre line).add .unobservablePost (line ++ ['\'']) }
      | some .controllable =>
        .ok { st with table := (st.table.add .controllablePre line).add .controllablePost (line ++ ['\'']) }
      | some .output =>
        .ok { st with table := (st.table.add .estimationPre line).add .estimationPost (line ++ ['\'']) }
      | some m =>
        match parseFormula st.table (eAllowedIn m) cap order line with
        | .ok (some f) => .ok { st with ctx := addConstraint st.ctx f m.plain }
        | .ok none => .ub
        | .err e => .err (.formula e)
        | .ub => .ub
        | .stuck => .stuck

/-- The loop over the lines, `extensionIncompleteInformationEstimatorSynthesis.hpp:67-147`. -/
def eLines (cap : Nat) (order : List Char → Bool) : EState B → List (List Char) → Res InitErr (EState B)
  | st, [] => .ok st
  | st, l :: ls =>
    match eLine cap order st (trim l) with
    | .ok st => eLines cap order st ls
    | .err e => .err e
    | .ub => .ub
    | .stuck => .stuck

/-- `XIncompleteInformationEstimatorSynthesis::init` on the content of an input file, `extensionIncompleteInformationEstimatorSynthesis.hpp:45-152` (opening
the file is not modelled). -/
def eInit (cap : Nat) (order : List Char → Bool) (content : List Char) : Res InitErr (VarTable × Ctx B) :=
  match eLines cap order { table := (initStart (B := B)).table, ctx := (initStart (B := B)).ctx, mode := none } (splitLines content) with
  | .ok st => if st.table.names.Nodup then .ok (st.table, st.ctx) else .err .duplicateNames
  | .err e => .err e
  | .ub => .ub
  | .stuck => .stuck

/-! ### Writing a BDD as a formula -/

/-- `nodes` and `parts`, `extensionIncompleteInformationEstimatorSynthesis.hpp:197-198`.  Equal hash codes mean equal functions; the memory of nodes is not
reused while the function to be printed is alive, since all functions that occur are represented by nodes below it.  (Reordering during the recursion is not
modelled.) -/
structure PState (B : Type) where
  nodes : List (B × Nat)
  parts : List (List Char)

/-- `nodes.find(...)`. -/
def findNode (b : B) : List (B × Nat) → Option Nat
  | [] => none
  | (b', i) :: r => if b' = b then some i else findNode b r

/-- Appending a part and remembering its number.  (Part numbers are `int`s; that there may be more than `2^31` parts is not modelled.) -/
def PState.push (st : PState B) (b : B) (part : List Char) : Nat × PState B :=
  (st.parts.length, ⟨(b, st.parts.length) :: st.nodes, st.parts ++ [part]⟩)

/-- The text of an inner node, `extensionIncompleteInformationEstimatorSynthesis.hpp:181`. -/
def partText (name : Name) (qTrue qFalse : Nat) : List Char :=
  txt!"| & " ++ name ++ txt!" ? " ++ decimal qTrue ++ txt!" & ! " ++ name ++ txt!" ? " ++ decimal qFalse

/-- `recursePrintBFAsSlugsExpression`, `extensionIncompleteInformationEstimatorSynthesis.hpp:159-187`.  The first argument bounds the depth of the recursion.
`.err` is the exception of `varIndicesByNodeIndex.at`. -/
def printRec [T : BddTop B] (names : List Name) : Nat → B → PState B → Res Unit (Nat × PState B)
  | 0, _, _ => .stuck
  | n + 1, b, st =>
    match findNode b st.nodes with
    | some i => .ok (i, st)
    | none =>
      if b = L.ff then .ok (st.push b txt!"0")
      else if b = L.tt then .ok (st.push b txt!"1")
      else
        match names[T.top b]? with
        | none => .err ()
        | some name =>
          let v := T.top b
          let trueSucc := L.exist [v] (L.and b (L.var v))
          let falseSucc := L.exist [v] (L.and b (L.not (L.var v)))
          match printRec names n trueSucc st with
          | .ok (qTrue, st) =>
            match printRec names n falseSucc st with
            | .ok (qFalse, st) => .ok (st.push b (partText name qTrue qFalse))
            | .err e => .err e
            | .ub => .ub
            | .stuck => .stuck
          | .err e => .err e
          | .ub => .ub
          | .stuck => .stuck

/-- `printBFAsSlugsExpression`, `extensionIncompleteInformationEstimatorSynthesis.hpp:189-213`. -/
def printFormula [BddTop B] (names : List Name) (fuel : Nat) (b : B) : Res Unit (List Char) :=
  match printRec names fuel b ⟨[], []⟩ with
  | .ok (_, st) => .ok (txt!"$ " ++ decimal st.parts.length ++ st.parts.flatMap (fun p => ' ' :: p))
  | .err e => .err e
  | .ub => .ub
  | .stuck => .stuck

/-! ### The computation -/

/-- The loops `while (reachableStates!=oldReachableStates)`, `extensionIncompleteInformationEstimatorSynthesis.hpp:230-236,340-344,359-363`. -/
def eReachLoop (M : Mgr B) (trans : B) : Nat → B → B → Option B
  | 0, _, _ => none
  | n + 1, reachable, old =>
    if reachable = old then some reachable
    else eReachLoop M trans n (M.or reachable (M.swap (M.exPre (M.and reachable trans)))) reachable

/-- The body of the loop over the variables, `extensionIncompleteInformationEstimatorSynthesis.hpp:280-302`. -/
def preferStep (tab : VarTable) (i : Nat) (strategy : B) : B :=
  match tab.names[i]?, tab.types[i]? with
  | some name, some ty =>
    if ty.closure.contains .estimationPre then
      let postVar := L.var (i + 1)
      if name.take 4 = txt!"min_" then
        let smod := L.and strategy postVar
        L.and strategy (L.or (L.not (L.exist (varsOfType tab.types .estimationPost) smod)) postVar)
      else if name.take 4 = txt!"max_" then
        let smod := L.and strategy (L.not postVar)
        L.and strategy (L.or (L.not (L.exist (varsOfType tab.types .estimationPost) smod)) (L.not postVar))
      else strategy
    else strategy
  | _, _ => strategy

/-- `for (int i=variables.size()-1;i>=0;i--)`, `extensionIncompleteInformationEstimatorSynthesis.hpp:279-303`; the argument is `i + 1`. -/
def preferLoop (tab : VarTable) : Nat → B → B
  | 0, strategy => strategy
  | i + 1, strategy => preferLoop tab i (preferStep tab i strategy)

/-- What the program computes in `execute` before the min/max difference analysis. -/
structure EstimatorBdds (B : Type) where
  reachable : B
  strategy : B
  assumption : B
  envDeadEnds : B
  sysDeadEnds : B

/-- The computations of `execute`, `extensionIncompleteInformationEstimatorSynthesis.hpp:217-381`. -/
def estimatorBdds (tab : VarTable) (c : Ctx B) (fuel : Nat) : Option (EstimatorBdds B) :=
  let M := bddMgr B tab.types
  let init := M.and c.initSys c.initEnv
  match eReachLoop M (M.and c.safetyEnv c.safetySys) fuel init M.ff with
  | none => none
  | some reachable =>
    let sound := M.not (L.exist (varsOfTypes tab.types [.unobservablePre, .unobservablePost])
      (M.and (M.and reachable c.safetyEnv) (M.not c.safetySys)))
    let strategy := preferLoop tab tab.names.length sound
    match eReachLoop M (M.and (M.and c.safetyEnv c.safetySys) strategy) fuel init M.ff with
    | none => none
    | some reachable2 =>
      let assumption := L.exist (varsOfTypes tab.types [.unobservablePre, .unobservablePost, .estimationPost, .controllablePost])
        (M.and reachable2 c.safetyEnv)
      match eReachLoop M (M.and (M.and c.safetyEnv assumption) strategy) fuel init M.ff with
      | none => none
      | some reachable3 =>
        let envDeadEnds := M.and (M.not (M.exPost assumption)) reachable3
        let sysDeadEnds := M.and (M.and (M.not envDeadEnds) (L.univ (varsOfType tab.types .estimationPost) (M.not strategy))) reachable3
        some ⟨reachable, strategy, assumption, envDeadEnds, sysDeadEnds⟩

/-- What the program prints: the text on the standard output, and which warnings appear on the standard error output. -/
structure EstimatorReport where
  out : List Char
  noInitial : Bool
  envDeadEnds : Bool
  sysDeadEnds : Bool
  deriving DecidableEq

/-- Outcomes of a run. -/
inductive EstimatorOutcome where
  | report (r : EstimatorReport)
  | inputError (e : InitErr)
  | exception
  | ub
  | running
  deriving DecidableEq

/-- The comment in front of the formulas, `extensionIncompleteInformationEstimatorSynthesis.hpp:324-327`. -/
def estimatorHeader : List Char :=
  txt!"#=======================================================\n#= Belief Space Abstraction                            =\n#=======================================================\n# --- End of the specification for the report\n"

/-- `main.cpp:337-350` for `XIncompleteInformationEstimatorSynthesis<GR1Context>`, `main.cpp:163`: `init` and `execute`,
`extensionIncompleteInformationEstimatorSynthesis.hpp:217-381`.  Not modelled: the progress messages on the standard error output, the pictures of dead ends written
to `/tmp`, and the analysis of variables with `@` in their names after all of this, `:383-end`, which only writes to the standard error output. -/
def runEstimator (B : Type) [DecidableEq B] [L : BddLib B] [BddTop B] (cap : Nat) (order : List Char → Bool) (fuel : Nat) (text : List Char) :
    EstimatorOutcome :=
  match eInit (B := B) cap order text with
  | .ok (tab, c) =>
    match estimatorBdds tab c fuel with
    | none => .running
    | some r =>
      match printFormula tab.names fuel r.strategy, printFormula tab.names fuel r.assumption with
      | .ok t1, .ok t2 =>
        .report ⟨estimatorHeader ++ txt!"[SYS_TRANS]\n" ++ t1 ++ txt!"\n[ENV_TRANS]\n" ++ t2 ++ txt!"\n", r.reachable = L.ff,
          r.envDeadEnds ≠ L.ff, r.sysDeadEnds ≠ L.ff⟩
      | .stuck, _ => .running
      | _, .stuck => .running
      | _, _ => .exception
  | .err e => .inputError e
  | .ub => .ub
  | .stuck => .running

/-- The root of a decision diagram is labelled with a variable on which it depends. -/
instance : BddTop ROBDD where
  top b := match b.1 with | .leaf _ => 0 | .node v _ _ => v
  top_dep := by
    rintro ⟨t, ht⟩ h1 h2
    cases t with
    | leaf b => cases b <;> [exact absurd rfl h2; exact absurd rfl h1]
    | node v hi lo =>
      by_contra hno
      push Not at hno
      obtain ⟨_, hne, h3, h4⟩ := ht
      refine hne (BDT.canonical h3 h4 fun a => ?_)
      have := hno a
      change BDT.eval (.node v hi lo) (BDT.setv a v true) = BDT.eval (.node v hi lo) (BDT.setv a v false) at this
      rw [BDT.eval, BDT.eval, show BDT.setv a v true v = true by simp [BDT.setv], show BDT.setv a v false v = false by simp [BDT.setv],
        if_pos rfl, if_neg (by simp), BDT.eval_set h3, BDT.eval_set h4] at this
      exact this

end Slugs.Model
