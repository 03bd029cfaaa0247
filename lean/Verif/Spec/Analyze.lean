import Verif.Spec.SpecFile
import Mathlib.SetTheory.Cardinal.Finite

/-! What `--analyzeInitialPositions` is about: reachable positions, marked lines, and numbers of positions. -/

namespace Slugs.Spec

variable {I O : Type}

/-- The positions on finite paths that start in an initial position and along which both players obey the safety constraints. -/
inductive Game.Reachable (g : Game I O) : Pos I O → Prop
  | start {s} : g.initEnv s.1 → g.initSys s → g.Reachable s
  | step {s t} : g.Reachable s → g.safetyEnv s t.1 → g.safetySys s t → g.Reachable t

/-- The comment with which the structured slugs compiler marks constraints that stem from the bounds of numeric variables. -/
def limitMark : List Char := txt!"## Variable limits: "

/-- The items that directly follow a comment with the mark (blank lines and other comments may come in between, a header may not).
`cur` is the open section, `m` tells whether a mark has been seen. -/
def markedItems : Option Section → Bool → List (List Char) → List (Section × List Char)
  | _, _, [] => []
  | cur, m, l :: ls =>
    if trim l = [] then markedItems cur m ls
    else if (trim l).head? = some '#' then markedItems cur (m || limitMark.isPrefixOf (trim l)) ls
    else if (trim l).head? = some '[' then markedItems ((headerOf (trim l)).or cur) false ls
    else (if m then cur.toList.map fun s => (s, trim l) else []) ++ markedItems cur false ls

/-- The marked initialisation constraints of a text. -/
def DenotesLimits (text : List Char) (lims : List Fml) : Prop :=
  List.Forall₂ ReadsLine (((markedItems none false (splitLines text)).filter fun p => p.1 = .envInit ∨ p.1 = .sysInit).map fun p => p.2) lims

/-- The positions that are taken into account. -/
def SpecFile.Considered (sp : SpecFile) (lims : List Fml) (restrict : Bool) (p : Pos sp.In sp.Out) : Prop :=
  (∀ φ ∈ lims, sp.holds p p φ) ∧ (restrict = true → sp.game.Reachable p)

end Slugs.Spec
