import Verif.Spec.Interactive

/-!
Specification: the table that `--computeInterestingRunOfTheSystem` prints, and what it should say.
-/

namespace Slugs.Spec

/-- The last part of a row: the values of the input variables and of the output variables, or one of the texts `Env.Loses` and `Sys.Loses`. -/
inductive RunBody where
  | position (inputs outputs : List (Word × Bool))
  | envLoses
  | sysLoses
  deriving DecidableEq, Repr

/-- A row: the number of the liveness assumption and of the liveness guarantee that the players work towards, each with a mark `+` if it is reached by the step that
begins in this row, whether the text `(safety prop. violation)` is added, and what is shown of the position. -/
structure RunRow where
  envGoal : Nat
  envMark : Bool
  envViolation : Bool
  sysGoal : Nat
  sysMark : Bool
  body : RunBody
  deriving DecidableEq, Repr

/-- The row shows the position `s`: a value for every declared variable, in the order of the declarations. -/
def RunRow.ShowsPos (sp : SpecFile) (r : RunRow) (s : Pos sp.In sp.Out) : Prop :=
  r.body = .position (sp.inputs.map fun x => (x, sp.now s.1 s.2 x)) (sp.outputs.map fun x => (x, sp.now s.1 s.2 x))

/-- How the number of a goal goes on after a row: to the next of the `n` goals if there is a mark, and after the last one to the first one. -/
def nextGoal (n cur : Nat) (mark : Bool) : Nat := if mark then (cur + 1) % n else cur

/-- A step that both players allow, to a position from which the system still wins. -/
def Game.WinStep {I O : Type} (g : Game I O) (s t : Pos I O) : Prop := g.safetyEnv s t.1 ∧ g.safetySys s t ∧ g.SysWins t

/-- What the table should say: the rows show a run of at most `n` steps from position `s`, while the players work towards the goals `e` and `k`.
Each row shows a position, the goals are numbered one after the other, and every step is one that both players allow and after which the system still wins.  The marks
tell whether the step reaches the goals.  The table ends after `n` steps or when the environment has no allowed input any more; then there is a row
`Env.Loses`. -/
inductive IdealRun (sp : SpecFile) : Nat → Pos sp.In sp.Out → Nat → Nat → List RunRow → Prop
  | last {s : Pos sp.In sp.Out} {e k : Nat} {r : RunRow} : r.ShowsPos sp s → r.envGoal = e → r.sysGoal = k → IdealRun sp 0 s e k [r]
  | stuck {n : Nat} {s : Pos sp.In sp.Out} {e k : Nat} {r r' : RunRow} : r.ShowsPos sp s → r.envGoal = e → r.sysGoal = k →
      (∀ i, ¬ sp.game.safetyEnv s i) → r'.body = .envLoses → IdealRun sp (n + 1) s e k [r, r']
  | step {n : Nat} {s t : Pos sp.In sp.Out} {e k : Nat} {r : RunRow} {rest : List RunRow} : r.ShowsPos sp s → r.envGoal = e → r.sysGoal = k →
      sp.game.WinStep s t → (r.sysMark = true ↔ sp.Reaches k s t) → (r.envMark = true ↔ sp.Fulfils e s t) →
      IdealRun sp n t (nextGoal sp.hopes e r.envMark) (nextGoal sp.goals k r.sysMark) rest →
      IdealRun sp (n + 1) s e k (r :: rest)

/-- What is true of the table: as `IdealRun`, except that the marks tell whether *some* step that the players could take reaches the goals (and the goal can be reached by
some other step, too), which need not be the step to the next row; and that the table may also end with a row `Sys.Loses` although the environment has an allowed
input.  Moreover, the text about violations of the safety assumptions only appears if there are no output variables. -/
inductive ShownRun (sp : SpecFile) : Nat → Pos sp.In sp.Out → Nat → Nat → List RunRow → Prop
  | last {s : Pos sp.In sp.Out} {e k : Nat} {r : RunRow} : r.ShowsPos sp s → r.envGoal = e → r.sysGoal = k → ShownRun sp 0 s e k [r]
  | stuck {n : Nat} {s : Pos sp.In sp.Out} {e k : Nat} {r r' : RunRow} : r.ShowsPos sp s → r.envGoal = e → r.sysGoal = k →
      (r'.body = .envLoses ∧ (∀ i, ¬ sp.game.safetyEnv s i) ∨ r'.body = .sysLoses ∧ ∃ i, sp.game.safetyEnv s i) → ShownRun sp (n + 1) s e k [r, r']
  | step {n : Nat} {s t t' : Pos sp.In sp.Out} {e k : Nat} {r : RunRow} {rest : List RunRow} : r.ShowsPos sp s → r.envGoal = e → r.sysGoal = k →
      sp.game.WinStep s t → sp.game.WinStep s t' →
      (r.sysMark = true ↔ sp.Reaches k s t' ∧ ∃ x y, (x, y) ≠ (s, t') ∧ sp.Reaches k x y) →
      (r.envMark = true ↔ sp.Fulfils e s t' ∧ ∃ x y, (x, y) ≠ (s, t') ∧ sp.Fulfils e x y) →
      (r.envViolation = true → sp.outputs = []) →
      ShownRun sp n t (nextGoal sp.hopes e r.envMark) (nextGoal sp.goals k r.sysMark) rest →
      ShownRun sp (n + 1) s e k (r :: rest)

/-- Every next input, even one that the safety assumptions exclude, has an answer that obeys the safety guarantees. -/
def Game.AlwaysAnswer {I O : Type} (g : Game I O) : Prop := ∀ s i, ¬ g.safetyEnv s i → ∃ o, g.safetySys s (i, o)

end Slugs.Spec
