import Verif.Spec.Explicit

/-!
What it means that a system strategy is cooperative (`/repo/src/main.cpp:91`: "Computes a controller strategy that is cooperative with its
environment"): it is winning, and at any time the environment can still go on in such a way that all its liveness assumptions are fulfilled.
-/

namespace Slugs.Spec

variable {I O : Type}

/-- The history after the first `n` positions of `p` were appended to the history `h`. -/
def afterHist (h : History I O) (p : Nat → Pos I O) : Nat → History I O
  | 0 => h
  | n + 1 => p n :: afterHist h p n

/-- `σ` is winning from `s`, and every history that can arise can be continued to an infinite play on which all liveness assumptions hold
infinitely often. -/
def Game.CoopWinning (g : Game I O) (σ : SysStrategy I O) (s : Pos I O) : Prop :=
  g.SysWinning σ s ∧
  ∀ h, g.SysHist σ s h → ∃ p : Nat → Pos I O, (∀ n, g.SysHist σ s (afterHist h p n)) ∧ ∀ a ∈ g.assumptions, InfOften a p

/-- The system has a cooperative strategy from `s`. -/
def Game.CoopWins (g : Game I O) (s : Pos I O) : Prop := ∃ σ, g.CoopWinning σ s

/-- For every initial input that the environment may choose, the system has an initial output it may choose and from which it has a
cooperative strategy. -/
def Game.CoopRealizable (g : Game I O) : Prop :=
  ∀ i, g.initEnv i → ∃ o, g.initSys (i, o) ∧ g.CoopWins (i, o)

/-- The system has a cooperative strategy from every initial position. -/
def Game.RoboticsCoopRealizable (g : Game I O) : Prop :=
  ∀ i o, g.initEnv i → g.initSys (i, o) → g.CoopWins (i, o)

/-- From every state of a printed strategy there is an infinite run on which the environment fulfils all its assumptions (and on which all
guarantees are fulfilled, too). -/
def CoopRuns (sp : SpecFile) (sts : List PState) : Prop :=
  ∀ st ∈ sts, ∃ r : Nat → PState, r 0 = st ∧ (∀ n, Edge sts (r n) (r (n + 1))) ∧
    (∀ n, sp.game.safetyEnv ((r n).pos sp) ((r (n + 1)).pos sp).1) ∧
    (∀ a ∈ sp.game.assumptions, InfOften a fun n => (r n).pos sp) ∧
    (∀ b ∈ sp.game.guarantees, InfOften b fun n => (r n).pos sp)

end Slugs.Spec
