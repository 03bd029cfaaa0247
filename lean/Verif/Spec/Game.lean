/-
Specification: GR(1) games between an environment (choosing inputs) and a system (choosing outputs).
This file does not refer to the code of slugs.  It follows the description of GR(1) synthesis in
`/repo/doc/input_formats.md` and `/repo/README.md`.
-/

namespace Slugs.Spec

/-- A position of the game: the current input and the current output. -/
abbrev Pos (I O : Type) := I × O

/-- A GR(1) game.  Next-step constraints may refer to the current position and the next one; the safety assumptions may
only refer to the current position and the next *input*; liveness constraints may refer to both positions. -/
structure Game (I O : Type) where
  initEnv : I → Prop
  initSys : Pos I O → Prop
  safetyEnv : Pos I O → I → Prop
  safetySys : Pos I O → Pos I O → Prop
  assumptions : List (Pos I O → Pos I O → Prop)
  guarantees : List (Pos I O → Pos I O → Prop)

variable {I O : Type}

/-- Histories are non-empty lists of positions, the most recent position first. -/
abbrev History (I O : Type) := List (Pos I O)

/-- A system strategy picks an output from the history and the next input. -/
abbrev SysStrategy (I O : Type) := History I O → I → O

/-- An environment strategy picks the next input from the history. -/
abbrev EnvStrategy (I O : Type) := History I O → I

/-- The prefix of length `n+1` of an infinite sequence of positions, as a history. -/
def prefixHist (p : Nat → Pos I O) : Nat → History I O
  | 0 => [p 0]
  | n + 1 => p (n + 1) :: prefixHist p n

/-- The transition predicate `a` holds infinitely often along `p`. -/
def InfOften (a : Pos I O → Pos I O → Prop) (p : Nat → Pos I O) : Prop :=
  ∀ n, ∃ m, n ≤ m ∧ a (p m) (p (m + 1))

/-- The liveness part of the objective: if all assumptions hold infinitely often, so do all guarantees. -/
def Game.Live (g : Game I O) (p : Nat → Pos I O) : Prop :=
  (∀ a ∈ g.assumptions, InfOften a p) → ∀ b ∈ g.guarantees, InfOften b p

/-- Histories that can arise when the system follows `σ` from `s`
and the environment obeys the safety assumptions. -/
inductive Game.SysHist (g : Game I O) (σ : SysStrategy I O) (s : Pos I O) : History I O → Prop
  | start : g.SysHist σ s [s]
  | step {cur : Pos I O} {h : History I O} {i : I} :
      g.SysHist σ s (cur :: h) → g.safetyEnv cur i →
      g.SysHist σ s ((i, σ (cur :: h) i) :: cur :: h)

/-- `σ` is winning for the system from `s`: every move of the system that answers an allowed input is
allowed, and every infinite play satisfies the liveness objective.  (If the environment has no allowed input, the play
ends and the system has won.) -/
def Game.SysWinning (g : Game I O) (σ : SysStrategy I O) (s : Pos I O) : Prop :=
  (∀ cur h i, g.SysHist σ s (cur :: h) → g.safetyEnv cur i → g.safetySys cur (i, σ (cur :: h) i)) ∧
  (∀ p : Nat → Pos I O, (∀ n, g.SysHist σ s (prefixHist p n)) → g.Live p)

/-- The system wins from `s`. -/
def Game.SysWins (g : Game I O) (s : Pos I O) : Prop := ∃ σ, g.SysWinning σ s

/-- Histories that can arise when the environment follows `τ` from `s`
and the system obeys the safety guarantees. -/
inductive Game.EnvHist (g : Game I O) (τ : EnvStrategy I O) (s : Pos I O) : History I O → Prop
  | start : g.EnvHist τ s [s]
  | step {cur : Pos I O} {h : History I O} {o : O} :
      g.EnvHist τ s (cur :: h) → g.safetySys cur (τ (cur :: h), o) →
      g.EnvHist τ s ((τ (cur :: h), o) :: cur :: h)

/-- `τ` is winning for the environment from `s`: every input it chooses is allowed, and on every infinite play all
liveness assumptions hold infinitely often while some liveness guarantee does not.
(If the system has no allowed output, the play ends and the environment has won.) -/
def Game.EnvWinning (g : Game I O) (τ : EnvStrategy I O) (s : Pos I O) : Prop :=
  (∀ cur h, g.EnvHist τ s (cur :: h) → g.safetyEnv cur (τ (cur :: h))) ∧
  (∀ p : Nat → Pos I O, (∀ n, g.EnvHist τ s (prefixHist p n)) → ¬ g.Live p)

/-- The environment wins from `s`. -/
def Game.EnvWins (g : Game I O) (s : Pos I O) : Prop := ∃ τ, g.EnvWinning τ s

/-- Realizability in the standard semantics: for every initial input that the environment may choose, the system has an
initial output it may choose and from which it wins. -/
def Game.Realizable (g : Game I O) : Prop :=
  ∀ i, g.initEnv i → ∃ o, g.initSys (i, o) ∧ g.SysWins (i, o)

/-- Realizability in the robotics semantics: the system wins from every initial position. -/
def Game.RoboticsRealizable (g : Game I O) : Prop :=
  ∀ i o, g.initEnv i → g.initSys (i, o) → g.SysWins (i, o)

end Slugs.Spec
