import Verif.Spec.Trace

/-!
Specification: parts of a specification, and the non-strict implication between assumptions and guarantees.  This file does not refer to the code of
slugs.
-/

namespace Slugs.Spec

variable {I O : Type}

/-- Only some parts of the specification: the safety assumptions (`sa`), the liveness assumptions (`la`), the safety guarantees (`sg`) and the liveness
guarantees (`lg`).  The other parts are left out; the initialisation constraints stay. -/
def Game.keep (g : Game I O) (sa la sg lg : Bool) : Game I O :=
  { g with
    safetyEnv := fun s i => sa = true → g.safetyEnv s i
    safetySys := fun s t => sg = true → g.safetySys s t
    assumptions := if la then g.assumptions else []
    guarantees := if lg then g.guarantees else [] }

/-- `p` is an infinite play from `s` in which the system follows `σ` and the environment obeys the safety assumptions; the system need not obey the safety
guarantees. -/
structure Game.SysPlay (g : Game I O) (σ : SysStrategy I O) (s : Pos I O) (p : Nat → Pos I O) : Prop where
  start : p 0 = s
  follows : ∀ n, (p (n + 1)).2 = σ (prefixHist p n) (p (n + 1)).1
  allowed : ∀ n, g.safetyEnv (p n) (p (n + 1)).1

/-- All assumptions hold along the play. -/
def Game.Assumed (g : Game I O) (p : Nat → Pos I O) : Prop := ∀ a ∈ g.assumptions, InfOften a p

/-- All guarantees hold along the play. -/
def Game.Guaranteed (g : Game I O) (p : Nat → Pos I O) : Prop := (∀ n, g.safetySys (p n) (p (n + 1))) ∧ ∀ b ∈ g.guarantees, InfOften b p

/-- The system wins from `s` for the non-strict implication: all plays along which all assumptions hold satisfy all guarantees.  The system may violate its
safety guarantees before the environment violates the assumptions. -/
def Game.NonStrictWins (g : Game I O) (s : Pos I O) : Prop := ∃ σ, ∀ p, g.SysPlay σ s p → g.Assumed p → g.Guaranteed p

/-- From `s` the system can enforce that the assumptions are violated. -/
def Game.ForcesViolation (g : Game I O) (s : Pos I O) : Prop := ∃ σ, ∀ p, g.SysPlay σ s p → ¬ g.Assumed p

/-- Realizability for the non-strict implication, standard semantics. -/
def Game.NonStrictRealizable (g : Game I O) : Prop := ∀ i, g.initEnv i → ∃ o, g.initSys (i, o) ∧ g.NonStrictWins (i, o)

/-- Realizability for the non-strict implication, robotics semantics. -/
def Game.NonStrictRobotics (g : Game I O) : Prop := ∀ i o, g.initEnv i → g.initSys (i, o) → g.NonStrictWins (i, o)

end Slugs.Spec
