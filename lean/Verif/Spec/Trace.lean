import Verif.Spec.Game
import Verif.Spec.SpecFile
import Mathlib.Data.Set.Basic

/-!
Specification: winning in finite time.  The environment wins in at most `n` rounds if it can force that the system has no allowed answer any more after
at most `n` positions; dually for the system.
-/

namespace Slugs.Spec

variable {I O : Type}

/-- From `s`, the environment can force a violation of the safety guarantees within `n` rounds: it has a strategy that only chooses allowed inputs,
and no play of it in which the system obeys the safety guarantees has more than `n` positions. -/
def Game.EnvForces (g : Game I O) (n : Nat) (s : Pos I O) : Prop :=
  ∃ τ : EnvStrategy I O, (∀ cur h, g.EnvHist τ s (cur :: h) → g.safetyEnv cur (τ (cur :: h))) ∧ ∀ h, g.EnvHist τ s h → h.length ≤ n

/-- From `s`, the system can force a violation of the safety assumptions within `n` rounds. -/
def Game.SysForces (g : Game I O) (n : Nat) (s : Pos I O) : Prop :=
  ∃ σ : SysStrategy I O, (∀ cur h i, g.SysHist σ s (cur :: h) → g.safetyEnv cur i → g.safetySys cur (i, σ (cur :: h) i)) ∧
    ∀ h, g.SysHist σ s h → h.length ≤ n

/-- The environment can choose an allowed initial input so that it can force a violation within `n` rounds, whatever the allowed initial output is. -/
def Game.EnvForcesInit (g : Game I O) (n : Nat) : Prop := ∃ i, g.initEnv i ∧ ∀ o, g.initSys (i, o) → g.EnvForces n (i, o)

/-- For each allowed initial input the system can choose an allowed initial output so that it can force a violation within `n` rounds. -/
def Game.SysForcesInit (g : Game I O) (n : Nat) : Prop := ∀ i, g.initEnv i → ∃ o, g.initSys (i, o) ∧ g.SysForces n (i, o)

/-- From every position in `S` the environment has an allowed input so that all allowed answers lead to `S'`. -/
def Game.EnvLeads (g : Game I O) (S S' : Set (Pos I O)) : Prop :=
  ∀ s ∈ S, ∃ i, g.safetyEnv s i ∧ ∀ o, g.safetySys s (i, o) → (i, o) ∈ S'

/-- From every position in `S` the system has for each allowed input an allowed answer that leads to `S'`. -/
def Game.SysLeads (g : Game I O) (S S' : Set (Pos I O)) : Prop :=
  ∀ s ∈ S, ∀ i, g.safetyEnv s i → ∃ o, g.safetySys s (i, o) ∧ (i, o) ∈ S'

/-- Each set of the list leads to the next one. -/
def LeadsAlong (R : Set (Pos I O) → Set (Pos I O) → Prop) : Set (Pos I O) → List (Set (Pos I O)) → Prop
  | _, [] => True
  | S, S' :: Ss => R S S' ∧ LeadsAlong R S' Ss

/-- An entry of the table that is printed. -/
inductive Cell where
  | X | zero | one | star
  deriving DecidableEq, Repr

/-- How the values of a variable in a set of positions are shown. -/
def Shows (S : Set (Pos I O)) (value : Pos I O → Bool) : Cell → Prop
  | .X => S = ∅
  | .zero => S ≠ ∅ ∧ ∀ p ∈ S, value p = false
  | .one => S ≠ ∅ ∧ ∀ p ∈ S, value p = true
  | .star => (∃ p ∈ S, value p = true) ∧ ∃ p ∈ S, value p = false

/-- The column of the table shows the set: one entry per variable, inputs first. -/
def ShowsColumn (sp : SpecFile) (S : Set (Pos sp.In sp.Out)) (col : List Cell) : Prop :=
  List.Forall₂ (fun x c => Shows S (fun p => sp.now p.1 p.2 x) c) (sp.inputs ++ sp.outputs) col

/-- No variable can be given a fixed value in one of the sets without losing that the set before leads to it. -/
def Tight (sp : SpecFile) (R : Set (Pos sp.In sp.Out) → Set (Pos sp.In sp.Out) → Prop) : Set (Pos sp.In sp.Out) → List (Set (Pos sp.In sp.Out)) → Prop
  | _, [] => True
  | S, S' :: Ss => (∀ x ∈ sp.inputs ++ sp.outputs, ∀ b, (∃ p ∈ S', sp.now p.1 p.2 x ≠ b) → ¬ R S {p | p ∈ S' ∧ sp.now p.1 p.2 x = b}) ∧
    Tight sp R S' Ss

/-- Inputs that are allowed in all positions of the set and to which there is no allowed answer in any of them. -/
def Game.Blocking (g : Game I O) (S : Set (Pos I O)) : Set I := {i | ∀ s ∈ S, g.safetyEnv s i ∧ ∀ o, ¬ g.safetySys s (i, o)}

end Slugs.Spec
