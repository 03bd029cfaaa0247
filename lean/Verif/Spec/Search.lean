import Mathlib.Data.List.Forall2
import Mathlib.Data.Int.Order.Basic

/-!
What the tools that search for parameters are meant to find.
-/

namespace Slugs.Spec

/-- A parameter of a script: its minimal value, its maximal value, and whether realizability is monotone (`true`) or antitone (`false`) in it. -/
structure Parameter where
  least : Int
  greatest : Int
  monotone : Bool

/-- The values are between the minimal and the maximal ones. -/
def InRange (ps : List Parameter) (t : List Int) : Prop := List.Forall₂ (fun p a => p.least ≤ a ∧ a ≤ p.greatest) ps t

/-- With the values `t`, specifications are at least as easy as with the values `s`. -/
def Easier : List Parameter → List Int → List Int → Prop
  | p :: ps, a :: s, b :: t => (if p.monotone then a ≤ b else b ≤ a) ∧ Easier ps s t
  | _, _, _ => True

/-- The promise of the user. -/
def Promised (ps : List Parameter) (real : List Int → Prop) : Prop := ∀ s t, InRange ps s → InRange ps t → Easier ps s t → real s → real t

/-- A point of the Pareto front: realizable, and no harder values are. -/
def ParetoPoint (ps : List Parameter) (real : List Int → Prop) (t : List Int) : Prop :=
  InRange ps t ∧ real t ∧ ∀ s, InRange ps s → real s → Easier ps s t → s = t

end Slugs.Spec
