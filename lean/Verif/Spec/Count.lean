import Mathlib.SetTheory.Cardinal.Finite

/-! Counting the satisfying assignments of a Boolean function over a list of variables. -/

namespace Slugs.Spec

/-- The assignment of all variables that is given by values for the variables in `vs` (the others are false). -/
def extend (vs : List Nat) (a : {v // v ∈ vs} → Bool) (v : Nat) : Bool := if h : v ∈ vs then a ⟨v, h⟩ else false

/-- The number of assignments of the variables in `vs` that satisfy `f`. -/
noncomputable def satCount (vs : List Nat) (f : (Nat → Bool) → Bool) : Nat :=
  Nat.card {a : {v // v ∈ vs} → Bool // f (extend vs a) = true}

/-- The value of `f` only depends on the variables in `vs`. -/
def OnlyDependsOn (vs : List Nat) (f : (Nat → Bool) → Bool) : Prop :=
  ∀ a a' : Nat → Bool, (∀ v ∈ vs, a v = a' v) → f a = f a'

end Slugs.Spec
