import Verif.Spec.StructuredFile

/-!
The game of Cinderella and her stepmother, with water in whole units.  There are `n` buckets in a circle, which are empty at first and can hold `capacity` units each.  In
each round, Cinderella chooses a bucket and empties it and the ones after it, `power` buckets in total; then the stepmother distributes up to `units` units over the
buckets.  Cinderella loses when a bucket overflows.
-/

namespace Slugs.Spec.Cinderella

/-- Bucket `i` is emptied when Cinderella chooses bucket `e`. -/
def Emptied (n power e i : Nat) : Prop := ∃ k, k < power ∧ i = (e + k) % n

/-- The contents after a round: `x` are the units that the stepmother adds. -/
def Round (n power e : Nat) (b x b' : Nat → Nat) : Prop :=
  ∀ i, i < n → (Emptied n power e i → b' i = x i) ∧ (¬ Emptied n power e i → b' i = b i + x i)

/-- What the stepmother can add. -/
def CanAdd (n units : Nat) (x : Nat → Nat) : Prop := ((List.range n).map x).sum ≤ units

/-- Cinderella can go on forever: there are contents `W` that include the empty buckets, and from which Cinderella can choose such that all buckets hold their
contents after the round, and the contents are in `W` again. -/
def CinderellaWins (n power capacity units : Nat) : Prop :=
  ∃ W : (Nat → Nat) → Prop, (∀ b, (∀ i, i < n → b i = 0) → W b) ∧
    ∀ b, W b → ∃ e, e < n ∧ ∀ x b', CanAdd n units x → Round n power e b x b' → (∀ i, i < n → b' i ≤ capacity) ∧ W b'

end Slugs.Spec.Cinderella
