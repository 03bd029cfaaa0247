import Verif.Spec.SpecFile

/-!
How an assignment of the numbered variables of a symbolic strategy is read as a transition.
-/

namespace Slugs.Spec

/-- The assignment gives the declared variables their values in `s` and `t`; `names` lists the names by number. -/
def Assigns (sp : SpecFile) (names : List Word) (s t : Pos sp.In sp.Out) (a : Nat → Bool) : Prop :=
  (∀ x, a (names.idxOf x.1) = s.1 x ∧ a (names.idxOf (prime x.1)) = t.1 x) ∧
  (∀ x, a (names.idxOf x.1) = s.2 x ∧ a (names.idxOf (prime x.1)) = t.2 x)

/-- The variables with the given numbers hold the number `j` in binary, the least significant bit first. -/
def Holds (vars : List Nat) (j : Nat) (a : Nat → Bool) : Prop := ∀ k v, vars[k]? = some v → a v = j.testBit k

/-- The number of goals that a strategy pursues in turn (a file without liveness guarantees has one goal, which always holds). -/
def SpecFile.goals (sp : SpecFile) : Nat := max 1 sp.sysLiveness.length

/-- A transition reaches the goal with number `j`. -/
def SpecFile.Reaches (sp : SpecFile) (j : Nat) (s t : Pos sp.In sp.Out) : Prop := ∀ G, sp.game.guarantees[j]? = some G → G s t

end Slugs.Spec
