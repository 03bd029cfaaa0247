import Verif.Spec.SpecFile

/-!
Specification: outputs that have to be set before the input of the same step is known.  This file does not refer to the code of slugs.
-/

namespace Slugs.Spec

/-- The strategy chooses the next values of the outputs in `S` without looking at the next input. -/
def BlindFor {I Y : Type} (S : Y → Prop) (σ : SysStrategy I (Y → Bool)) : Prop :=
  ∀ h i i' y, S y → σ h i y = σ h i' y

/-- The specification is realizable although in every step the values of the outputs in `L` have to be set before the input is read.  (In the initial
position, all inputs are read before the outputs are chosen.) -/
def SpecFile.RealizableBefore (sp : SpecFile) (L : List Word) : Prop :=
  ∀ i, sp.game.initEnv i → ∃ o, sp.game.initSys (i, o) ∧
    ∃ σ, BlindFor (fun y : {x // x ∈ sp.outputs} => y.1 ∈ L) σ ∧ sp.game.SysWinning σ (i, o)

end Slugs.Spec
