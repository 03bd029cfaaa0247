import Verif.Spec.SpecFile

/-! Relaxing a specification: strengthening what is assumed and weakening what is guaranteed. -/

namespace Slugs.Spec

/-- From `g` to `g'` the safety and liveness assumptions get stronger and the safety and liveness guarantees get weaker: the environment may do
less in each step, the system may do more, every liveness assumption of `g` is implied by one of `g'`, and every
liveness guarantee of `g'` is implied by one of `g`. -/
structure Game.Relaxes {I O : Type} (g g' : Game I O) : Prop where
  safetyEnv : ∀ s i, g'.safetyEnv s i → g.safetyEnv s i
  safetySys : ∀ s t, g.safetySys s t → g'.safetySys s t
  assumptions : ∀ a ∈ g.assumptions, ∃ a' ∈ g'.assumptions, ∀ s t, a' s t → a s t
  guarantees : ∀ b' ∈ g'.guarantees, ∃ b ∈ g.guarantees, ∀ s t, b s t → b' s t

/-- From `sp` to `sp'`, lines have been added to the sections for assumptions and lines have been removed from the sections for guarantees
(and possibly lines have been repeated or moved within a section); `sysInit` is treated separately. -/
structure SpecFile.Relaxes (sp sp' : SpecFile) : Prop where
  inputs : sp'.inputs = sp.inputs
  outputs : sp'.outputs = sp.outputs
  envInit : ∀ φ ∈ sp.envInit, φ ∈ sp'.envInit
  envTrans : ∀ φ ∈ sp.envTrans, φ ∈ sp'.envTrans
  envLiveness : ∀ φ ∈ sp.envLiveness, φ ∈ sp'.envLiveness
  sysTrans : ∀ φ ∈ sp'.sysTrans, φ ∈ sp.sysTrans
  sysLiveness : ∀ φ ∈ sp'.sysLiveness, φ ∈ sp.sysLiveness

end Slugs.Spec
