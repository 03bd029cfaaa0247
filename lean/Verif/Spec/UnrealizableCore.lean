import Verif.Spec.SpecFile

/-! Minimal unrealizable cores of specifications. -/

namespace Slugs.Spec

/-- `sp'` has been obtained from `sp` by leaving out safety guarantees and liveness guarantees. -/
structure SpecFile.PartOf (sp' sp : SpecFile) : Prop where
  inputs : sp'.inputs = sp.inputs
  outputs : sp'.outputs = sp.outputs
  envInit : sp'.envInit = sp.envInit
  sysInit : sp'.sysInit = sp.sysInit
  envTrans : sp'.envTrans = sp.envTrans
  envLiveness : sp'.envLiveness = sp.envLiveness
  sysTrans : sp'.sysTrans.Sublist sp.sysTrans
  sysLiveness : sp'.sysLiveness.Sublist sp.sysLiveness

/-- `core` is a minimal unrealizable core of `sp`: it is an unrealizable part of it, and it becomes realizable if any one of its safety guarantees or liveness
guarantees is left out. -/
structure SpecFile.MinimalCore (sp core : SpecFile) : Prop where
  part : core.PartOf sp
  unrealizable : ¬ core.game.Realizable
  safety : ∀ before φ after, core.sysTrans = before ++ φ :: after → (SpecFile.game { core with sysTrans := before ++ after }).Realizable
  liveness : ∀ before φ after, core.sysLiveness = before ++ φ :: after → (SpecFile.game { core with sysLiveness := before ++ after }).Realizable

end Slugs.Spec
