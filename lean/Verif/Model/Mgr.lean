import Verif.Spec.Game

/-!
The operations of the BF library that the synthesis algorithms use, with the variable cubes and vectors of a
`GR1Context` already plugged in, and the fixed-point loop.
-/

namespace Slugs.Model

/-- The BF operations used by the algorithms.  Models `BFAbstractionLibrary/BFCudd.h:80-202`,
`BFAbstractionLibrary/BFCuddInlines.h` and the cubes/vectors of `gr1context.hpp:32-43`: `swap` is
`SwapVariables(varVectorPre,varVectorPost)`, `exX` is `ExistAbstract(varCubeX)` and `allX` is `UnivAbstract(varCubeX)`. -/
structure Mgr (B : Type) where
  tt : B
  ff : B
  and : B → B → B
  or : B → B → B
  not : B → B
  swap : B → B
  exPostOutput : B → B
  exPostInput : B → B
  exPost : B → B
  exPre : B → B
  exPreOutput : B → B
  exPreInput : B → B
  allPostInput : B → B
  allPostOutput : B → B
  allPreInput : B → B
  allPreOutput : B → B

/-- `BF::Implies`, `BFCudd.h:199-201`. -/
def Mgr.imp {B : Type} (M : Mgr B) (a b : B) : B := M.or (M.not a) b

/-- The specification-dependent fields of a `GR1Context`, `gr1context.hpp:26-31`. -/
structure Ctx (B : Type) where
  livenessAssumptions : List B
  livenessGuarantees : List B
  initEnv : B
  initSys : B
  safetyEnv : B
  safetySys : B

/-- `strategyDumpingData`, `gr1context.hpp:54`. -/
abbrev Dump (B : Type) := List (Nat × B)

/-- A loop `BFFixedPoint v(init); for (;!v.isFixedPointReached();) { ...; v.update(new); }` (`gr1context.hpp:95-110`).
The body is `step`; it gets the current value and the rest of the program state and returns the value passed to
`update` and the new state.  The first argument bounds the number of rounds; `none` means that the bound was exceeded
(here or in a nested loop), i.e. it is the outcome "still running". -/
def fixLoop {B σ : Type} [DecidableEq B] (step : B → σ → Option (B × σ)) : Nat → B → σ → Option (B × σ)
  | 0, _, _ => none
  | n + 1, cur, s =>
    match step cur s with
    | none => none
    | some (new, s') => if cur = new then some (cur, s') else fixLoop step n new s'

end Slugs.Model
