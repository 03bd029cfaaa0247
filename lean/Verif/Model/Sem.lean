import Verif.Model.Variants

/-!
The semantic instance of the BF operations: a Boolean function over current and next variables is a set of
pairs (current position, next position), where a position consists of an input and an output.
`Lemmas/Transfer.lean` relates it to Boolean functions over numbered variables.
-/

namespace Slugs.Model

open Slugs.Spec

/-- Boolean functions over current and next variables, as predicates on pairs of positions. -/
abbrev T (I O : Type) := Pos I O → Pos I O → Prop

noncomputable instance instDecEqT (I O : Type) : DecidableEq (T I O) := fun a b => Classical.propDecidable (a = b)

/-- The BF operations on `T`.  The cubes quantify over the respective component. -/
def semMgr (I O : Type) : Mgr (T I O) where
  tt := fun _ _ => True
  ff := fun _ _ => False
  and f g := fun s t => f s t ∧ g s t
  or f g := fun s t => f s t ∨ g s t
  not f := fun s t => ¬ f s t
  swap f := fun s t => f t s
  exPostOutput f := fun s t => ∃ o, f s (t.1, o)
  exPostInput f := fun s t => ∃ i, f s (i, t.2)
  exPost f := fun s _ => ∃ t, f s t
  exPre f := fun _ t => ∃ s, f s t
  exPreOutput f := fun s t => ∃ o, f (s.1, o) t
  exPreInput f := fun s t => ∃ i, f (i, s.2) t
  allPostInput f := fun s t => ∀ i, f s (i, t.2)
  allPostOutput f := fun s t => ∀ o, f s (t.1, o)
  allPreInput f := fun s t => ∀ i, f (i, s.2) t
  allPreOutput f := fun s t => ∀ o, f (s.1, o) t

/-- The context that represents a game: each constraint becomes a Boolean function that depends on the variables its
section may mention (`synthesisContextBasics.cpp:176-211`). -/
def gameCtx {I O : Type} (g : Game I O) : Ctx (T I O) where
  livenessAssumptions := g.assumptions
  livenessGuarantees := g.guarantees
  initEnv := fun s _ => g.initEnv s.1
  initSys := fun s _ => g.initSys s
  safetyEnv := fun s t => g.safetyEnv s t.1
  safetySys := g.safetySys

end Slugs.Model
