import Verif.Spec.SpecFile

/-!
What an explicit-state strategy is, and what makes it an implementation of a specification.
This follows `/repo/README.md` (option `--explicitStrategy`): a list of numbered states, each with a rank (the number of the liveness
guarantee that is currently pursued), a value for each variable, and the numbers of its successors.
-/

namespace Slugs.Spec

/-- One state of a printed strategy. -/
structure PState where
  num : Nat
  rank : Nat
  label : List (Word × Bool)
  succ : List Nat
  deriving DecidableEq, Repr

/-- The state lists a value for every declared variable, and nothing else, each exactly once. -/
def PState.Complete (sp : SpecFile) (st : PState) : Prop := (st.label.map Prod.fst).Perm (sp.inputs ++ sp.outputs)

/-- The position that a state is labelled with. -/
def PState.pos (sp : SpecFile) (st : PState) : Pos sp.In sp.Out :=
  (fun x => st.label.lookup x.1 == some true, fun x => st.label.lookup x.1 == some true)

/-- `st'` is a listed successor of `st`. -/
def Edge (sts : List PState) (st st' : PState) : Prop := st ∈ sts ∧ st' ∈ sts ∧ st'.num ∈ st.succ

/-- The states are numbered from 0 on in the order in which they are printed, no position is printed twice with the same rank,
and every successor number is the number of a printed state. -/
structure WellFormed (sp : SpecFile) (sts : List PState) : Prop where
  numbers : sts.map PState.num = List.range sts.length
  distinct : (sts.map fun st => (st.pos sp, st.rank)).Nodup
  labels : ∀ st ∈ sts, st.Complete sp
  targets : ∀ st ∈ sts, ∀ n ∈ st.succ, n < sts.length
  once : ∀ st ∈ sts, st.succ.Nodup

/-- For every next input that the safety assumptions allow there is a successor. -/
def Complete (sp : SpecFile) (sts : List PState) : Prop :=
  ∀ st ∈ sts, ∀ i, sp.game.safetyEnv (st.pos sp) i → ∃ st', Edge sts st st' ∧ (st'.pos sp).1 = i

/-- There is at most one successor for each next input. -/
def Deterministic (sp : SpecFile) (sts : List PState) : Prop :=
  ∀ st st1 st2, Edge sts st st1 → Edge sts st st2 → (st1.pos sp).1 = (st2.pos sp).1 → st1 = st2

/-- Every step obeys the safety guarantees. -/
def Safe (sp : SpecFile) (sts : List PState) : Prop :=
  ∀ st st', Edge sts st st' → sp.game.safetySys (st.pos sp) (st'.pos sp)

/-- Every infinite run along which the environment obeys the safety assumptions satisfies the liveness part of the specification. -/
def LiveRuns (sp : SpecFile) (sts : List PState) : Prop :=
  ∀ r : Nat → PState, (∀ n, Edge sts (r n) (r (n + 1))) →
    (∀ n, sp.game.safetyEnv ((r n).pos sp) ((r (n + 1)).pos sp).1) → sp.game.Live fun n => (r n).pos sp

end Slugs.Spec
