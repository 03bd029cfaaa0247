import Verif.Spec.Explicit

/-!
What an explicit-state counterstrategy is, and what makes it a proof of unrealizability: a list of numbered states, each with a rank (the
liveness assumption that is to be satisfied next and the liveness guarantee that is to be prevented), and either the numbers of its successors or
the remark that there are none.  The output of `--counterStrategy` has the format of the explicit strategies of `/repo/README.md`.
-/

namespace Slugs.Spec

/-- One state of a printed counterstrategy; `succ = none` stands for the remark that there are no successors. -/
structure CState where
  num : Nat
  rank : Nat × Nat
  label : List (Word × Bool)
  succ : Option (List Nat)
  deriving DecidableEq, Repr

/-- The position that a state is labelled with. -/
def CState.pos (sp : SpecFile) (st : CState) : Pos sp.In sp.Out :=
  (fun x => st.label.lookup x.1 == some true, fun x => st.label.lookup x.1 == some true)

/-- The state lists a value for every declared variable, and nothing else, each exactly once. -/
def CState.Complete (sp : SpecFile) (st : CState) : Prop := (st.label.map Prod.fst).Perm (sp.inputs ++ sp.outputs)

/-- The state lists a value for every declared input, and nothing else, each exactly once. -/
def CState.OnlyInputs (sp : SpecFile) (st : CState) : Prop := (st.label.map Prod.fst).Perm sp.inputs

/-- `st'` is a listed successor of `st`. -/
def CEdge (sts : List CState) (st st' : CState) : Prop :=
  st ∈ sts ∧ st' ∈ sts ∧ ∃ l, st.succ = some l ∧ st'.num ∈ l

/-- The numbers tell the states apart, every listed successor is printed, and the labels are as they should be: a position for a state
with a list of successors, the input with which the environment wins for a state without successors. -/
structure CWellFormed (sp : SpecFile) (sts : List CState) : Prop where
  numbers : (sts.map CState.num).Nodup
  targets : ∀ st ∈ sts, ∀ l, st.succ = some l → ∀ n ∈ l, ∃ st' ∈ sts, st'.num = n
  labels : ∀ st ∈ sts, if st.succ = none then st.OnlyInputs sp else st.Complete sp

/-- The environment never gets stuck: in every state with a list of successors there is an allowed next input such that
either this input leaves the system without an allowed move, and the only successor is the state without successors that is labelled with this input;
or the successors are exactly the positions that the system can go to after this input, and there is at least one. -/
def NeverStuck (sp : SpecFile) (sts : List CState) : Prop :=
  ∀ st ∈ sts, st.succ ≠ none → ∃ i, sp.game.safetyEnv (st.pos sp) i ∧
    (((∀ o, ¬ sp.game.safetySys (st.pos sp) (i, o)) ∧ (∃ st', CEdge sts st st') ∧
        ∀ st', CEdge sts st st' → st'.succ = none ∧ (st'.pos sp).1 = i) ∨
      ((∃ o, sp.game.safetySys (st.pos sp) (i, o)) ∧
        (∀ st', CEdge sts st st' → st'.succ ≠ none ∧ (st'.pos sp).1 = i ∧ sp.game.safetySys (st.pos sp) (st'.pos sp)) ∧
        ∀ o, sp.game.safetySys (st.pos sp) (i, o) → ∃ st', CEdge sts st st' ∧ st'.pos sp = (i, o)))

/-- Every infinite run violates the liveness part of the specification. -/
def LosingRuns (sp : SpecFile) (sts : List CState) : Prop :=
  ∀ r : Nat → CState, (∀ n, CEdge sts (r n) (r (n + 1))) → ¬ sp.game.Live fun n => (r n).pos sp

end Slugs.Spec
