import Verif.Spec.LtlText

/-! The formulas that `tools/slugsFuzzer.py` makes up. -/

namespace Slugs.Spec.LtlText

/-- Formulas about one step with negations, conjunctions, disjunctions, the constant for truth, the variables `now`, and the variables `later` below `next`
(and no `next` if there are none). -/
def Ltl.Random (now later : List Word) : Ltl → Prop
  | .tt => True
  | .lit x v => v = none ∧ x ∈ now
  | .not f => f.Random now later
  | .next f => later ≠ [] ∧ f.Random later []
  | .and f g | .or f g => f.Random now later ∧ g.Random now later
  | _ => False

/-- The variables of the fuzzer, as they are called in formulas. -/
def fuzzInputs : List Word := [txt!"e.in0", txt!"e.in1", txt!"e.in2"]
def fuzzOutputs : List Word := [txt!"s.out0", txt!"s.out1", txt!"s.out2"]

/-- A safety assumption or guarantee without liveness part. -/
def RandomSafety (later : List Word) (c : Ltl) : Prop := ∃ f : Ltl, f.Random (fuzzInputs ++ fuzzOutputs) later ∧ c = .globally f

/-- A liveness assumption or guarantee. -/
def RandomLiveness (c : Ltl) : Prop := ∃ f : Ltl, f.Random (fuzzInputs ++ fuzzOutputs) [] ∧ c = .globally (.eventually f)

end Slugs.Spec.LtlText
