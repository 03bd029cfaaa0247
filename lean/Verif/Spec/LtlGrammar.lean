import Verif.Spec.LtlText

/-!
The grammar of formulas of linear temporal logic, and parse trees.
-/

namespace Slugs.Spec.LtlText

/-- The syntactic categories, `parser.py:69-76`. -/
inductive NT where
  | Formula | Biimplication | Implication | Xor | Disjunction | Conjunction | BinaryTemporalFormula | UnaryFormula | AtomicFormula
  | Brackets | BinaryTemporalOperator | UntilOperator | WeakUntilOperator | ImplicationOperator | BiimplicationOperator | DisjunctionOperator
  | ConjunctionOperator | XorOperator | UnaryTemporalOperator | FinallyOperator | NextOperator | GloballyOperator | NotOperator | Assignment
  deriving DecidableEq, Repr

/-- The symbols of the grammar. -/
inductive Sym where
  | t (a : Term)
  | n (X : NT)
  deriving DecidableEq, Repr

/-- The grammar, `grammar.wi` and `parser.py:78-132`. -/
def rules : List (NT × List Sym) := [
  (.Formula, [.n .Biimplication, .t .semi]), (.Biimplication, [.n .Implication]),
  (.Biimplication, [.n .Biimplication, .n .BiimplicationOperator, .n .Implication]), (.Implication, [.n .Xor]),
  (.Implication, [.n .Implication, .n .ImplicationOperator, .n .Xor]), (.Xor, [.n .Disjunction]),
  (.Xor, [.n .Xor, .n .XorOperator, .n .Disjunction]), (.Disjunction, [.n .Conjunction]),
  (.Disjunction, [.n .Disjunction, .n .DisjunctionOperator, .n .Conjunction]), (.Conjunction, [.n .BinaryTemporalFormula]),
  (.Conjunction, [.n .Conjunction, .n .ConjunctionOperator, .n .BinaryTemporalFormula]), (.BinaryTemporalFormula, [.n .UnaryFormula]),
  (.BinaryTemporalFormula, [.n .BinaryTemporalFormula, .n .BinaryTemporalOperator, .n .UnaryFormula]), (.UnaryFormula, [.n .AtomicFormula]),
  (.UnaryFormula, [.n .UnaryTemporalOperator, .n .UnaryFormula]), (.AtomicFormula, [.t .FALSE]), (.AtomicFormula, [.t .TRUE]),
  (.AtomicFormula, [.n .Brackets]), (.AtomicFormula, [.n .Assignment]), (.Brackets, [.t .lpar, .n .Biimplication, .t .rpar]),
  (.Brackets, [.t .lbrack, .n .Biimplication, .t .rbrack]), (.BinaryTemporalOperator, [.n .UntilOperator]),
  (.BinaryTemporalOperator, [.n .WeakUntilOperator]), (.UntilOperator, [.t .U]), (.WeakUntilOperator, [.t .W]),
  (.ImplicationOperator, [.t .minus, .t .minus, .t .greater]), (.ImplicationOperator, [.t .minus, .t .greater]),
  (.BiimplicationOperator, [.t .less, .t .minus, .t .minus, .t .greater]), (.BiimplicationOperator, [.t .less, .t .minus, .t .greater]),
  (.DisjunctionOperator, [.t .plus]), (.DisjunctionOperator, [.t .backslash, .t .slash]), (.DisjunctionOperator, [.t .bar]),
  (.DisjunctionOperator, [.t .bar, .t .bar]), (.ConjunctionOperator, [.t .star]), (.ConjunctionOperator, [.t .slash, .t .backslash]),
  (.ConjunctionOperator, [.t .amp]), (.ConjunctionOperator, [.t .amp, .t .amp]), (.XorOperator, [.t .caret]),
  (.UnaryTemporalOperator, [.n .FinallyOperator]), (.UnaryTemporalOperator, [.n .NextOperator]), (.UnaryTemporalOperator, [.n .GloballyOperator]),
  (.UnaryTemporalOperator, [.n .NotOperator]), (.FinallyOperator, [.t .less, .t .greater]), (.FinallyOperator, [.t .F]),
  (.NextOperator, [.t .lpar, .t .rpar]), (.NextOperator, [.t .next]), (.NextOperator, [.t .X]), (.GloballyOperator, [.t .lbrack, .t .rbrack]),
  (.GloballyOperator, [.t .G]), (.NotOperator, [.t .bang]), (.NotOperator, [.t .tilde]), (.Assignment, [.t .id]),
  (.Assignment, [.t .id, .t .equal, .t .zero]), (.Assignment, [.t .id, .t .equal, .t .one])]

/-- Parse trees. -/
inductive Tree where
  | leaf (t : Tok)
  | node (X : NT) (children : List Tree)

mutual

/-- The tree is a parse tree for the symbol and the tokens. -/
inductive Derives : Sym → Tree → List Tok → Prop
  | leaf {t : Tok} : Derives (.t t.kind) (.leaf t) [t]
  | node {X rhs cs ts} : (X, rhs) ∈ rules → DerivesAll rhs cs ts → Derives (.n X) (.node X cs) ts

inductive DerivesAll : List Sym → List Tree → List Tok → Prop
  | nil : DerivesAll [] [] []
  | cons {s ss c cs ts us} : Derives s c ts → DerivesAll ss cs us → DerivesAll (s :: ss) (c :: cs) (ts ++ us)

end

end Slugs.Spec.LtlText
