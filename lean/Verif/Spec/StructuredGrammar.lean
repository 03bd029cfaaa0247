import Verif.Spec.Structured

/-!
The grammar of the formulas of structured specifications, and parse trees.
-/

namespace Slugs.Spec.Structured

/-- The syntactic categories, `Parser.py:69-84`. -/
inductive NT where

  | Formula | Biimplication | Implication | Xor | Disjunction | Conjunction | BinaryTemporalFormula | UnaryFormula | AtomicFormula
  | Brackets | BooleanAtomicFormula | Assignment | CalculationSubformula | NumberExpression | MultiplicativeNumber
  | LeastSignificantBitOverwriteExpression | AtomicNumberExpression | NumberBrackets | BinaryTemporalOperator | UntilOperator
  | WeakUntilOperator | ImplicationOperator | BiimplicationOperator | DisjunctionOperator | ConjunctionOperator | NumberComparisonOperator
  | GreaterOperator | SmallerOperator | EqualOperator | UnequalOperator | SmallerEqualOperator | GreaterEqualOperator | AdditionOperator
  | MultiplicationOperator | LeastSignificantBitOverwriteOperator | XorOperator | UnaryTemporalOperator | FinallyOperator | NextOperator
  | GloballyOperator | NotOperator
  deriving DecidableEq, Repr

/-- The symbols of the grammar. -/
inductive Sym where
  | t (a : Term)
  | n (X : NT)
  deriving DecidableEq, Repr

/-- The grammar, `grammar.wi` and `Parser.py:86-165`. -/
def rules : List (NT × List Sym) := [
  (.Formula, [.n .Biimplication]), (.Biimplication, [.n .Implication]),
  (.Biimplication, [.n .Biimplication, .n .BiimplicationOperator, .n .Implication]), (.Implication, [.n .Xor]),
  (.Implication, [.n .Implication, .n .ImplicationOperator, .n .Xor]), (.Xor, [.n .Disjunction]),
  (.Xor, [.n .Xor, .n .XorOperator, .n .Disjunction]), (.Disjunction, [.n .Conjunction]),
  (.Disjunction, [.n .Disjunction, .n .DisjunctionOperator, .n .Conjunction]), (.Conjunction, [.n .BinaryTemporalFormula]),
  (.Conjunction, [.n .Conjunction, .n .ConjunctionOperator, .n .BinaryTemporalFormula]), (.BinaryTemporalFormula, [.n .UnaryFormula]),
  (.BinaryTemporalFormula, [.n .BinaryTemporalFormula, .n .BinaryTemporalOperator, .n .UnaryFormula]), (.UnaryFormula, [.n .AtomicFormula]),
  (.UnaryFormula, [.n .UnaryTemporalOperator, .n .UnaryFormula]), (.AtomicFormula, [.t .FALSE]), (.AtomicFormula, [.t .TRUE]),
  (.AtomicFormula, [.n .Brackets]), (.AtomicFormula, [.n .BooleanAtomicFormula]), (.Brackets, [.t .lpar, .n .Biimplication, .t .rpar]),
  (.Brackets, [.t .lbrack, .n .Biimplication, .t .rbrack]), (.BooleanAtomicFormula, [.n .Assignment]),
  (.BooleanAtomicFormula, [.n .CalculationSubformula]), (.Assignment, [.t .boolID]),
  (.CalculationSubformula, [.n .NumberExpression, .n .NumberComparisonOperator, .n .NumberExpression]),
  (.NumberExpression, [.n .MultiplicativeNumber]), (.NumberExpression, [.n .MultiplicativeNumber, .n .AdditionOperator, .n .NumberExpression]),
  (.NumberExpression, [.n .MultiplicativeNumber, .t .subtraction, .n .NumberExpression]),
  (.MultiplicativeNumber, [.n .LeastSignificantBitOverwriteExpression]),
  (.MultiplicativeNumber, [.n .LeastSignificantBitOverwriteExpression, .n .MultiplicationOperator, .n .LeastSignificantBitOverwriteExpression]),
  (.LeastSignificantBitOverwriteExpression, [.n .AtomicNumberExpression]),
  (.LeastSignificantBitOverwriteExpression, [.n .AtomicNumberExpression, .n .LeastSignificantBitOverwriteOperator, .n .AtomicNumberExpression]),
  (.AtomicNumberExpression, [.t .numID]), (.AtomicNumberExpression, [.t .numeral]), (.AtomicNumberExpression, [.n .NumberBrackets]),
  (.NumberBrackets, [.t .lpar, .n .NumberExpression, .t .rpar]), (.BinaryTemporalOperator, [.n .UntilOperator]),
  (.BinaryTemporalOperator, [.n .WeakUntilOperator]), (.UntilOperator, [.t .U]), (.WeakUntilOperator, [.t .W]),
  (.ImplicationOperator, [.t .minus, .t .minus, .t .greater]), (.ImplicationOperator, [.t .minus, .t .greater]),
  (.BiimplicationOperator, [.t .less, .t .minus, .t .minus, .t .greater]), (.BiimplicationOperator, [.t .less, .t .minus, .t .greater]),
  (.DisjunctionOperator, [.t .backslash, .t .slash]), (.DisjunctionOperator, [.t .bar]), (.DisjunctionOperator, [.t .bar, .t .bar]),
  (.ConjunctionOperator, [.t .slash, .t .backslash]), (.ConjunctionOperator, [.t .amp]), (.ConjunctionOperator, [.t .amp, .t .amp]),
  (.NumberComparisonOperator, [.n .GreaterOperator]), (.NumberComparisonOperator, [.n .EqualOperator]),
  (.NumberComparisonOperator, [.n .UnequalOperator]), (.NumberComparisonOperator, [.n .GreaterEqualOperator]),
  (.NumberComparisonOperator, [.n .SmallerEqualOperator]), (.NumberComparisonOperator, [.n .SmallerOperator]), (.GreaterOperator, [.t .greater]),
  (.SmallerOperator, [.t .less]), (.EqualOperator, [.t .equal]), (.UnequalOperator, [.t .bang, .t .equal]),
  (.SmallerEqualOperator, [.t .less, .t .equal]), (.GreaterEqualOperator, [.t .greater, .t .equal]), (.AdditionOperator, [.t .plus]),
  (.MultiplicationOperator, [.t .star]), (.LeastSignificantBitOverwriteOperator, [.t .LSB]), (.XorOperator, [.t .caret]),
  (.UnaryTemporalOperator, [.n .FinallyOperator]), (.UnaryTemporalOperator, [.n .NextOperator]), (.UnaryTemporalOperator, [.n .GloballyOperator]),
  (.UnaryTemporalOperator, [.n .NotOperator]), (.FinallyOperator, [.t .less, .t .greater]), (.FinallyOperator, [.t .F]),
  (.NextOperator, [.t .lpar, .t .rpar]), (.NextOperator, [.t .next]), (.NextOperator, [.t .X]), (.GloballyOperator, [.t .lbrack, .t .rbrack]),
  (.GloballyOperator, [.t .G]), (.NotOperator, [.t .bang]), (.NotOperator, [.t .tilde])]

/-- Parse trees. -/
inductive Tree where
  | leaf (t : Tok)
  | node (X : NT) (children : List Tree)

mutual

/-- The tree is a parse tree for the symbol and the tokens. -/
inductive Derives : Sym → Tree → List Tok → Prop
  | leaf {t : Tok} : Derives (.t t.kind) (.leaf t) [t]
  | node {X rhs cs ts} : (X, rhs) ∈ rules → DerivesAll rhs cs ts → Derives (.n X) (.node X cs) ts

inductive DerivesAll : List Sym → List Tree → List Tok → Prop
  | nil : DerivesAll [] [] []
  | cons {s ss c cs ts us} : Derives s c ts → DerivesAll ss cs us → DerivesAll (s :: ss) (c :: cs) (ts ++ us)

end

end Slugs.Spec.Structured
